import Verif.Mir.Mask
/-!
# Flag files: bits

Lemmas: what one chunk of `mkread_c` and `mkwrite_c` does, bit by bit.
-/
namespace Verif.Mir.Mask

/-- flag number `p` of a sequence of integers -/
def bit (f : Nat → BitVec 32) (p : Nat) : Bool := (f (p / 31)).getLsbD (p % 31)

theorem bits_getLsbD (i k : Nat) : (bits i).getLsbD k = (decide (i < 32) && decide (k = i)) := by
  unfold bits
  rw [BitVec.getLsbD_twoPow]
  by_cases h : i = k <;> simp [h, eq_comm]

theorem masks_getLsbD (i k : Nat) : (masks i).getLsbD k = (decide (k < 32) && decide (k < i)) := by
  unfold masks
  rw [BitVec.getLsbD_ofNat, Nat.testBit_two_pow_sub_one]

theorem bits_and_ne (i : Nat) (w : BitVec 32) (hi : i < 32) :
    decide ((bits i &&& w) ≠ 0#32) = w.getLsbD i := by
  have h : (bits i &&& w) = 0#32 ↔ w.getLsbD i = false := by
    constructor
    · intro h
      have := congrArg (fun x => x.getLsbD i) h
      simpa [bits_getLsbD, hi] using this
    · intro h
      apply BitVec.eq_of_getLsbD_eq
      intro k hk
      rw [BitVec.getLsbD_and, bits_getLsbD]
      by_cases e : k = i
      · subst e; simp [h]
      · simp [e]
  cases hb : w.getLsbD i with
  | false => simp [h.2 hb]
  | true =>
    have : ¬(bits i &&& w) = 0#32 := fun e => by rw [h.1 e] at hb; cases hb
    simp [this]

theorem full_getLsbD (k : Nat) (hk : k < 31) : (0x7FFFFFFF#32).getLsbD k = true := by
  have : (0x7FFFFFFF#32) = masks 31 := by decide
  rw [this, masks_getLsbD]
  simp; omega

theorem stateWord_getLsbD (b : Bool) (k : Nat) (hk : k < 31) : (stateWord b).getLsbD k = b := by
  unfold stateWord
  cases b
  · simp
  · simp [full_getLsbD k hk]

theorem map_range_succ {α : Type} (g : Nat → α) (n : Nat) :
    (List.range (n + 1)).map g = g 0 :: (List.range n).map (fun k => g (k + 1)) := by
  rw [List.range_succ_eq_map, List.map_cons, List.map_map]
  rfl

theorem map_range_add {α : Type} (g : Nat → α) (a b : Nat) :
    (List.range (a + b)).map g = (List.range a).map g ++ (List.range b).map (fun k => g (a + k)) := by
  rw [List.range_add, List.map_append, List.map_map]
  rfl

theorem map_range_congr {α : Type} (n : Nat) (g g' : Nat → α) (h : ∀ k, k < n → g k = g' k) :
    (List.range n).map g = (List.range n).map g' := by
  apply List.map_congr_left
  intro k hk
  exact h k (List.mem_range.1 hk)

theorem map_range_const {α : Type} (n : Nat) (b : α) : (List.range n).map (fun _ => b) = List.replicate n b := by
  rw [List.map_const', List.length_range]

/-! ### reading flags -/

theorem flagsOfWord_eq (w : BitVec 32) (boff blen : Nat) (h : boff + blen ≤ 31) :
    flagsOfWord w boff blen = (List.range blen).map (fun k => w.getLsbD (boff + k)) := by
  unfold flagsOfWord
  split
  · rename_i e
    subst e
    rw [← map_range_const]
    apply map_range_congr
    intro k hk
    rw [full_getLsbD _ (by omega)]
  · split
    · rename_i e
      subst e
      rw [← map_range_const]
      apply map_range_congr
      intro k hk
      simp
    · apply map_range_congr
      intro k hk
      exact bits_and_ne _ _ (by omega)

theorem bit_at (f : Nat → BitVec 32) (w i : Nat) (hi : i < 31) : bit f (31 * w + i) = (f w).getLsbD i := by
  unfold bit
  have h1 : (31 * w + i) / 31 = w := by omega
  have h2 : (31 * w + i) % 31 = i := by omega
  rw [h1, h2]

theorem flagsChunk_eq (len : Nat) : ∀ (acc : List Bool) (buf : Nat → BitVec 32) (w boff : Nat), boff < 31 →
    flagsChunk acc buf w boff len = acc ++ (List.range len).map (fun k => bit buf (31 * w + boff + k)) := by
  induction len using Nat.strongRecOn with
  | ind len ih =>
    intro acc buf w boff hb
    unfold flagsChunk
    by_cases h0 : len = 0
    · subst h0; simp
    · rw [dif_neg (by omega)]
      simp only
      have hlt : len - min (31 - boff) len < len := by omega
      rw [ih _ hlt _ _ _ 0 (by omega), List.append_assoc, flagsOfWord_eq _ _ _ (by omega)]
      congr 1
      have hsum : len = min (31 - boff) len + (len - min (31 - boff) len) := by omega
      conv => rhs; rw [hsum, map_range_add]
      congr 1
      · apply map_range_congr
        intro k hk
        rw [Nat.add_assoc, bit_at _ _ _ (by omega)]
      · apply map_range_congr
        intro k hk
        congr 1
        omega

/-! ### reading runs -/

/-- one flag in runs format -/
def runStep (r : RunSt) (b : Bool) : RunSt :=
  let r' := if b = r.state then r else r.switch
  { r' with runs := r'.runs + 1 }

theorem runsBits_eq (w : BitVec 32) : ∀ (n : Nat) (r : RunSt) (i : Nat), i + n ≤ 31 →
    runsBits w r i n = ((List.range n).map (fun k => w.getLsbD (i + k))).foldl runStep r := by
  intro n
  induction n with
  | zero => intro r i _; rfl
  | succ n ih =>
    intro r i h
    rw [map_range_succ, List.foldl_cons]
    unfold runsBits
    simp only
    rw [ih _ _ (by omega)]
    have hstep : (let r' := if (bits i &&& w) ≠ (bits i &&& stateWord r.state) then r.switch else r
        ({ r' with runs := r'.runs + 1 } : RunSt)) = runStep r (w.getLsbD (i + 0)) := by
      unfold runStep
      have hc : ((bits i &&& w) ≠ (bits i &&& stateWord r.state)) ↔ ¬(w.getLsbD (i + 0) = r.state) := by
        rw [Nat.add_zero]
        apply not_congr
        constructor
        · intro e
          have := congrArg (fun x => x.getLsbD i) e
          simp only [BitVec.getLsbD_and, bits_getLsbD] at this
          rw [stateWord_getLsbD _ _ (by omega)] at this
          simpa [show i < 32 by omega] using this
        · intro e
          apply BitVec.eq_of_getLsbD_eq
          intro k hk
          rw [BitVec.getLsbD_and, BitVec.getLsbD_and, bits_getLsbD]
          by_cases ek : k = i
          · subst ek; rw [e, stateWord_getLsbD _ _ (by omega)]
          · simp [ek]
      by_cases hd : w.getLsbD (i + 0) = r.state
      · rw [if_neg (fun e => (hc.1 e) hd), if_pos hd]
      · rw [if_pos (hc.2 hd), if_neg hd]
    simp only at hstep
    rw [hstep]
    congr 1
    apply map_range_congr
    intro k _
    congr 1
    omega

theorem foldl_same (n : Nat) (r : RunSt) :
    (List.replicate n r.state).foldl runStep r = { r with runs := r.runs + n } := by
  induction n generalizing r with
  | zero => rfl
  | succ n ih =>
    rw [List.replicate_succ, List.foldl_cons]
    have e : runStep r r.state = { r with runs := r.runs + 1 } := by unfold runStep; simp
    rw [e]
    have := ih { r with runs := r.runs + 1 }
    simp only at this
    rw [this]
    congr 1
    omega

theorem runsWord_eq (r : RunSt) (w : BitVec 32) (boff blen : Nat) (h : boff + blen ≤ 31) (hpos : 0 < blen) :
    runsWord r w boff blen = ((List.range blen).map (fun k => w.getLsbD (boff + k))).foldl runStep r := by
  unfold runsWord
  split
  · rename_i e
    have : (List.range blen).map (fun k => w.getLsbD (boff + k)) = List.replicate blen r.state := by
      rw [← map_range_const]
      apply map_range_congr
      intro k hk
      rw [e, stateWord_getLsbD _ _ (by omega)]
    rw [this, foldl_same]
  · split
    · rename_i e
      have : (List.range blen).map (fun k => w.getLsbD (boff + k)) = List.replicate blen (!r.state) := by
        rw [← map_range_const]
        apply map_range_congr
        intro k hk
        rw [e, stateWord_getLsbD _ _ (by omega)]
      obtain ⟨n, rfl⟩ : ∃ n, blen = n + 1 := ⟨blen - 1, by omega⟩
      rw [this, List.replicate_succ, List.foldl_cons]
      have e1 : runStep r (!r.state) = { r.switch with runs := r.switch.runs + 1 } := by
        unfold runStep
        rw [if_neg (by cases r.state <;> simp)]
      have e2 : (!r.state) = (runStep r (!r.state)).state := by rw [e1]; rfl
      have hf := foldl_same n (runStep r (!r.state))
      rw [← e2] at hf
      rw [hf, e1]
      simp only
      congr 1
      omega
    · exact runsBits_eq w blen r boff h

theorem runsChunk_eq (len : Nat) : ∀ (acc : RunSt) (buf : Nat → BitVec 32) (w boff : Nat), boff < 31 →
    runsChunk acc buf w boff len =
      ((List.range len).map (fun k => bit buf (31 * w + boff + k))).foldl runStep acc := by
  induction len using Nat.strongRecOn with
  | ind len ih =>
    intro acc buf w boff hb
    unfold runsChunk
    by_cases h0 : len = 0
    · subst h0; simp
    · rw [dif_neg (by omega)]
      simp only
      have hlt : len - min (31 - boff) len < len := by omega
      rw [ih _ hlt _ _ _ 0 (by omega), runsWord_eq _ _ _ _ (by omega) (by omega)]
      have hsum : len = min (31 - boff) len + (len - min (31 - boff) len) := by omega
      conv => rhs; rw [hsum, map_range_add, List.foldl_append]
      congr 1
      · congr 1
        apply map_range_congr
        intro k hk
        rw [Nat.add_assoc, bit_at _ _ _ (by omega)]
      · apply map_range_congr
        intro k hk
        congr 1
        omega

/-! ### writing -/

/-- write flags one by one -/
def wr (buf : Nat → BitVec 32) (p : Nat) : List Bool → Nat → BitVec 32
  | [] => buf
  | b :: bs => wr (put buf (p / 31) (setBit (buf (p / 31)) (p % 31) b)) (p + 1) bs

theorem wr_append (buf : Nat → BitVec 32) (p : Nat) (as bs : List Bool) :
    wr buf p (as ++ bs) = wr (wr buf p as) (p + as.length) bs := by
  induction as generalizing buf p with
  | nil => rfl
  | cons a as ih =>
    simp only [List.cons_append, wr, List.length_cons]
    rw [ih]
    congr 1
    omega

theorem setBit_getLsbD (w : BitVec 32) (i k : Nat) (b : Bool) (hi : i < 32) :
    (setBit w i b).getLsbD k = if k = i then b else w.getLsbD k := by
  unfold setBit
  cases b with
  | true =>
    rw [if_pos rfl, BitVec.getLsbD_or, bits_getLsbD]
    by_cases h : k = i <;> simp [h, hi]
  | false =>
    rw [if_neg (by decide), BitVec.getLsbD_and, BitVec.getLsbD_not, bits_getLsbD]
    by_cases h : k = i
    · simp [h, hi]
    · simp only [h, decide_false, Bool.and_false, Bool.not_false, Bool.and_true, if_false]
      by_cases hk : k < 32
      · simp [hk]
      · rw [BitVec.getLsbD_of_ge _ _ (by omega)]; simp

/-- what writing does to bit `i` of integer `n` -/
theorem wr_getLsbD (bs : List Bool) : ∀ (buf : Nat → BitVec 32) (p n i : Nat),
    (wr buf p bs n).getLsbD i =
      if i < 31 ∧ p ≤ 31 * n + i ∧ 31 * n + i < p + bs.length then bs.getD (31 * n + i - p) false
      else (buf n).getLsbD i := by
  induction bs with
  | nil => intro buf p n i; rw [if_neg (by simp)]; rfl
  | cons b bs ih =>
    intro buf p n i
    unfold wr
    rw [ih]
    by_cases h : i < 31 ∧ p + 1 ≤ 31 * n + i ∧ 31 * n + i < p + 1 + bs.length
    · rw [if_pos h, if_pos ⟨h.1, by omega, by simp; omega⟩]
      have : 31 * n + i - p = (31 * n + i - (p + 1)) + 1 := by omega
      rw [this, List.getD_cons_succ]
    · rw [if_neg h]
      unfold put
      by_cases hn : n = p / 31
      · rw [if_pos hn, setBit_getLsbD _ _ _ _ (by omega), ← hn]
        by_cases hi : i = p % 31
        · rw [if_pos hi, if_pos ⟨by omega, by omega, by simp; omega⟩]
          have : 31 * n + i - p = 0 := by omega
          rw [this]; rfl
        · rw [if_neg hi, if_neg]
          simp only [List.length_cons]
          omega
      · rw [if_neg hn, if_neg]
        simp only [List.length_cons]
        omega

theorem bit_wr (buf : Nat → BitVec 32) (p q : Nat) (bs : List Bool) :
    bit (wr buf p bs) q = if p ≤ q ∧ q < p + bs.length then bs.getD (q - p) false else bit buf q := by
  unfold bit
  rw [wr_getLsbD]
  have : 31 * (q / 31) + q % 31 = q := by omega
  rw [this]
  by_cases h : p ≤ q ∧ q < p + bs.length
  · rw [if_pos ⟨by omega, h.1, h.2⟩, if_pos h]
  · rw [if_neg (fun e => h e.2), if_neg h]

theorem put_put (f : Nat → BitVec 32) (k : Nat) (v w : BitVec 32) : put (put f k v) k w = put f k w := by
  funext n
  unfold put
  by_cases h : n = k <;> simp [h]

theorem put_self (f : Nat → BitVec 32) (k : Nat) : put f k (f k) = f := by
  funext n
  unfold put
  by_cases h : n = k <;> simp [h]

theorem wr_word (bs : List Bool) : ∀ (buf : Nat → BitVec 32) (w i : Nat), i + bs.length ≤ 31 →
    wr buf (31 * w + i) bs = put buf w (writeBits (buf w) i bs) := by
  induction bs with
  | nil => intro buf w i _; exact (put_self _ _).symm
  | cons b bs ih =>
    intro buf w i h
    simp only [List.length_cons] at h
    unfold wr writeBits
    have h1 : (31 * w + i) / 31 = w := by omega
    have h2 : (31 * w + i) % 31 = i := by omega
    rw [h1, h2, Nat.add_assoc, ih _ _ _ (by omega), put_put]
    congr 1
    unfold put
    rw [if_pos rfl]

theorem writeFlags_eq (len : Nat) : ∀ (src : List Bool) (buf : Nat → BitVec 32) (w boff after : Nat), boff < 31 →
    len ≤ src.length →
    writeFlags src buf w boff len after = (src.drop len, wr buf (31 * w + boff) (src.take len)) := by
  induction len using Nat.strongRecOn with
  | ind len ih =>
    intro src buf w boff after hb hs
    unfold writeFlags
    by_cases h0 : len = 0
    · subst h0; simp [wr]
    · rw [dif_neg (by omega)]
      simp only
      have hlt : len - min (31 - boff) len < len := by omega
      rw [ih _ hlt _ _ _ 0 _ (by omega) (by simp; omega), List.drop_drop]
      have hsum : len = min (31 - boff) len + (len - min (31 - boff) len) := by omega
      congr 1
      · congr 1; omega
      · rw [← wr_word _ _ _ _ (by simp; omega)]
        conv => rhs; rw [hsum, List.take_add, wr_append]
        rw [List.length_take, Nat.min_eq_left (by omega : min (31 - boff) len ≤ src.length)]
        by_cases hc : len ≤ 31 - boff
        · have hz : len - min (31 - boff) len = 0 := by omega
          rw [hz]; simp [wr]
        · congr 1
          omega

/-! ### writing runs -/

/-- flag `k` (counted from here) that a runs source stands for -/
def genAt : List Nat → Nat → Nat → Bool → Nat → Bool
  | [], run, _, state, k => if k < run then state else !state
  | x :: fl, run, curr, state, k =>
    if k < run then state
    else genAt fl ((x - (if state then 1 else 0)) - curr) (x - (if state then 1 else 0)) (!state) (k - run)

def RunSrc.at (s : RunSrc) (k : Nat) : Bool := genAt s.flags s.run s.curr s.state k

theorem genAt_run (fl : List Nat) (run curr : Nat) (st : Bool) (k : Nat) (h : k < run) :
    genAt fl run curr st k = st := by
  cases fl <;> simp [genAt, h]

theorem genAt_sub (fl : List Nat) (run curr j : Nat) (st : Bool) (k : Nat) (h : j ≤ run) :
    genAt fl (run - j) curr st k = genAt fl run curr st (k + j) := by
  cases fl with
  | nil =>
    unfold genAt
    by_cases hk : k < run - j
    · rw [if_pos hk, if_pos (show k + j < run by omega)]
    · rw [if_neg hk, if_neg (show ¬(k + j < run) by omega)]
  | cons x fl =>
    unfold genAt
    by_cases hk : k < run - j
    · rw [if_pos hk, if_pos (show k + j < run by omega)]
    · rw [if_neg hk, if_neg (show ¬(k + j < run) by omega)]
      congr 1
      omega

theorem nextRun_spec (left : Nat) (hl : 0 < left) : ∀ (fl : List Nat) (run curr : Nat) (st : Bool),
    0 < (nextRun left fl run curr st).run ∧
    ∀ k, k < left → (nextRun left fl run curr st).at k = genAt fl run curr st k := by
  intro fl
  induction fl with
  | nil =>
    intro run curr st
    cases run with
    | zero =>
      refine ⟨hl, ?_⟩
      intro k hk
      show genAt [] left curr (!st) k = _
      unfold genAt
      rw [if_pos hk, if_neg (by omega)]
    | succ r => exact ⟨Nat.succ_pos r, fun k _ => rfl⟩
  | cons x fl ih =>
    intro run curr st
    cases run with
    | zero =>
      obtain ⟨h1, h2⟩ := ih ((x - (if st then 1 else 0)) - curr) (x - (if st then 1 else 0)) (!st)
      refine ⟨h1, ?_⟩
      intro k hk
      have := h2 k hk
      conv => rhs; unfold genAt
      rw [if_neg (by omega)]
      exact this
    | succ r => exact ⟨Nat.succ_pos r, fun k _ => rfl⟩

theorem mask_put (buf : Nat → BitVec 32) (w boff blen : Nat) (st : Bool) (h : boff + blen ≤ 31) :
    put buf w (if st then buf w ||| (masks (boff + blen) ^^^ masks boff)
      else buf w &&& ~~~ (masks (boff + blen) ^^^ masks boff)) = wr buf (31 * w + boff) (List.replicate blen st) := by
  funext n
  apply BitVec.eq_of_getLsbD_eq
  intro i hi
  rw [wr_getLsbD, List.length_replicate]
  unfold put
  by_cases hn : n = w
  · subst hn
    rw [if_pos rfl]
    have hm : (masks (boff + blen) ^^^ masks boff).getLsbD i = decide (boff ≤ i ∧ i < boff + blen) := by
      rw [BitVec.getLsbD_xor, masks_getLsbD, masks_getLsbD]
      by_cases h1 : i < boff
      · simp [hi, h1, show i < boff + blen by omega, show ¬(boff ≤ i) by omega]
      · by_cases h2 : i < boff + blen
        · simp [hi, h1, h2, show boff ≤ i by omega]
        · simp [hi, h1, h2]
    by_cases hr : boff ≤ i ∧ i < boff + blen
    · have hc : i < 31 ∧ 31 * n + boff ≤ 31 * n + i ∧ 31 * n + i < 31 * n + boff + blen := by omega
      rw [if_pos hc]
      have hg : (List.replicate blen st).getD (31 * n + i - (31 * n + boff)) false = st := by
        rw [List.getD_eq_getElem?_getD, List.getElem?_replicate, if_pos (by omega)]; rfl
      rw [hg]
      cases st with
      | true => rw [if_pos rfl, BitVec.getLsbD_or, hm]; simp [hr]
      | false => rw [if_neg (by decide), BitVec.getLsbD_and, BitVec.getLsbD_not, hm]; simp [hr]
    · have hc : ¬(i < 31 ∧ 31 * n + boff ≤ 31 * n + i ∧ 31 * n + i < 31 * n + boff + blen) := by omega
      rw [if_neg hc]
      cases st with
      | true => rw [if_pos rfl, BitVec.getLsbD_or, hm]; simp [hr]
      | false => rw [if_neg (by decide), BitVec.getLsbD_and, BitVec.getLsbD_not, hm]; simp [hr, hi]
  · have hc : ¬(i < 31 ∧ 31 * w + boff ≤ 31 * n + i ∧ 31 * n + i < 31 * w + boff + blen) := by omega
    rw [if_neg hn, if_neg hc]

theorem writeRuns_eq (len : Nat) : ∀ (s : RunSrc) (buf : Nat → BitVec 32) (w boff after : Nat), boff < 31 →
    ∃ s', writeRuns s buf w boff len after = (s', wr buf (31 * w + boff) ((List.range len).map s.at)) ∧
      ∀ k, k < after → s'.at k = s.at (k + len) := by
  induction len using Nat.strongRecOn with
  | ind len ih =>
    intro s buf w boff after hb
    unfold writeRuns
    by_cases h0 : len = 0
    · subst h0
      rw [dif_pos (Or.inl rfl)]
      exact ⟨s, rfl, fun k _ => rfl⟩
    · rw [dif_neg (by omega)]
      obtain ⟨hrun, hat⟩ := nextRun_spec (after + len) (by omega) s.flags s.run s.curr s.state
      generalize nextRun (after + len) s.flags s.run s.curr s.state = s1 at *
      simp only
      rw [dif_neg (by omega)]
      generalize hbl : min s1.run (min (31 - boff) len) = blen
      have hlt : len - blen < len := by omega
      obtain ⟨s', e1, e2⟩ := ih _ hlt { s1 with run := s1.run - blen }
        (put buf w (if s1.state = true then buf w ||| masks (boff + blen) ^^^ masks boff
          else buf w &&& ~~~(masks (boff + blen) ^^^ masks boff)))
        (if (boff + blen) % 31 = 0 then w + 1 else w) ((boff + blen) % 31) after (Nat.mod_lt _ (by decide))
      refine ⟨s', ?_, ?_⟩
      · rw [e1, mask_put _ _ _ _ _ (by omega)]
        have hsum : len = blen + (len - blen) := by omega
        conv => rhs; rw [hsum, map_range_add, wr_append]
        have hrep : (List.range blen).map s.at = List.replicate blen s1.state := by
          rw [← map_range_const]
          apply map_range_congr
          intro k hk
          have := hat k (by omega)
          rw [RunSrc.at, ← this]
          exact genAt_run _ _ _ _ _ (by omega)
        rw [hrep, List.length_replicate]
        congr 2
        · split <;> omega
        · apply map_range_congr
          intro k hk
          show genAt s1.flags (s1.run - blen) s1.curr s1.state k = _
          rw [genAt_sub _ _ _ _ _ _ (by omega)]
          have := hat (k + blen) (by omega)
          unfold RunSrc.at at this ⊢
          rw [this]
          congr 1
          omega
      · intro k hk
        rw [e2 k hk]
        show genAt s1.flags (s1.run - blen) s1.curr s1.state (k + (len - blen)) = _
        rw [genAt_sub _ _ _ _ _ _ (by omega)]
        have := hat (k + len) (by omega)
        unfold RunSrc.at at this ⊢
        rw [← this]
        congr 1
        omega

end Verif.Mir.Mask
