import Verif.Mir.MaskBits
/-!
# Properties C43 and C44 : flag files

The model is in `Verif.Mir.Mask`.
-/
namespace Verif.Mir.Mask

/-! ## Specification -/

/-- does flag `k` (from 0) lie in one of the runs, given as first and last flag (from 1) in turn?  A last flag that is
missing means "up to the end". -/
def inRuns : List Nat → Nat → Bool
  | [], _ => false
  | [s], k => decide (s ≤ k + 1)
  | s :: e :: r, k => decide (s ≤ k + 1 ∧ k + 1 ≤ e) || inRuns r k

/-- the runs are in order, none is empty, and they do not overlap; `c` is where the one before them ended -/
def RunsOk (c : Nat) : List Nat → Prop
  | [] => True
  | [s] => c < s
  | s :: e :: r => c < s ∧ s ≤ e ∧ RunsOk e r

/-- the runs are moreover maximal (a clear flag lies between any two) and end at `n` at the latest -/
def RunsMax (n c : Nat) : List Nat → Prop
  | [] => True
  | [_] => False
  | s :: e :: r => c < s ∧ s ≤ e ∧ e ≤ n ∧ RunsMax n (e + 1) r

/-- what a flag file is used for -/
inductive Op
  | write (off : Nat) (flags : List Bool)
  | writeRuns (off : Nat) (runs : List Nat) (n : Nat)
  | read (off n : Nat)
  | readRuns (off n : Nat)
  | flush
  | reopen (garbage : Nat → BitVec 32)

/-- one call on the file; an error is fatal -/
def step (m : Mask) : Op → Except Unit Mask
  | .write off flags => .ok (mkwriteFlags m off flags)
  | .writeRuns off runs n => .ok (mkwriteRuns m off runs n)
  | .read off n => match mkreadFlags m off n with
    | .ok r => .ok r.1
    | .error e => .error e
  | .readRuns off n => match mkreadRuns m off n with
    | .ok r => .ok r.1
    | .error e => .error e
  | .flush => .ok (sync m)
  | .reopen g => reopen m g

def run (m : Mask) : List Op → Except Unit Mask
  | [] => .ok m
  | o :: os => match step m o with
    | .ok m' => run m' os
    | .error e => .error e

/-- a growable array of flags: what is known about each of them -/
abbrev Flags := Nat → Option Bool

def Flags.step (T : Flags) : Op → Flags
  | .write off flags => fun q => if off ≤ q ∧ q < off + flags.length then flags[q - off]? else T q
  | .writeRuns off runs n => fun q => if off ≤ q ∧ q < off + n then some (inRuns runs (q - off)) else T q
  | _ => T

/-- the flags in an item of `words` integers -/
def Flags.ofFile (file : Nat → BitVec 32) (words : Nat) : Flags :=
  fun q => if q + 31 < 31 * words then some (bit file (q + 31)) else none

/-- runs given to the file are in order -/
def OpsOk (ops : List Op) : Prop := ∀ o ∈ ops, ∀ off runs n, o = .writeRuns off runs n → RunsOk 0 runs

/-! ## Lemmas -/

theorem cast31 (n : Nat) : ((n + 31 : Nat) : Int) = n + 31 := by omega

theorem bit_copy (src dst : Nat → BitVec 32) (s d n q : Nat) :
    bit (copy src s dst d n) q = if d ≤ q / 31 ∧ q / 31 < d + n then bit src (31 * s + (q - 31 * d)) else bit dst q := by
  unfold bit copy
  by_cases h : d ≤ q / 31 ∧ q / 31 < d + n
  · rw [if_pos h, if_pos h]
    have h1 : (31 * s + (q - 31 * d)) / 31 = s + (q / 31 - d) := by omega
    have h2 : (31 * s + (q - 31 * d)) % 31 = q % 31 := by omega
    rw [h1, h2]
  · rw [if_neg h, if_neg h]

theorem bit_put (f : Nat → BitVec 32) (b q : Nat) (w : BitVec 32) :
    bit (put f b w) q = if q / 31 = b then w.getLsbD (q % 31) else bit f q := by
  unfold bit put
  by_cases h : q / 31 = b
  · rw [if_pos h, if_pos h]
  · rw [if_neg h, if_neg h]

/-- the merge of two integers at bit `i` -/
theorem merge_getLsbD (t u : BitVec 32) (i k : Nat) (hk : k < 31) :
    ((t &&& ~~~ masks i) ||| (u &&& masks i)).getLsbD k = if k < i then u.getLsbD k else t.getLsbD k := by
  rw [BitVec.getLsbD_or, BitVec.getLsbD_and, BitVec.getLsbD_and, BitVec.getLsbD_not, masks_getLsbD]
  by_cases h : k < i <;> simp [h, show k < 32 by omega]

theorem merge_getLsbD' (t u : BitVec 32) (i k : Nat) (hk : k < 31) :
    ((t &&& masks i) ||| (u &&& ~~~ masks i)).getLsbD k = if k < i then t.getLsbD k else u.getLsbD k := by
  rw [BitVec.getLsbD_or, BitVec.getLsbD_and, BitVec.getLsbD_and, BitVec.getLsbD_not, masks_getLsbD]
  by_cases h : k < i <;> simp [h, show k < 32 by omega]

/-- the state of the file, given what is known about the flags (`S` counts the type tag as 31 flags) -/
structure Inv (m : Mask) (S : Nat → Option Bool) : Prop where
  off : m.offset % 31 = 0
  size : m.size % 31 = 0
  len0 : 0 ≤ m.length
  len1 : m.length ≤ 3968
  pos : 0 ≤ m.offset ∨ (m.offset = -3968 ∧ m.length = 0 ∧ m.modified = false)
  mod : m.modified = true → 0 < m.length
  clean : m.modified = false → m.length % 31 = 0 ∧ (0 < m.length → m.offset + m.length ≤ m.size)
  inside : ∀ (p : Nat) (b : Bool), S p = some b → m.offset ≤ p → (p : Int) < m.offset + m.length →
    bit m.buf ((p : Int) - m.offset).toNat = b
  outside : ∀ (p : Nat) (b : Bool), S p = some b → m.modified = false ∨ (p : Int) < m.offset ∨ m.offset + m.length ≤ p →
    (p : Int) < m.size ∧ bit m.file p = b

theorem flush_length (m : Mask) (S : Nat → Option Bool) (hI : Inv m S) (hm : m.modified = true) :
    (mkflush m).length % 31 = 0 ∧ m.length ≤ (mkflush m).length ∧ (mkflush m).length < m.length + 31 ∧
    (mkflush m).length ≤ 3968 ∧ (mkflush m).offset = m.offset ∧ (mkflush m).modified = false ∧
    m.offset + (mkflush m).length ≤ (mkflush m).size ∧ (mkflush m).size % 31 = 0 ∧ m.size ≤ (mkflush m).size ∧
    (∀ p : Nat, m.offset ≤ p → (p : Int) < m.offset + (mkflush m).length → (p : Int) < m.offset + m.length →
      bit (mkflush m).buf ((p : Int) - m.offset).toNat = bit m.buf ((p : Int) - m.offset).toNat) ∧
    (∀ p : Nat, m.offset + m.length ≤ p → (p : Int) < m.offset + (mkflush m).length → (p : Int) < m.size →
      bit (mkflush m).buf ((p : Int) - m.offset).toNat = bit m.file p) ∧
    (mkflush m).file = copy (mkflush m).buf 0 m.file (m.offset / 31).toNat ((mkflush m).length / 31).toNat := by
  have h1 := hI.off; have h2 := hI.size; have h3 := hI.len0; have h4 := hI.len1; have h5 := hI.mod hm
  have h6 : 0 ≤ m.offset := by
    rcases hI.pos with h | ⟨_, h, _⟩
    · exact h
    · omega
  unfold mkflush
  by_cases hc : m.offset + m.length ≥ m.size
  · simp only [if_pos hc]
    refine ⟨by omega, by omega, by omega, by omega, trivial, trivial, by omega, by omega, by omega, ?_, ?_, trivial⟩
    · intro p _ _ _; trivial
    · intro p _ _ h; omega
  · simp only [if_neg hc]
    by_cases hr : m.length % 31 ≠ 0
    · simp only [if_pos hr]
      refine ⟨by omega, by omega, by omega, by omega, trivial, trivial, by omega, by omega, by omega, ?_, ?_, trivial⟩
      · intro p hp0 _ hp
        rw [bit_put]
        split
        · rename_i he
          rw [merge_getLsbD _ _ _ _ (by omega), if_pos (by omega)]
          unfold bit
          rw [he]
        · rfl
      · intro p hp0 hp1 hp2
        rw [bit_put, if_pos (by omega), merge_getLsbD _ _ _ _ (by omega), if_neg (by omega)]
        unfold bit
        congr 1
        · congr 1; omega
        · omega
    · simp only [if_neg hr]
      refine ⟨by omega, by omega, by omega, by omega, trivial, trivial, by omega, by omega, by omega, ?_, ?_, trivial⟩
      · intro p _ _ _; trivial
      · intro p _ _ h; omega

theorem flush_inv (m : Mask) (S : Nat → Option Bool) (hI : Inv m S) (hm : m.modified = true) : Inv (mkflush m) S := by
  obtain ⟨f1, f2, f3, f4, f5, f6, f7, f8, f9, f10, f11, f12⟩ := flush_length m S hI hm
  have h1 := hI.off; have h3 := hI.len0; have h5 := hI.mod hm
  have h6 : 0 ≤ m.offset := by
    rcases hI.pos with h | ⟨_, h, _⟩
    · exact h
    · omega
  have key : ∀ (p : Nat) (b : Bool), S p = some b → m.offset ≤ p → (p : Int) < m.offset + (mkflush m).length →
      bit (mkflush m).buf ((p : Int) - m.offset).toNat = b := by
    intro p b hs hp0 hp1
    by_cases hin : (p : Int) < m.offset + m.length
    · rw [f10 p hp0 hp1 hin]
      exact hI.inside p b hs hp0 hin
    · have ho := hI.outside p b hs (Or.inr (Or.inr (by omega)))
      rw [f11 p (by omega) hp1 ho.1]
      exact ho.2
  refine ⟨by rw [f5]; exact h1, f8, by omega, f4, by rw [f5]; exact Or.inl h6, fun h => by rw [f6] at h; exact absurd h (by decide),
    fun _ => ⟨f1, fun _ => by rw [f5]; exact f7⟩, ?_, ?_⟩
  · intro p b hs hp0 hp1
    rw [f5] at hp0 hp1 ⊢
    exact key p b hs hp0 hp1
  · intro p b hs _
    rw [f12, bit_copy]
    by_cases hin : m.offset ≤ p ∧ (p : Int) < m.offset + (mkflush m).length
    · refine ⟨by omega, ?_⟩
      rw [if_pos (by omega)]
      have e : 31 * 0 + (p - 31 * (m.offset / 31).toNat) = ((p : Int) - m.offset).toNat := by omega
      rw [e]
      exact key p b hs hin.1 hin.2
    · have ho := hI.outside p b hs (Or.inr (by omega))
      refine ⟨by omega, ?_⟩
      rw [if_neg (by omega)]
      exact ho.2

theorem sync_inv (m : Mask) (S : Nat → Option Bool) (hI : Inv m S) :
    Inv (sync m) S ∧ (sync m).modified = false := by
  unfold sync
  cases hm : m.modified with
  | true => exact ⟨flush_inv m S hI hm, rfl⟩
  | false => exact ⟨hI, hm⟩

theorem load_inv (m m' : Mask) (S : Nat → Option Bool) (hI : Inv m S) (p : Nat) (h : load m p = .ok m') :
    Inv m' S ∧ 0 ≤ m'.offset ∧ m'.offset ≤ p ∧ (p : Int) < m'.offset + m'.length := by
  unfold load at h
  by_cases hc : (p : Int) < m.offset ∨ (p : Int) ≥ m.offset + m.length
  · rw [if_pos hc] at h
    obtain ⟨hS, hmod⟩ := sync_inv m S hI
    simp only at h
    by_cases hl : min ((sync m).size - (p : Int) / 31 * 31) BUF ≤ 0
    · rw [if_pos hl] at h; cases h
    · rw [if_neg hl] at h
      simp only [Except.ok.injEq] at h
      subst h
      have hs := hS.size
      have hB : BUF = 3968 := rfl
      rw [hB] at *
      refine ⟨⟨?_, hs, ?_, ?_, ?_, ?_, ?_, ?_, ?_⟩, ?_, ?_, ?_⟩
      · simp only; omega
      · simp only; omega
      · simp only; omega
      · left; simp only; omega
      · intro h; cases h
      · intro _; simp only; omega
      · intro q b hq h0 h1
        simp only at h0 h1 ⊢
        rw [bit_copy, if_pos (by omega)]
        have := (hS.outside q b hq (Or.inl hmod)).2
        rw [← this]
        congr 1
        omega
      · intro q b hq _
        exact hS.outside q b hq (Or.inl hmod)
      · simp only; omega
      · simp only; omega
      · simp only; omega
  · rw [if_neg hc] at h
    simp only [Except.ok.injEq] at h
    subst h
    refine ⟨hI, ?_, by omega, by omega⟩
    rcases hI.pos with h | ⟨h1, h2, _⟩
    · exact h
    · omega

theorem load_ok (m : Mask) (S : Nat → Option Bool) (hI : Inv m S) (p : Nat) (b : Bool) (hp : S p = some b) :
    ∃ m', load m p = .ok m' := by
  unfold load
  by_cases hc : (p : Int) < m.offset ∨ (p : Int) ≥ m.offset + m.length
  · rw [if_pos hc]
    obtain ⟨hS, hmod⟩ := sync_inv m S hI
    have := (hS.outside p b hp (Or.inl hmod)).1
    have hs := hS.size
    have hB : BUF = 3968 := rfl
    simp only
    rw [if_neg (by omega)]
    exact ⟨_, rfl⟩
  · rw [if_neg hc]; exact ⟨m, rfl⟩

theorem fill_inv (m : Mask) (S : Nat → Option Bool) (hI : Inv m S) (p : Nat) (h0 : 0 ≤ m.offset)
    (hp : (p : Int) > m.offset + m.length) (hp' : (p : Int) < m.offset + 3968) :
    Inv (mkfill m p) S ∧ (mkfill m p).offset = m.offset ∧
    ∀ q : Nat, (mkfill m p).offset + (mkfill m p).length ≤ q → q < p → S q = none := by
  have h1 := hI.off; have h2 := hI.size; have h3 := hI.len0; have h4 := hI.len1
  unfold mkfill
  by_cases hc : m.offset + m.length < m.size
  · rw [if_pos hc]
    simp only
    have key : ∀ (q : Nat) (b : Bool), S q = some b → m.offset ≤ q →
        (q : Int) < m.offset + ((((m.offset + m.length) / 31 +
          (min ((p : Int) / 31 + 1) (m.size / 31) - (m.offset + m.length) / 31)) * 31) - m.offset) →
        bit (put (copy m.file ((m.offset + m.length) / 31).toNat m.buf (m.length / 31).toNat
          (min ((p : Int) / 31 + 1) (m.size / 31) - (m.offset + m.length) / 31).toNat) (m.length / 31).toNat
          ((m.buf (m.length / 31).toNat &&& masks (m.length % 31).toNat) |||
            (copy m.file ((m.offset + m.length) / 31).toNat m.buf (m.length / 31).toNat
              (min ((p : Int) / 31 + 1) (m.size / 31) - (m.offset + m.length) / 31).toNat (m.length / 31).toNat &&&
              ~~~ masks (m.length % 31).toNat))) ((q : Int) - m.offset).toNat = b := by
      intro q b hq hq0 hq1
      rw [bit_put]
      by_cases hin : (q : Int) < m.offset + m.length
      · have hb := hI.inside q b hq hq0 hin
        split
        · rename_i he
          rw [merge_getLsbD' _ _ _ _ (by omega), if_pos (by omega), ← hb]
          unfold bit
          rw [he]
        · rename_i he
          rw [bit_copy, if_neg (by omega)]
          exact hb
      · have hb := (hI.outside q b hq (Or.inr (Or.inr (by omega)))).2
        split
        · rename_i he
          rw [merge_getLsbD' _ _ _ _ (by omega), if_neg (by omega), ← hb]
          unfold copy bit
          rw [if_pos (by omega)]
          congr 1
          · congr 1; omega
          · omega
        · rename_i he
          rw [bit_copy, if_pos (by omega), ← hb]
          congr 1
          omega
    refine ⟨⟨h1, h2, ?_, ?_, Or.inl h0, ?_, ?_, ?_, ?_⟩, trivial, ?_⟩
    · simp only; omega
    · simp only; omega
    · intro hm; have := hI.mod hm; simp only; omega
    · intro hm; simp only; omega
    · intro q b hq hq0 hq1; exact key q b hq hq0 hq1
    · intro q b hq ho
      apply hI.outside q b hq
      simp only at ho
      rcases ho with h | h | h
      · exact Or.inl h
      · exact Or.inr (Or.inl h)
      · exact Or.inr (Or.inr (by omega))
    · intro q hq hqp
      cases hs : S q with
      | none => rfl
      | some b =>
        have := (hI.outside q b hs (Or.inr (Or.inr (by omega)))).1
        omega
  · rw [if_neg hc]
    refine ⟨hI, rfl, ?_⟩
    intro q hq _
    cases hs : S q with
    | none => rfl
    | some b =>
      have := (hI.outside q b hs (Or.inr (Or.inr hq))).1
      omega

theorem place_inv (m : Mask) (S : Nat → Option Bool) (hI : Inv m S) (p : Nat) :
    Inv (place m p) S ∧ 0 ≤ (place m p).offset ∧ (place m p).offset ≤ p ∧ (p : Int) < (place m p).offset + 3968 ∧
    ∀ q : Nat, (place m p).offset + (place m p).length ≤ q → q < p → S q = none := by
  have hB : BUF = 3968 := rfl
  have hm' : ∃ m', (if (p : Int) < m.offset ∨ (p : Int) ≥ m.offset + BUF then
      { sync m with offset := (p : Int) / 31 * 31, length := 0, modified := false } else m) = m' ∧ Inv m' S ∧
      0 ≤ m'.offset ∧ m'.offset ≤ p ∧ (p : Int) < m'.offset + 3968 := by
    refine ⟨_, rfl, ?_⟩
    by_cases hc : (p : Int) < m.offset ∨ (p : Int) ≥ m.offset + BUF
    · rw [if_pos hc]
      obtain ⟨hS, hmod⟩ := sync_inv m S hI
      refine ⟨⟨?_, hS.size, ?_, ?_, ?_, ?_, ?_, ?_, ?_⟩, ?_, ?_, ?_⟩
      · simp only; omega
      · simp only; omega
      · simp only; omega
      · left; simp only; omega
      · intro h; cases h
      · intro _; simp
      · intro q b _ h0 h1; simp only at h0 h1; omega
      · intro q b hq _; exact hS.outside q b hq (Or.inl hmod)
      · simp only; omega
      · simp only; omega
      · simp only; omega
    · rw [if_neg hc]
      refine ⟨hI, ?_, by omega, by omega⟩
      rcases hI.pos with h | ⟨h1, h2, _⟩
      · exact h
      · omega
  obtain ⟨m', e, hI', a0, a1, a2⟩ := hm'
  unfold place
  simp only
  rw [e]
  by_cases hg : (p : Int) > m'.offset + m'.length
  · rw [if_pos hg]
    obtain ⟨f1, f2, f3⟩ := fill_inv m' S hI' p a0 hg a2
    exact ⟨f1, by rw [f2]; exact a0, by rw [f2]; exact a1, by rw [f2]; exact a2, f3⟩
  · rw [if_neg hg]
    exact ⟨hI', a0, a1, a2, fun q h1 h2 => by omega⟩

/-- the flags `g 0, g 1, ..` are written from position `p` on, `n` of them -/
def over (S : Nat → Option Bool) (p n : Nat) (g : Nat → Bool) : Nat → Option Bool :=
  fun q => if p ≤ q ∧ q < p + n then some (g (q - p)) else S q

theorem over_zero (S : Nat → Option Bool) (p : Nat) (g : Nat → Bool) : over S p 0 g = S := by
  funext q
  unfold over
  rw [if_neg (by omega)]

theorem over_over (S : Nat → Option Bool) (p a b : Nat) (g : Nat → Bool) :
    over (over S p a g) (p + a) b (fun k => g (k + a)) = over S p (a + b) g := by
  funext q
  unfold over
  by_cases h1 : p + a ≤ q ∧ q < p + a + b
  · rw [if_pos h1, if_pos (show p ≤ q ∧ q < p + (a + b) by omega)]
    show some (g (q - (p + a) + a)) = _
    rw [show q - (p + a) + a = q - p by omega]
  · rw [if_neg h1]
    by_cases h2 : p ≤ q ∧ q < p + a
    · rw [if_pos h2, if_pos (by omega)]
    · rw [if_neg h2, if_neg (by omega)]

/-- writing the flags that a function gives, chunk by chunk -/
def fnChunk (g : Nat → Bool) (buf : Nat → BitVec 32) (w boff len _after : Nat) : (Nat → Bool) × (Nat → BitVec 32) :=
  (fun k => g (k + len), wr buf (31 * w + boff) ((List.range len).map g))

theorem fnLoop_inv (fuel : Nat) : ∀ (m : Mask) (S : Nat → Option Bool) (g : Nat → Bool) (p n : Nat), Inv m S →
    n ≤ fuel → Inv (writeLoop fnChunk fuel m g p n) (over S p n g) := by
  induction fuel with
  | zero =>
    intro m S g p n hI hn
    have : n = 0 := by omega
    subst this
    rw [over_zero]
    exact hI
  | succ fuel ih =>
    intro m S g p n hI hn
    cases n with
    | zero => rw [over_zero]; exact hI
    | succ n =>
      unfold writeLoop
      simp only
      obtain ⟨hP, a0, a1, a2, a3⟩ := place_inv m S hI p
      generalize place m p = m1 at *
      have hB : BUF = 3968 := rfl
      generalize hlen : (min (BUF - ((p : Int) - m1.offset)) ((n + 1 : Nat) : Int)).toNat = len
      have hl1 : 1 ≤ len := by omega
      have hl2 : len ≤ n + 1 := by omega
      have hl3 : (len : Int) ≤ 3968 - (p - m1.offset) := by omega
      have hstart : 31 * (((p : Int) - m1.offset) / 31).toNat + (((p : Int) - m1.offset) % 31).toNat =
          ((p : Int) - m1.offset).toNat := by omega
      have b1 := hP.off; have b2 := hP.len0; have b3 := hP.len1
      have hI2 : Inv ⟨m1.file, wr m1.buf ((p : Int) - m1.offset).toNat ((List.range len).map g), true, m1.offset,
          max m1.length ((p : Int) - m1.offset + len), m1.size⟩ (over S p len g) := by
        refine ⟨b1, hP.size, ?_, ?_, Or.inl a0, ?_, ?_, ?_, ?_⟩
        · simp only; omega
        · simp only; omega
        · intro _; simp only; omega
        · intro h; cases h
        · intro q b hq h0 h1
          simp only at h0 h1 ⊢
          rw [bit_wr, List.length_map, List.length_range]
          unfold over at hq
          by_cases hin : p ≤ q ∧ q < p + len
          · rw [if_pos hin] at hq
            rw [if_pos (by omega), List.getD_eq_getElem?_getD, List.getElem?_map, List.getElem?_range (by omega)]
            have e : ((q : Int) - m1.offset).toNat - ((p : Int) - m1.offset).toNat = q - p := by omega
            rw [e]
            simpa using hq
          · rw [if_neg hin] at hq
            rw [if_neg (by omega)]
            by_cases hold : (q : Int) < m1.offset + m1.length
            · exact hP.inside q b hq h0 hold
            · have := a3 q (by omega) (by omega)
              rw [this] at hq; cases hq
        · intro q b hq ho
          simp only at ho
          unfold over at hq
          by_cases hin : p ≤ q ∧ q < p + len
          · rcases ho with h | h | h
            · cases h
            · omega
            · omega
          · rw [if_neg hin] at hq
            apply hP.outside q b hq
            rcases ho with h | h | h
            · cases h
            · exact Or.inr (Or.inl h)
            · exact Or.inr (Or.inr (by omega))
      have := ih _ _ (fun k => g (k + len)) (p + len) (n + 1 - len) hI2 (by omega)
      rw [over_over, show len + (n + 1 - len) = n + 1 by omega] at this
      unfold fnChunk at this ⊢
      simp only at this ⊢
      rw [hstart]
      rw [Int.natCast_add] at this
      exact this

/-- a writer that takes its flags from a source which behaves like a function -/
theorem loop_sim {σ : Type} (f : σ → (Nat → BitVec 32) → Nat → Nat → Nat → Nat → σ × (Nat → BitVec 32))
    (R : σ → (Nat → Bool) → Nat → Prop)
    (hf : ∀ s g buf w boff len after, boff < 31 → R s g (len + after) →
      ∃ s', f s buf w boff len after = (s', wr buf (31 * w + boff) ((List.range len).map g)) ∧
        R s' (fun k => g (k + len)) after) (fuel : Nat) : ∀ (m : Mask) (s : σ) (g : Nat → Bool) (p : Int) (n : Nat),
      R s g n → writeLoop f fuel m s p n = writeLoop fnChunk fuel m g p n := by
  induction fuel with
  | zero => intro m s g p n _; cases n <;> rfl
  | succ fuel ih =>
    intro m s g p n hR
    cases n with
    | zero => rfl
    | succ n =>
      unfold writeLoop
      simp only
      generalize place m p = m1
      generalize hlen : (min (BUF - (p - m1.offset)) ((n + 1 : Nat) : Int)).toNat = len
      have hb : ((p - m1.offset) % 31).toNat < 31 := by omega
      obtain ⟨s', e1, e2⟩ := hf s g m1.buf ((p - m1.offset) / 31).toNat ((p - m1.offset) % 31).toNat len
        (n + 1 - len) hb (by rw [show len + (n + 1 - len) = n + 1 by omega]; exact hR)
      rw [e1]
      exact ih _ _ _ _ _ e2

theorem writeFlags_fn (m : Mask) (off : Nat) (flags : List Bool) :
    mkwriteFlags m off flags =
      writeLoop fnChunk flags.length m (fun k => flags.getD k false) ((off + 31 : Nat) : Int) flags.length := by
  unfold mkwriteFlags
  have := loop_sim writeFlags (fun s g n => s.length = n ∧ ∀ k, k < n → g k = s.getD k false) (by
    intro s g buf w boff len after hb hR
    refine ⟨s.drop len, ?_, ?_, ?_⟩
    · rw [writeFlags_eq len s buf w boff after hb (by omega)]
      congr 2
      apply List.ext_getElem?
      intro k
      rw [List.getElem?_take, List.getElem?_map]
      by_cases hk : k < len
      · rw [if_pos hk, List.getElem?_range hk, Option.map_some, hR.2 k (by omega), List.getD_eq_getElem?_getD,
          List.getElem?_eq_getElem (by omega)]
        rfl
      · rw [if_neg hk, List.getElem?_eq_none (by simp; omega)]; rfl
    · rw [List.length_drop]; omega
    · intro k hk
      show g (k + len) = _
      rw [hR.2 (k + len) (by omega), List.getD_eq_getElem?_getD, List.getD_eq_getElem?_getD, List.getElem?_drop,
        Nat.add_comm]) flags.length m flags (fun k => flags.getD k false) (off + 31) flags.length
    ⟨rfl, fun k _ => rfl⟩
  rw [this]
  rfl

theorem writeRuns_fn (m : Mask) (off : Nat) (runs : List Nat) (n : Nat) :
    mkwriteRuns m off runs n =
      writeLoop fnChunk n m (fun k => genAt runs 0 0 true k) ((off + 31 : Nat) : Int) n := by
  unfold mkwriteRuns
  have := loop_sim writeRuns (fun s g n => ∀ k, k < n → g k = s.at k) (by
    intro s g buf w boff len after hb hR
    obtain ⟨s', e1, e2⟩ := writeRuns_eq len s buf w boff after hb
    refine ⟨s', ?_, ?_⟩
    · rw [e1]
      congr 2
      apply map_range_congr
      intro k hk
      exact (hR k (by omega)).symm
    · intro k hk
      rw [e2 k hk]
      exact hR (k + len) (by omega)) n m ⟨runs, 0, 0, true⟩ (fun k => genAt runs 0 0 true k) (off + 31) n
    (fun k _ => rfl)
  rw [this]
  rfl

/-- writing depends only on the flags that are written -/
theorem fnLoop_congr (fuel : Nat) (m : Mask) (g g' : Nat → Bool) (p : Int) (n : Nat) (h : ∀ k, k < n → g k = g' k) :
    writeLoop fnChunk fuel m g p n = writeLoop fnChunk fuel m g' p n := by
  refine loop_sim fnChunk (fun s g n => ∀ k, k < n → g k = s k) ?_ fuel m g g' p n (fun k hk => (h k hk).symm)
  intro s g buf w boff len after _ hR
  refine ⟨fun k => s (k + len), ?_, fun k hk => hR (k + len) (by omega)⟩
  unfold fnChunk
  congr 2
  exact map_range_congr _ _ _ (fun k hk => (hR k (by omega)).symm)

/-- runs in order stand for what they say -/
theorem genAt_inRuns : ∀ (runs : List Nat) (run c k : Nat), RunsOk c runs →
    genAt runs run c true k = if k < run then true else inRuns runs (k - run + c)
  | [], run, c, k, _ => by
    unfold genAt inRuns
    rfl
  | [s], run, c, k, h => by
    unfold RunsOk at h
    unfold genAt inRuns genAt
    simp only [if_true]
    by_cases hk : k < run
    · rw [if_pos hk, if_pos hk]
    · rw [if_neg hk, if_neg hk]
      by_cases h2 : k - run < s - 1 - c
      · rw [if_pos h2]
        simp only [Bool.not_true]
        symm; rw [decide_eq_false_iff_not]; omega
      · rw [if_neg h2]
        simp only [Bool.not_true, Bool.not_false]
        symm; rw [decide_eq_true_iff]; omega
  | s :: e :: r, run, c, k, h => by
    unfold RunsOk at h
    obtain ⟨h1, h2, h3⟩ := h
    unfold genAt inRuns
    simp only [if_true, Bool.not_true]
    by_cases hk : k < run
    · rw [if_pos hk, if_pos hk]
    · rw [if_neg hk, if_neg hk]
      unfold genAt
      simp only [Bool.not_false, Bool.false_eq_true, if_false, Nat.sub_zero]
      by_cases hg : k - run < s - 1 - c
      · rw [if_pos hg]
        have hr : inRuns r (k - run + c) = false := inRuns_before r e _ h3 (by omega)
        rw [hr]
        simp only [Bool.or_false]
        symm; rw [decide_eq_false_iff_not]; omega
      · rw [if_neg hg, genAt_inRuns r (e - (s - 1)) e _ h3]
        by_cases hi : k - run - (s - 1 - c) < e - (s - 1)
        · rw [if_pos hi]
          have : decide (s ≤ k - run + c + 1 ∧ k - run + c + 1 ≤ e) = true := by rw [decide_eq_true_iff]; omega
          rw [this]; rfl
        · rw [if_neg hi]
          have : decide (s ≤ k - run + c + 1 ∧ k - run + c + 1 ≤ e) = false := by rw [decide_eq_false_iff_not]; omega
          rw [this, Bool.false_or]
          congr 1
          omega
where
  inRuns_before : ∀ (r : List Nat) (e k : Nat), RunsOk e r → k < e → inRuns r k = false
    | [], _, _, _, _ => rfl
    | [s], e, k, h, hk => by
      unfold RunsOk at h
      unfold inRuns
      rw [decide_eq_false_iff_not]; omega
    | s :: e' :: r, e, k, h, hk => by
      unfold RunsOk at h
      unfold inRuns
      rw [inRuns_before r e' k h.2.2 (by omega)]
      simp only [Bool.or_false]
      rw [decide_eq_false_iff_not]; omega

/-! ### reading -/

/-- a chunk reader that treats the flags one by one -/
def Reads {α : Type} (f : α → (Nat → BitVec 32) → Nat → Nat → Nat → α) (g : α → Bool → α) : Prop :=
  ∀ acc buf w boff len, boff < 31 →
    f acc buf w boff len = ((List.range len).map (fun k => bit buf (31 * w + boff + k))).foldl g acc

theorem flags_reads : Reads flagsChunk (fun acc b => acc ++ [b]) := by
  intro acc buf w boff len hb
  rw [flagsChunk_eq len acc buf w boff hb]
  generalize (List.range len).map (fun k => bit buf (31 * w + boff + k)) = l
  induction l generalizing acc with
  | nil => simp
  | cons b l ih => rw [List.foldl_cons, ← ih]; simp

theorem runs_reads : Reads runsChunk runStep := fun acc buf w boff len hb => runsChunk_eq len acc buf w boff hb

/-- the flags that the loop sees, whatever is done with them -/
def seen : Nat → Mask → Int → Nat → Except Unit (Mask × List Bool)
  | _, m, _, 0 => .ok (m, [])
  | 0, m, _, _ => .ok (m, [])
  | fuel + 1, m, p, n + 1 =>
    match load m p with
    | .error e => .error e
    | .ok m' =>
      let boff := p - m'.offset
      let len := (min (m'.length - boff) (n + 1 : Nat)).toNat
      match seen fuel m' (p + len) (n + 1 - len) with
      | .error e => .error e
      | .ok (m'', bs) =>
        .ok (m'', (List.range len).map (fun k => bit m'.buf (31 * (boff / 31).toNat + (boff % 31).toNat + k)) ++ bs)

theorem readLoop_seen {α : Type} (f : α → (Nat → BitVec 32) → Nat → Nat → Nat → α) (g : α → Bool → α)
    (hf : Reads f g) (fuel : Nat) : ∀ (m : Mask) (acc : α) (p : Int) (n : Nat), readLoop f fuel m acc p n =
      (match seen fuel m p n with
      | .error e => .error e
      | .ok (m', bs) => .ok (m', bs.foldl g acc)) := by
  induction fuel with
  | zero => intro m acc p n; cases n <;> rfl
  | succ fuel ih =>
    intro m acc p n
    cases n with
    | zero => rfl
    | succ n =>
      unfold readLoop seen
      cases hl : load m p with
      | error e => rfl
      | ok m' =>
        simp only
        rw [ih, hf _ _ _ _ _ (by omega)]
        cases hs : seen fuel m' (p + (min (m'.length - (p - m'.offset)) (n + 1 : Nat)).toNat)
            (n + 1 - (min (m'.length - (p - m'.offset)) (n + 1 : Nat)).toNat) with
        | error e => rfl
        | ok r => simp only [List.foldl_append]

theorem seen_inv (fuel : Nat) : ∀ (m m' : Mask) (S : Nat → Option Bool) (p n : Nat) (bs : List Bool), Inv m S →
    n ≤ fuel → seen fuel m p n = .ok (m', bs) →
    Inv m' S ∧ bs.length = n ∧ ∀ (k : Nat) (b : Bool), k < n → S (p + k) = some b → bs[k]? = some b := by
  induction fuel with
  | zero =>
    intro m m' S p n bs hI hn h
    have : n = 0 := by omega
    subst this
    simp only [seen, Except.ok.injEq, Prod.mk.injEq] at h
    obtain ⟨rfl, rfl⟩ := h
    exact ⟨hI, rfl, fun k b hk => by omega⟩
  | succ fuel ih =>
    intro m m' S p n bs hI hn h
    cases n with
    | zero =>
      simp only [seen, Except.ok.injEq, Prod.mk.injEq] at h
      obtain ⟨rfl, rfl⟩ := h
      exact ⟨hI, rfl, fun k b hk => by omega⟩
    | succ n =>
      unfold seen at h
      cases hl : load m p with
      | error e => rw [hl] at h; cases h
      | ok m1 =>
        rw [hl] at h
        simp only at h
        obtain ⟨hI1, c0, c1, c2⟩ := load_inv m m1 S hI p hl
        generalize hlen : (min (m1.length - ((p : Int) - m1.offset)) ((n + 1 : Nat) : Int)).toNat = len at h
        have hl1 : 1 ≤ len := by omega
        have hl2 : len ≤ n + 1 := by omega
        have hl3 : (len : Int) ≤ m1.length - (p - m1.offset) := by omega
        cases hs : seen fuel m1 ((p : Int) + len) (n + 1 - len) with
        | error e => rw [hs] at h; cases h
        | ok r =>
          rw [hs] at h
          obtain ⟨m2, bs'⟩ := r
          simp only [Except.ok.injEq, Prod.mk.injEq] at h
          obtain ⟨rfl, rfl⟩ := h
          have hs' : seen fuel m1 ((p + len : Nat) : Int) (n + 1 - len) = .ok (m2, bs') := by
            rw [Int.natCast_add]; exact hs
          obtain ⟨i1, i2, i3⟩ := ih m1 m2 S (p + len) (n + 1 - len) bs' hI1 (by omega) hs'
          refine ⟨i1, by simp [i2]; omega, ?_⟩
          intro k b hk hS
          by_cases hkl : k < len
          · rw [List.getElem?_append_left (by simpa using hkl), List.getElem?_map, List.getElem?_range hkl,
              Option.map_some]
            congr 1
            rw [← hI1.inside (p + k) b hS (by omega) (by rw [Int.natCast_add]; omega)]
            congr 1
            omega
          · rw [List.getElem?_append_right (by simp; omega), List.length_map, List.length_range]
            exact i3 (k - len) b (by omega) (by rw [← hS]; congr 1; omega)

theorem seen_ok (fuel : Nat) : ∀ (m : Mask) (S : Nat → Option Bool) (p n : Nat), Inv m S →
    n ≤ fuel → (∀ k, k < n → S (p + k) ≠ none) → ∃ r, seen fuel m p n = .ok r := by
  induction fuel with
  | zero =>
    intro m S p n hI hn _
    have : n = 0 := by omega
    subst this
    exact ⟨_, rfl⟩
  | succ fuel ih =>
    intro m S p n hI hn hd
    cases n with
    | zero => exact ⟨_, rfl⟩
    | succ n =>
      have h0 := hd 0 (by omega)
      rw [Nat.add_zero] at h0
      cases hp : S p with
      | none => exact absurd hp h0
      | some b =>
        obtain ⟨m1, hl⟩ := load_ok m S hI p b hp
        obtain ⟨hI1, c0, c1, c2⟩ := load_inv m m1 S hI p hl
        unfold seen
        rw [hl]
        simp only
        generalize hlen : (min (m1.length - ((p : Int) - m1.offset)) ((n + 1 : Nat) : Int)).toNat = len
        obtain ⟨⟨m2, bs⟩, hr⟩ := ih m1 S (p + len) (n + 1 - len) hI1 (by omega)
          (fun k hk => by rw [Nat.add_assoc]; exact hd (len + k) (by omega))
        rw [Int.natCast_add] at hr
        rw [hr]
        exact ⟨_, rfl⟩

theorem foldl_snoc (bs acc : List Bool) : bs.foldl (fun acc b => acc ++ [b]) acc = acc ++ bs := by
  induction bs generalizing acc with
  | nil => simp
  | cons b bs ih => rw [List.foldl_cons, ih]; simp

theorem readFlags_seen (m : Mask) (off n : Nat) : mkreadFlags m off n = seen n m ((off + 31 : Nat) : Int) n := by
  unfold mkreadFlags
  have e := readLoop_seen flagsChunk _ flags_reads n m [] ((off + 31 : Nat) : Int) n
  rw [cast31] at e ⊢
  rw [e]
  cases hs : seen n m ((off : Int) + 31) n with
  | error e => rfl
  | ok r => simp only [foldl_snoc, List.nil_append]

/-- runs in the terms of the file, seen from the tag -/
def shift (T : Flags) : Nat → Option Bool := fun p => if p < 31 then none else T (p - 31)

theorem shift_over (T : Flags) (off n : Nat) (g : Nat → Bool) :
    over (shift T) (off + 31) n g = shift (fun q => if off ≤ q ∧ q < off + n then some (g (q - off)) else T q) := by
  funext p
  show over (shift T) (off + 31) n g p = if p < 31 then none else
    (if off ≤ p - 31 ∧ p - 31 < off + n then some (g (p - 31 - off)) else T (p - 31))
  unfold over shift
  by_cases h : off + 31 ≤ p ∧ p < off + 31 + n
  · rw [if_pos h, if_neg (show ¬p < 31 by omega), if_pos (show off ≤ p - 31 ∧ p - 31 < off + n by omega)]
    rw [show p - (off + 31) = p - 31 - off by omega]
  · rw [if_neg h]
    by_cases h2 : p < 31
    · rw [if_pos h2, if_pos h2]
    · rw [if_neg h2, if_neg h2, if_neg (show ¬(off ≤ p - 31 ∧ p - 31 < off + n) by omega)]

theorem open_inv (file buf : Nat → BitVec 32) (words : Nat) : Inv (mkopen file buf words)
    (shift (Flags.ofFile file words)) := by
  refine ⟨rfl, ?_, Int.le_refl 0, (by decide : (0 : Int) ≤ 3968), Or.inr ⟨rfl, rfl, rfl⟩,
    fun h => Bool.noConfusion (show false = true from h), fun _ => ⟨rfl, fun h => absurd h (Int.lt_irrefl 0)⟩, ?_, ?_⟩
  · show (31 * (words : Int)) % 31 = 0; omega
  · intro p b _ h0 h1
    have : (mkopen file buf words).offset = -3968 := rfl
    have : (mkopen file buf words).length = 0 := rfl
    omega
  · intro p b hp _
    show (p : Int) < 31 * (words : Int) ∧ bit file p = b
    unfold shift Flags.ofFile at hp
    by_cases h : p < 31
    · rw [if_pos h] at hp; cases hp
    · rw [if_neg h] at hp
      by_cases h2 : p - 31 + 31 < 31 * words
      · rw [if_pos h2] at hp
        rw [show p - 31 + 31 = p by omega] at hp
        exact ⟨by omega, Option.some.inj hp⟩
      · rw [if_neg h2] at hp; cases hp

theorem step_inv (m m' : Mask) (T : Flags) (o : Op) (hI : Inv m (shift T))
    (ho : ∀ off runs n, o = .writeRuns off runs n → RunsOk 0 runs) (h : step m o = .ok m') :
    Inv m' (shift (T.step o)) := by
  cases o with
  | write off flags =>
    simp only [step, Except.ok.injEq] at h
    subst h
    have := fnLoop_inv flags.length m (shift T) (fun k => flags.getD k false) (off + 31) flags.length hI (Nat.le_refl _)
    rw [shift_over, ← writeFlags_fn] at this
    have e : T.step (.write off flags) =
        fun q => if off ≤ q ∧ q < off + flags.length then some (flags.getD (q - off) false) else T q := by
      funext q
      unfold Flags.step
      simp only
      by_cases hq : off ≤ q ∧ q < off + flags.length
      · rw [if_pos hq, if_pos hq, List.getD_eq_getElem?_getD, List.getElem?_eq_getElem (by omega)]; rfl
      · rw [if_neg hq, if_neg hq]
    rw [e]
    exact this
  | writeRuns off runs n =>
    simp only [step, Except.ok.injEq] at h
    subst h
    have := fnLoop_inv n m (shift T) (fun k => genAt runs 0 0 true k) (off + 31) n hI (Nat.le_refl _)
    rw [shift_over, ← writeRuns_fn] at this
    have e : T.step (.writeRuns off runs n) =
        fun q => if off ≤ q ∧ q < off + n then some (genAt runs 0 0 true (q - off)) else T q := by
      funext q
      unfold Flags.step
      simp only
      rw [genAt_inRuns runs 0 0 _ (ho off runs n rfl)]
      rfl
    rw [e]
    exact this
  | read off n =>
    simp only [step] at h
    cases hr : mkreadFlags m off n with
    | error e => rw [hr] at h; cases h
    | ok r =>
      rw [hr] at h
      simp only [Except.ok.injEq] at h
      subst h
      rw [readFlags_seen] at hr
      exact (seen_inv n m r.1 (shift T) (off + 31) n r.2 hI (Nat.le_refl _) hr).1
  | readRuns off n =>
    simp only [step] at h
    unfold mkreadRuns at h
    have e := readLoop_seen runsChunk _ runs_reads n m ⟨[], 0, false⟩ ((off + 31 : Nat) : Int) n
    rw [cast31] at e
    rw [e] at h
    cases hs : seen n m ((off : Int) + 31) n with
    | error e => rw [hs] at h; cases h
    | ok r =>
      rw [hs] at h
      simp only [Except.ok.injEq] at h
      subst h
      exact (seen_inv n m r.1 (shift T) (off + 31) n r.2 hI (Nat.le_refl _) (by rw [cast31]; exact hs)).1
  | flush =>
    simp only [step, Except.ok.injEq] at h
    subst h
    exact (sync_inv m _ hI).1
  | reopen g =>
    simp only [step] at h
    unfold reopen at h
    obtain ⟨hS, hmod⟩ := sync_inv m _ hI
    simp only at h
    by_cases hc : (sync m).size / 31 ≤ 1
    · rw [if_pos hc] at h; cases h
    · rw [if_neg hc] at h
      simp only [Except.ok.injEq] at h
      subst h
      have ho := open_inv (sync m).file g ((sync m).size / 31).toNat
      have hs := hS.size
      refine ⟨ho.off, ho.size, ho.len0, ho.len1, ho.pos, ho.mod, ho.clean, ?_, ?_⟩
      · intro p b _ h0 h1
        have : (mkopen (sync m).file g ((sync m).size / 31).toNat).offset = -3968 := rfl
        have : (mkopen (sync m).file g ((sync m).size / 31).toNat).length = 0 := rfl
        omega
      · intro p b hp _
        have := hS.outside p b hp (Or.inl hmod)
        refine ⟨?_, this.2⟩
        show (p : Int) < 31 * (((sync m).size / 31).toNat : Int)
        omega

theorem run_inv (ops : List Op) : ∀ (m m' : Mask) (T : Flags), Inv m (shift T) → OpsOk ops → run m ops = .ok m' →
    Inv m' (shift (ops.foldl Flags.step T)) := by
  induction ops with
  | nil => intro m m' T hI _ h; simp only [run, Except.ok.injEq] at h; subst h; exact hI
  | cons o os ih =>
    intro m m' T hI hO h
    unfold run at h
    cases hs : step m o with
    | error e => rw [hs] at h; cases h
    | ok m1 =>
      rw [hs] at h
      exact ih m1 m' _ (step_inv m m1 T o hI (hO o (by simp)) hs) (fun o' ho' => hO o' (by simp [ho'])) h

/-! ## C43 -/

/-- C43: after any history of writes, reads, flushes and reopenings of a flag file, reading flags gives for every flag
that was in the file or has been written the value written last.  (`file` is the item when it is first opened, with
`words` integers; `buf` is what the buffer happens to hold.) -/
theorem c43_last_written (file buf : Nat → BitVec 32) (words : Nat) (ops : List Op) (hO : OpsOk ops) (m m' : Mask)
    (h : run (mkopen file buf words) ops = .ok m) (off n : Nat) (bs : List Bool)
    (hr : mkreadFlags m off n = .ok (m', bs)) :
    bs.length = n ∧ ∀ (k : Nat) (b : Bool), k < n →
      ops.foldl Flags.step (Flags.ofFile file words) (off + k) = some b → bs[k]? = some b := by
  have hI := run_inv ops _ m _ (open_inv file buf words) hO h
  rw [readFlags_seen] at hr
  obtain ⟨_, h2, h3⟩ := seen_inv n m m' _ (off + 31) n bs hI (Nat.le_refl _) hr
  refine ⟨h2, fun k b hk hs => h3 k b hk ?_⟩
  unfold shift
  rw [if_neg (by omega), ← hs, show off + 31 + k - 31 = off + k by omega]

/-- C43: and reading flags that are all known succeeds. -/
theorem c43_readable (file buf : Nat → BitVec 32) (words : Nat) (ops : List Op) (hO : OpsOk ops) (m : Mask)
    (h : run (mkopen file buf words) ops = .ok m) (off n : Nat)
    (hk : ∀ k, k < n → ops.foldl Flags.step (Flags.ofFile file words) (off + k) ≠ none) :
    ∃ m' bs, mkreadFlags m off n = .ok (m', bs) := by
  have hI := run_inv ops _ m _ (open_inv file buf words) hO h
  rw [readFlags_seen]
  obtain ⟨⟨m', bs⟩, hr⟩ := seen_ok n m _ (off + 31) n hI (Nat.le_refl _) (fun k hk' => by
    unfold shift
    rw [if_neg (by omega)]
    have := hk k hk'
    rw [show off + 31 + k - 31 = off + k by omega]
    exact this)
  exact ⟨m', bs, hr⟩

/-- C43: closing the file after writing something leaves everything on disk: the integers of the item hold the flags. -/
theorem c43_on_disk (file buf : Nat → BitVec 32) (words : Nat) (ops : List Op) (hO : OpsOk ops) (m : Mask)
    (h : run (mkopen file buf words) ops = .ok m) (q : Nat) (b : Bool)
    (hq : ops.foldl Flags.step (Flags.ofFile file words) q = some b) :
    ((sync m).file ((q + 31) / 31)).getLsbD (q % 31) = b ∧ ((q + 31 : Nat) : Int) < (sync m).size := by
  have hI := run_inv ops _ m _ (open_inv file buf words) hO h
  obtain ⟨hS, hmod⟩ := sync_inv m _ hI
  have := hS.outside (q + 31) b (by unfold shift; rw [if_neg (by omega), ← hq]; congr 1) (Or.inl hmod)
  refine ⟨?_, this.1⟩
  rw [← this.2]
  unfold bit
  congr 1
  omega

/-- the hypotheses are met: a new file, written across integers, overwritten in part, closed and reopened -/
example : (do
    let m ← run (mkopen (fun _ => 0xDEADBEEF#32) (fun _ => 0xCAFEBABE#32) 1)
      [.write 0 (List.replicate 40 true), .write 30 [false, true, false], .readRuns 0 35,
        .reopen (fun _ => 0x12345678#32), .writeRuns 33 [2, 3] 4]
    let r ← mkreadFlags m 28 10
    pure r.2 : Except Unit (List Bool)).toOption =
    some [true, true, false, true, false, false, true, true, false, true] := by decide +kernel

/-! ## C44 -/

theorem runsMax_mono {n n' : Nat} (hn : n ≤ n') : ∀ (r : List Nat) (c : Nat), RunsMax n c r → RunsMax n' c r
  | [], _, _ => trivial
  | [_], _, h => h
  | s :: e :: r, c, h => by
    unfold RunsMax at h ⊢
    exact ⟨h.1, h.2.1, by omega, runsMax_mono hn r _ h.2.2.2⟩

theorem runsMax_snoc {n N s e : Nat} (hN : N + 1 < s ∨ N = 0) (hs : s ≤ e) (he : e ≤ n) (hn : N ≤ n) :
    ∀ (r : List Nat) (c : Nat), c < s → RunsMax N c r → RunsMax n c (r ++ [s, e])
  | [], c, hc, _ => ⟨hc, hs, he, trivial⟩
  | [_], _, _, h => absurd h (by simp [RunsMax])
  | s' :: e' :: r, c, hc, h => by
    unfold RunsMax at h
    show RunsMax n c (s' :: e' :: (r ++ [s, e]))
    unfold RunsMax
    exact ⟨h.1, h.2.1, by omega, runsMax_snoc hN hs he hn r _ (by omega) h.2.2.2⟩

theorem runsMax_grow {n s : Nat} : ∀ (r : List Nat) (c : Nat), RunsMax n c (r ++ [s, n]) →
    RunsMax (n + 1) c (r ++ [s, n + 1])
  | [], c, h => by
    simp only [List.nil_append, RunsMax] at h ⊢
    exact ⟨h.1, by omega, Nat.le_refl _, trivial⟩
  | [x], c, h => by
    simp only [List.cons_append, List.nil_append, RunsMax] at h
    exact absurd h.2.2.2 (by simp)
  | s' :: e' :: r, c, h => by
    change RunsMax n c (s' :: e' :: (r ++ [s, n])) at h
    show RunsMax (n + 1) c (s' :: e' :: (r ++ [s, n + 1]))
    unfold RunsMax at h ⊢
    exact ⟨h.1, h.2.1, by omega, runsMax_grow r _ h.2.2.2⟩

/-- flags beyond the last run are clear -/
theorem inRuns_beyond {n k : Nat} (hk : n ≤ k) : ∀ (r : List Nat) (c : Nat), RunsMax n c r → inRuns r k = false
  | [], _, _ => rfl
  | [_], _, h => absurd h (by simp [RunsMax])
  | s :: e :: r, c, h => by
    unfold RunsMax at h
    unfold inRuns
    rw [inRuns_beyond hk r _ h.2.2.2]
    simp only [Bool.or_false]
    rw [decide_eq_false_iff_not]
    omega

theorem inRuns_snoc {n s e k : Nat} : ∀ (r : List Nat) (c : Nat), RunsMax n c (r ++ [s, e]) →
    inRuns (r ++ [s, e]) k = (inRuns r k || decide (s ≤ k + 1 ∧ k + 1 ≤ e))
  | [], c, _ => by simp [inRuns]
  | [x], c, h => by
    simp only [List.cons_append, List.nil_append, RunsMax] at h
    exact absurd h.2.2.2 (by simp)
  | s' :: e' :: r, c, h => by
    change RunsMax n c (s' :: e' :: (r ++ [s, e])) at h
    show inRuns (s' :: e' :: (r ++ [s, e])) k = _
    unfold RunsMax at h
    unfold inRuns
    rw [inRuns_snoc r _ h.2.2.2, Bool.or_assoc]

/-- what `mkread_c` returns in runs format -/
def runsOf (r : RunSt) : List Nat := if r.state then r.out ++ [r.runs] else r.out

theorem runs_invariant (bs : List Bool) : ∃ r, bs.foldl runStep ⟨[], 0, false⟩ = r ∧ r.runs = bs.length ∧
    (r.state = false → RunsMax (r.runs - 1) 0 r.out) ∧
    (r.state = true → 0 < r.runs ∧ ∃ o s, r.out = o ++ [s] ∧ RunsMax r.runs 0 (o ++ [s, r.runs])) ∧
    ∀ k, k < bs.length → bs.getD k false = inRuns (runsOf r) k := by
  refine ⟨_, rfl, ?_⟩
  have key : ∀ l : List Bool, let bs := l.reverse; let r := bs.foldl runStep ⟨[], 0, false⟩
      r.runs = bs.length ∧ (r.state = false → RunsMax (r.runs - 1) 0 r.out) ∧
      (r.state = true → 0 < r.runs ∧ ∃ o s, r.out = o ++ [s] ∧ RunsMax r.runs 0 (o ++ [s, r.runs])) ∧
      ∀ k, k < bs.length → bs.getD k false = inRuns (runsOf r) k := by
    intro l
    induction l with
    | nil => exact ⟨rfl, fun _ => trivial, fun h => Bool.noConfusion (show false = true from h), fun k hk => absurd hk (by simp)⟩
    | cons b l ih =>
      simp only [List.reverse_cons, List.foldl_append, List.foldl_cons, List.foldl_nil] at ih ⊢
      obtain ⟨i1, i2, i3, i4⟩ := ih
      generalize hr : l.reverse.foldl runStep ⟨[], 0, false⟩ = r at *
      have hget : ∀ k, k < l.reverse.length → (l.reverse ++ [b]).getD k false = l.reverse.getD k false := by
        intro k hk
        rw [List.getD_eq_getElem?_getD, List.getD_eq_getElem?_getD, List.getElem?_append_left hk]
      have hlast : (l.reverse ++ [b]).getD l.reverse.length false = b := by
        rw [List.getD_eq_getElem?_getD, List.getElem?_append_right (Nat.le_refl _)]; simp
      have hlen : (l.reverse ++ [b]).length = l.reverse.length + 1 := by simp
      obtain ⟨out, runs, state⟩ := r
      simp only at i1 i2 i3
      rw [hlen]
      cases state with
      | false =>
        have j2 := i2 rfl
        cases b with
        | false =>
          have e : runStep ⟨out, runs, false⟩ false = ⟨out, runs + 1, false⟩ := rfl
          rw [e]
          refine ⟨by simp only; omega, fun _ => runsMax_mono (by simp only; omega) _ _ j2,
            fun h => Bool.noConfusion (show false = true from h), ?_⟩
          intro k hk
          by_cases hk' : k < l.reverse.length
          · rw [hget k hk', i4 k hk']; rfl
          · have : k = l.reverse.length := by omega
            subst this
            rw [hlast]
            exact (inRuns_beyond (by omega) out 0 j2).symm
        | true =>
          have e : runStep ⟨out, runs, false⟩ true = ⟨out ++ [runs + 1], runs + 1, true⟩ := rfl
          rw [e]
          have hmax : RunsMax (runs + 1) 0 (out ++ [runs + 1, runs + 1]) :=
            runsMax_snoc (N := runs - 1) (by omega) (Nat.le_refl _) (Nat.le_refl _) (by omega) out 0 (by omega) j2
          refine ⟨by simp only; omega, fun h => Bool.noConfusion (show true = false from h),
            fun _ => ⟨by simp, out, runs + 1, rfl, hmax⟩, ?_⟩
          intro k hk
          have ho : runsOf ⟨out ++ [runs + 1], runs + 1, true⟩ = out ++ [runs + 1, runs + 1] := by
            unfold runsOf; simp
          rw [ho, inRuns_snoc out 0 hmax]
          by_cases hk' : k < l.reverse.length
          · rw [hget k hk', i4 k hk']
            have : decide (runs + 1 ≤ k + 1 ∧ k + 1 ≤ runs + 1) = false := by rw [decide_eq_false_iff_not]; omega
            rw [this, Bool.or_false]; rfl
          · have : k = l.reverse.length := by omega
            subst this
            rw [hlast]
            have : decide (runs + 1 ≤ l.reverse.length + 1 ∧ l.reverse.length + 1 ≤ runs + 1) = true := by
              rw [decide_eq_true_iff]; omega
            rw [this, Bool.or_true]
      | true =>
        obtain ⟨hpos, o, s, rfl, hmax⟩ := i3 rfl
        have ho : runsOf ⟨o ++ [s], runs, true⟩ = o ++ [s, runs] := by unfold runsOf; simp
        rw [ho] at i4
        cases b with
        | true =>
          have e : runStep ⟨o ++ [s], runs, true⟩ true = ⟨o ++ [s], runs + 1, true⟩ := rfl
          rw [e]
          have hmax' := runsMax_grow o 0 hmax
          refine ⟨by simp only; omega, fun h => Bool.noConfusion (show true = false from h),
            fun _ => ⟨by simp, o, s, rfl, hmax'⟩, ?_⟩
          intro k hk
          have ho' : runsOf ⟨o ++ [s], runs + 1, true⟩ = o ++ [s, runs + 1] := by unfold runsOf; simp
          rw [ho', inRuns_snoc o 0 hmax']
          by_cases hk' : k < l.reverse.length
          · rw [hget k hk', i4 k hk', inRuns_snoc o 0 hmax]
            congr 1
            rw [decide_eq_decide]
            omega
          · have : k = l.reverse.length := by omega
            subst this
            rw [hlast]
            have hs := runsMax_last o 0 hmax
            have : decide (s ≤ l.reverse.length + 1 ∧ l.reverse.length + 1 ≤ runs + 1) = true := by
              rw [decide_eq_true_iff]; omega
            rw [this, Bool.or_true]
        | false =>
          have e : runStep ⟨o ++ [s], runs, true⟩ false = ⟨o ++ [s, runs], runs + 1, false⟩ := by
            unfold runStep RunSt.switch; simp
          rw [e]
          refine ⟨by simp only; omega, fun _ => hmax, fun h => Bool.noConfusion (show false = true from h), ?_⟩
          intro k hk
          show _ = inRuns (o ++ [s, runs]) k
          by_cases hk' : k < l.reverse.length
          · rw [hget k hk', i4 k hk']
          · have : k = l.reverse.length := by omega
            subst this
            rw [hlast]
            exact (inRuns_beyond (by omega) _ 0 hmax).symm
  have := key bs.reverse
  simp only [List.reverse_reverse] at this
  exact this
where
  runsMax_last {n s e : Nat} : ∀ (r : List Nat) (c : Nat), RunsMax n c (r ++ [s, e]) → s ≤ e
    | [], c, h => by
      simp only [List.nil_append, RunsMax] at h
      exact h.2.1
    | [x], c, h => by
      simp only [List.cons_append, List.nil_append, RunsMax] at h
      exact absurd h.2.2.2 (by simp)
    | s' :: e' :: r, c, h => by
      change RunsMax n c (s' :: e' :: (r ++ [s, e])) at h
      unfold RunsMax at h
      exact runsMax_last r _ h.2.2.2

/-- C44: reading in runs format lists exactly the maximal runs of the flags that reading in flags format gives (and
fails when that fails); the file is left in the same state. -/
theorem c44_read (m : Mask) (off n : Nat) :
    (∀ e, mkreadFlags m off n = .error e → mkreadRuns m off n = .error e) ∧
    ∀ m' bs, mkreadFlags m off n = .ok (m', bs) → ∃ rs, mkreadRuns m off n = .ok (m', rs) ∧ RunsMax bs.length 0 rs ∧
      ∀ k, k < bs.length → bs[k]? = some (inRuns rs k) := by
  have e := readLoop_seen runsChunk _ runs_reads n m ⟨[], 0, false⟩ ((off + 31 : Nat) : Int) n
  rw [readFlags_seen]
  unfold mkreadRuns
  rw [cast31] at e ⊢
  rw [e]
  constructor
  · intro err h
    rw [h]
  · intro m' bs h
    rw [h]
    obtain ⟨r, h1, h2, h3, h4, h5⟩ := runs_invariant bs
    simp only
    rw [h1]
    refine ⟨runsOf r, rfl, ?_, ?_⟩
    · unfold runsOf
      cases hs : r.state with
      | true =>
        obtain ⟨_, o, s, ho, hm⟩ := h4 hs
        rw [if_pos rfl, ho, ← h2]
        simpa using hm
      | false => rw [if_neg (by decide)]; exact runsMax_mono (by omega) _ _ (h3 hs)
    · intro k hk
      rw [← h5 k hk, List.getD_eq_getElem?_getD, List.getElem?_eq_getElem hk]
      rfl

/-- C44: writing runs (in order) does to the file exactly what writing the flags they stand for does. -/
theorem c44_write (m : Mask) (off : Nat) (runs : List Nat) (n : Nat) (h : RunsOk 0 runs) :
    mkwriteRuns m off runs n = mkwriteFlags m off ((List.range n).map (inRuns runs)) := by
  rw [writeRuns_fn, writeFlags_fn, List.length_map, List.length_range]
  apply fnLoop_congr
  intro k hk
  rw [genAt_inRuns runs 0 0 k h, if_neg (by omega), List.getD_eq_getElem?_getD, List.getElem?_map,
    List.getElem?_range hk]
  simp

/-- C44: maximal runs are determined by the flags, so runs read back are the runs written when these are maximal. -/
theorem c44_unique (n : Nat) : ∀ (r r' : List Nat) (c : Nat), RunsMax n c r → RunsMax n c r' →
    (∀ k, k < n → inRuns r k = inRuns r' k) → r = r'
  | [], [], _, _, _, _ => rfl
  | [_], _, _, h, _, _ => absurd h (by simp [RunsMax])
  | _, [_], _, _, h, _ => absurd h (by simp [RunsMax])
  | [], s :: e :: r, c, _, h, hk => by
    unfold RunsMax at h
    have := hk (s - 1) (by omega)
    unfold inRuns at this
    have hd : decide (s ≤ s - 1 + 1 ∧ s - 1 + 1 ≤ e) = true := by rw [decide_eq_true_iff]; omega
    rw [hd] at this
    simp at this
  | s :: e :: r, [], c, h, _, hk => by
    unfold RunsMax at h
    have := hk (s - 1) (by omega)
    unfold inRuns at this
    have hd : decide (s ≤ s - 1 + 1 ∧ s - 1 + 1 ≤ e) = true := by rw [decide_eq_true_iff]; omega
    rw [hd] at this
    simp at this
  | s :: e :: r, s' :: e' :: r', c, h, h', hk => by
    unfold RunsMax at h h'
    obtain ⟨a1, a2, a3, a4⟩ := h
    obtain ⟨b1, b2, b3, b4⟩ := h'
    have at1 : ∀ k, inRuns (s :: e :: r) k = (decide (s ≤ k + 1 ∧ k + 1 ≤ e) || inRuns r k) := fun k => rfl
    have at2 : ∀ k, inRuns (s' :: e' :: r') k = (decide (s' ≤ k + 1 ∧ k + 1 ≤ e') || inRuns r' k) := fun k => rfl
    have z1 : ∀ k, k ≤ e → inRuns r k = false := fun k hk => before r (e + 1) k a4 (by omega)
    have z2 : ∀ k, k ≤ e' → inRuns r' k = false := fun k hk => before r' (e' + 1) k b4 (by omega)
    have hs : s = s' := by
      rcases Nat.lt_trichotomy s s' with hlt | heq | hgt
      · have := hk (s - 1) (by omega)
        rw [at1, at2, z2 _ (by omega)] at this
        have hd : decide (s ≤ s - 1 + 1 ∧ s - 1 + 1 ≤ e) = true := by rw [decide_eq_true_iff]; omega
        have hd' : decide (s' ≤ s - 1 + 1 ∧ s - 1 + 1 ≤ e') = false := by rw [decide_eq_false_iff_not]; omega
        rw [hd, hd'] at this
        simp at this
      · exact heq
      · have := hk (s' - 1) (by omega)
        rw [at1, at2, z1 _ (by omega)] at this
        have hd : decide (s ≤ s' - 1 + 1 ∧ s' - 1 + 1 ≤ e) = false := by rw [decide_eq_false_iff_not]; omega
        have hd' : decide (s' ≤ s' - 1 + 1 ∧ s' - 1 + 1 ≤ e') = true := by rw [decide_eq_true_iff]; omega
        rw [hd, hd'] at this
        simp at this
    subst hs
    have he : e = e' := by
      rcases Nat.lt_trichotomy e e' with hlt | heq | hgt
      · have := hk e (by omega)
        rw [at1, at2, z1 _ (by omega)] at this
        have hd : decide (s ≤ e + 1 ∧ e + 1 ≤ e) = false := by rw [decide_eq_false_iff_not]; omega
        have hd' : decide (s ≤ e + 1 ∧ e + 1 ≤ e') = true := by rw [decide_eq_true_iff]; omega
        rw [hd, hd'] at this
        simp at this
      · exact heq
      · have := hk e' (by omega)
        rw [at1, at2, z2 _ (by omega)] at this
        have hd : decide (s ≤ e' + 1 ∧ e' + 1 ≤ e) = true := by rw [decide_eq_true_iff]; omega
        have hd' : decide (s ≤ e' + 1 ∧ e' + 1 ≤ e') = false := by rw [decide_eq_false_iff_not]; omega
        rw [hd, hd'] at this
        simp at this
    subst he
    congr 2
    refine c44_unique n r r' (e + 1) a4 b4 ?_
    intro k hkn
    by_cases hle : k ≤ e
    · rw [z1 k hle, z2 k hle]
    · have := hk k hkn
      rw [at1, at2] at this
      have hd : decide (s ≤ k + 1 ∧ k + 1 ≤ e) = false := by rw [decide_eq_false_iff_not]; omega
      rw [hd] at this
      simpa using this
where
  before : ∀ (r : List Nat) (c k : Nat), RunsMax n c r → k < c → inRuns r k = false
    | [], _, _, _, _ => rfl
    | [_], _, _, h, _ => absurd h (by simp [RunsMax])
    | s :: e :: r, c, k, h, hk => by
      unfold RunsMax at h
      unfold inRuns
      rw [before r (e + 1) k h.2.2.2 (by omega)]
      simp only [Bool.or_false]
      rw [decide_eq_false_iff_not]; omega

/-- C44, a case: runs 3-5 and 8-40 of 45 flags, at an offset that does not start an integer -/
example : RunsMax 45 0 [3, 5, 8, 40] ∧ RunsOk 0 [3, 5, 8, 40] ∧
    (match mkreadRuns (mkwriteRuns (mkopen (fun _ => 0#32) (fun _ => 0#32) 1) 20 [3, 5, 8, 40] 45) 20 45 with
      | .ok r => some r.2
      | .error _ => none) = some [3, 5, 8, 40] := by
  refine ⟨by simp [RunsMax], by simp [RunsOk], by decide +kernel⟩

end Verif.Mir.Mask
