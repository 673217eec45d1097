import Verif.Mir.TwoPass
import Verif.Mir.PullPol
import Verif.Mir.AddSub
import Verif.Scripting.Model

/-!
# Property C100 : xrfi.py flags what was flagged, what is zero and the channels that are given

`scripts/xrfi.py` on directories, by `two_pass_dir`.
-/
namespace Verif.Mir.Uv

open Verif.Mir.Hio (Byte Item Tree)
open Verif.Mir.Mask (Mask)
open Verif.Mir.Head (rdhd Conv Val)

/-! ## The model -/

/-- the options, xrfi.py 14-33; `nsig`, `chThresh` and `intThresh` are the texts of the numbers (`'%f'`) -/
structure XOpts where
  chan : Option (List Char)
  nsig : List Char
  mode : List Char
  share : Bool
  chThresh : List Char
  intThresh : List Char
  raw : Bool
  reflag : Bool

/-- `a == b` of two python floats, given by their bits -/
def pyFloatEq (a b : Nat) : Bool :=
  decide (a % 2 ^ 63 ≤ 2047 * 2 ^ 52) && decide (b % 2 ^ 63 ≤ 2047 * 2 ^ 52) && (a == b || (a % 2 ^ 63 == 0 && b % 2 ^ 63 == 0))

/-- `mask[pol][bl][t]`, the newest first -/
abbrev XMask := List ((Int × Int × Nat) × List Bool)

/-- `f[chans] = 1` of an array of `n` elements, xrfi.py 86; `none` is the IndexError -/
def putOnes (n : Nat) (chans : List Int) (f : Nat → Bool) : Option (Nat → Bool) :=
  if chans.all fun c => decide (-(n : Int) ≤ c) && decide (c < n) then
    some fun k => f k || chans.any fun c => c == k || c + n == k
  else none

/-- the flags of a record, xrfi.py 79-86: `np.abs(d) == 0` where both parts are zero -/
def xrfiFlags (reflag : Bool) (chans : List Int) (p : PyRec) : Option (List Bool) :=
  (putOnes p.flags.length chans fun k =>
    (words (elem p.data k)).all (fun w => w % 2 ^ 31 == 0) || (!reflag && !(p.flags.getD k true))).map fun f =>
      (List.range p.flags.length).map f

/-- the body of the first loop, xrfi.py 69-88 (what it does with `data` is only used by the modes that raise).  A `pol` that
is not an integer is taken for one that raises: an array cannot be a key. -/
def xrfiStep (E : Env) (reflag : Bool) (chans : List Int) (M : XMask) (S : VisR) (p : PyRec) : Option XMask :=
  match getPol E S with
  | some (.int pol) => (xrfiFlags reflag chans p).map fun f => ((pol, Codes.ij2bl p.i p.j, p.time), f) :: M
  | _ => none

def isCross (e : (Int × Int × Nat) × List Bool) : Bool := (Codes.bl2ij e.1.2.1).1 != (Codes.bl2ij e.1.2.1).2

/-- between the loops, xrfi.py 93-131.  `flagmode` `val` or `both` raises with a baseline of two antennas: `gen_rfi_thresh` gives
`np.histogram` a number of bins that is a float, a TypeError (rfi.py 29 catches ValueError).  `int` or `both` raises with an
autocorrelation: `keys()` has no `sort`.  `share` raises with anything: `share_mask` takes `0 | mask[pol][bl]` of a number and a
dictionary. -/
def xrfiFin (o : XOpts) (M : XMask) : Option XMask :=
  if (o.mode == "val".toList || o.mode == "both".toList) && M.any isCross then none
  else if (o.mode == "int".toList || o.mode == "both".toList) && M.any (fun e => !isCross e) then none
  else if o.share && !M.isEmpty then none
  else some M

/-- `rfi_mfunc`, xrfi.py 133-136; `none` is a KeyError.  (Arrays that differ in length cannot be combined; here all are of the
same length.) -/
def xrfiPipe (E : Env) : Proc XMask := fun M S p =>
  match getPol E S with
  | some (.int pol) =>
    match M.find? fun e => e.1.1 == pol && e.1.2.1 == Codes.ij2bl p.i p.j && pyFloatEq e.1.2.2 p.time with
    | none => none
    | some e =>
      if e.2.length = p.flags.length then
        some (M, some { p with
          flags := e.2.map (!·)
          data := ((List.range p.flags.length).map fun k => if e.2.getD k false then List.replicate 8 0 else elem p.data k).flatten })
      else none
  | _ => none

/-- `'%s' % x` of an option that is `True` or `None` -/
def flagText (b : Bool) : List Char := (if b then "True" else "None").toList

/-- the line of the history, xrfi.py 141 -/
def xrfiHist (o : XOpts) : List Char :=
  "XRFI: nsig=".toList ++ o.nsig ++ " chans=".toList ++ o.chan.getD "None".toList ++ " mode=".toList ++ o.mode ++
    " ch_thresh=".toList ++ o.chThresh ++ " int_thresh=".toList ++ o.intThresh ++ " raw=".toList ++ flagText o.raw ++
    " reflag=".toList ++ flagText o.reflag ++ " share=".toList ++ flagText o.share ++ ['\n']

/-- xrfi.py 49-141 for one file; `nchan` is `uv['nchan']` of the first file of the command line -/
def xrfiRun (E : Env) (c : Conv) (g : Nat → Byte) (src : Tree) (m : Mask) (nchan : Nat) (o : XOpts) (fuel : Nat) : Option (Tree × VisW) :=
  (match o.chan with
    | none => some []
    | some s => Scripting.parseChans s nchan).bind fun chans =>
      twoPassRun E c g src m (xrfiStep E o.reflag chans) [] (xrfiFin o) (xrfiPipe E) ((xrfiHist o).map Char.toNat) fuel

/-! ## Specification -/

/-- the double of these bits is not a number -/
def NotNum (t : Nat) : Prop := t / 2 ^ 52 % 2 ^ 11 = 2047 ∧ t % 2 ^ 52 ≠ 0

/-- the bits of equal numbers -/
def EqNum (a b : Nat) : Prop := ¬ NotNum a ∧ ¬ NotNum b ∧ (a = b ∨ a % 2 ^ 63 = 0 ∧ b % 2 ^ 63 = 0)

/-- the number in these bytes is zero: all bits but those of the signs -/
def IsZero (e : List Byte) : Prop := ∀ (i : Nat) (b : Byte), e[i]? = some b → b = 0 ∨ b = 128 ∧ i % 4 = 0

/-- a channel to be flagged: it is flagged in the file, its value is zero, or it is one of those given (from the end if
negative) -/
def BadChan (reflag : Bool) (chans : List Int) (x : Vis) (k : Nat) : Prop :=
  (reflag = false ∧ x.flags[k]? = some false) ∨ IsZero (at8 x.data k) ∨ ∃ c ∈ chans, c = (k : Int) ∨ c + x.flags.length = (k : Int)

/-- the records have the same polarisation, antennas and time -/
structure SameObs (pv : Nat → Int) (ants : Nat → Nat × Nat) (outs : List Out) (i j : Nat) : Prop where
  pol : pv i = pv j
  ants : ants i = ants j ∨ ants i = (ants j).swap
  time : ∃ a b, outs[i]? = some a ∧ outs[j]? = some b ∧ EqNum a.time b.time

/-- `i` is the last of the records like `j` -/
def LastLike (pv : Nat → Int) (ants : Nat → Nat × Nat) (outs : List Out) (i j : Nat) : Prop :=
  SameObs pv ants outs i j ∧ ∀ i', SameObs pv ants outs i' j → i' ≤ i

/-- the antennas of the records -/
def AntsAre (E : Env) (bs : List Block) (ants : Nat → Nat × Nat) : Prop :=
  ∀ (j : Nat) (b : Block), bs[j]? = some b → (ants j).1 ≤ 2046 ∧ (ants j).2 ≤ 2046 ∧ b.vis.bl = E.bl.bits (Codes.mkbl (ants j).1 (ants j).2)

/-- `out` is the record `out0` of the visibility `x`, flagged and zero where it is bad -/
structure FlaggedAs (bad : Nat → Prop) (x : Vis) (out0 out : Out) : Prop where
  u : out.u = out0.u
  v : out.v = out0.v
  w : out.w = out0.w
  time : out.time = out0.time
  bl : out.bl = out0.bl
  size : out.flags.length = x.flags.length
  flags : ∀ k < x.flags.length, out.flags[k]? = some false ↔ bad k
  data : ∃ d, out.data = .plain d ∧ d.length = 8 * x.flags.length ∧ ∀ k < x.flags.length,
    (bad k → at8 d k = List.replicate 8 0) ∧ (¬ bad k → at8 d k = at8 x.data k)

/-- the channels of the option -/
def ChansAre (o : XOpts) (nchan : Nat) (chans : List Int) : Prop :=
  (o.chan = none ∧ chans = []) ∨ ∃ s, o.chan = some s ∧ Scripting.parseChans s nchan = some chans

/-! ## Lemmas -/

theorem floatEq_iff {a b : Nat} : pyFloatEq a b = true ↔ EqNum a b := by
  have key : ∀ t : Nat, t % 2 ^ 63 ≤ 2047 * 2 ^ 52 ↔ ¬ NotNum t := by
    intro t
    unfold NotNum
    constructor
    · rintro h ⟨h1, h2⟩
      omega
    · intro h
      by_contra hc
      apply h
      constructor <;> omega
  unfold pyFloatEq EqNum
  simp only [Bool.and_eq_true, Bool.or_eq_true, decide_eq_true_eq, beq_iff_eq, key, and_assoc]

theorem zero_word {a b c d : Byte} : ofBe32 [a, b, c, d] % 2 ^ 31 = 0 ↔ (a = 0 ∨ a = 128) ∧ b = 0 ∧ c = 0 ∧ d = 0 := by
  have ha := a.toNat_lt
  have hb := b.toNat_lt
  have hc := c.toNat_lt
  have hd := d.toNat_lt
  have e : ∀ x : Byte, ∀ n : Nat, n < 256 → (x = UInt8.ofNat n ↔ x.toNat = n) := by
    intro x n hn
    rw [← UInt8.toNat_inj, UInt8.toNat_ofNat', Nat.mod_eq_of_lt (by omega)]
  have e0 : ∀ x : Byte, x = 0 ↔ x.toNat = 0 := fun x => e x 0 (by omega)
  have e1 : a = 128 ↔ a.toNat = 128 := e a 128 (by omega)
  rw [e0 a, e0 b, e0 c, e0 d, e1]
  simp only [ofBe32]
  omega

theorem zero_iff {e : List Byte} (h : e.length = 8) : (words e).all (fun w => w % 2 ^ 31 == 0) = true ↔ IsZero e := by
  obtain ⟨a0, a1, a2, a3, a4, a5, a6, a7, rfl⟩ : ∃ a0 a1 a2 a3 a4 a5 a6 a7, e = [a0, a1, a2, a3, a4, a5, a6, a7] := by
    match e, h with
    | [a0, a1, a2, a3, a4, a5, a6, a7], _ => exact ⟨_, _, _, _, _, _, _, _, rfl⟩
  simp only [words, List.all_cons, List.all_nil, Bool.and_true, Bool.and_eq_true, beq_iff_eq, zero_word]
  unfold IsZero
  constructor
  · rintro ⟨⟨h0, rfl, rfl, rfl⟩, h4, rfl, rfl, rfl⟩ i b hi
    match i, hi with
    | 0, hi => cases hi; rcases h0 with h | h; exact Or.inl h; exact Or.inr ⟨h, rfl⟩
    | 1, hi => cases hi; exact Or.inl rfl
    | 2, hi => cases hi; exact Or.inl rfl
    | 3, hi => cases hi; exact Or.inl rfl
    | 4, hi => cases hi; rcases h4 with h | h; exact Or.inl h; exact Or.inr ⟨h, rfl⟩
    | 5, hi => cases hi; exact Or.inl rfl
    | 6, hi => cases hi; exact Or.inl rfl
    | 7, hi => cases hi; exact Or.inl rfl
    | _ + 8, hi => cases hi
  · intro h
    have key : ∀ (i : Nat) (b : Byte), i % 4 ≠ 0 → [a0, a1, a2, a3, a4, a5, a6, a7][i]? = some b → b = 0 := by
      intro i b hi hb
      rcases h i b hb with h | h
      · exact h
      · exact absurd h.2 hi
    have k0 := h 0 a0 rfl
    have k4 := h 4 a4 rfl
    exact ⟨⟨k0.imp id (·.1), key 1 a1 (by decide) rfl, key 2 a2 (by decide) rfl, key 3 a3 (by decide) rfl⟩,
      k4.imp id (·.1), key 5 a5 (by decide) rfl, key 6 a6 (by decide) rfl, key 7 a7 (by decide) rfl⟩

theorem at8_len (d : List Byte) (k : Nat) : (at8 d k).length = 8 := by
  simp [at8]

/-- the flags of a record are those of the specification -/
theorem xrfiFlags_spec {reflag : Bool} {chans : List Int} {p : PyRec} {x : Vis} (hf : p.flags = x.flags) (hd : p.data = x.data)
    (hlen : x.data.length = 8 * x.flags.length) :
    ((∀ c ∈ chans, -(x.flags.length : Int) ≤ c ∧ c < x.flags.length) → ∃ f, xrfiFlags reflag chans p = some f ∧ f.length = x.flags.length ∧
      ∀ k < x.flags.length, f[k]? = some true ↔ BadChan reflag chans x k) ∧
    ((∃ c ∈ chans, ¬ (-(x.flags.length : Int) ≤ c ∧ c < x.flags.length)) → xrfiFlags reflag chans p = none) := by
  unfold xrfiFlags putOnes
  rw [hf, hd]
  constructor
  · intro hc
    rw [if_pos (by
      rw [List.all_eq_true]
      intro c h
      rw [Bool.and_eq_true, decide_eq_true_eq, decide_eq_true_eq]
      exact hc c h), Option.map_some]
    refine ⟨_, rfl, by simp, fun k hk => ?_⟩
    rw [List.getElem?_map, List.getElem?_range hk, Option.map_some, Option.some.injEq]
    show (((words (elem x.data k)).all fun w => w % 2 ^ 31 == 0) || !reflag && !x.flags.getD k true ||
      chans.any fun c => c == ↑k || c + ↑x.flags.length == ↑k) = true ↔ _
    rw [elem_at8 (by omega), Bool.or_eq_true, Bool.or_eq_true, zero_iff (at8_len _ _), List.any_eq_true, List.getD_eq_getElem?_getD, List.getElem?_eq_getElem hk]
    unfold BadChan
    rw [List.getElem?_eq_getElem hk]
    simp only [Option.getD_some, Bool.and_eq_true, Bool.not_eq_true', Option.some.injEq, Bool.or_eq_true, beq_iff_eq]
    rw [or_assoc, or_left_comm]
  · rintro ⟨c, h1, h2⟩
    rw [if_neg]
    · rfl
    · intro h
      rw [List.all_eq_true] at h
      have := h c h1
      rw [Bool.and_eq_true, decide_eq_true_eq, decide_eq_true_eq] at this
      exact h2 this

theorem gather_each {σ : Type} {E : Env} {n : Nat} {step : List σ → VisR → PyRec → Option (List σ)} {e : Nat → σ} :
    ∀ (l : List (VisR × Out)) (k : Nat) (M : List σ),
    (∀ (j : Nat) (x : VisR × Out), l[j]? = some x → ∀ M, step M x.1 (E.show n x.2) = some (e (k + j) :: M)) →
    gatherL E n step M l = some ((List.range l.length).reverse.map (fun j => e (k + j)) ++ M) := by
  intro l
  induction l with
  | nil => intro k M _; rfl
  | cons a l ih =>
    intro k M h
    obtain ⟨S, out⟩ := a
    rw [gatherL]
    have h0 := h 0 (S, out) rfl M
    simp only at h0
    rw [h0, Option.bind_some, ih (k + 1) _ (fun j x hx M => by
      have := h (j + 1) x (by rw [List.getElem?_cons_succ]; exact hx) M
      rw [show k + 1 + j = k + (j + 1) by omega]
      exact this)]
    rw [List.length_cons, List.range_succ_eq_map, List.reverse_cons, List.map_append, ← List.map_reverse, List.map_map]
    simp only [List.map_cons, List.map_nil, List.append_assoc, List.cons_append, List.nil_append, Option.some.injEq]
    congr 1
    apply List.map_congr_left
    intro j _
    show e (k + 1 + j) = e (k + (j + 1))
    rw [show k + 1 + j = k + (j + 1) by omega]

theorem gather_none {σ : Type} {E : Env} {n : Nat} {step : σ → VisR → PyRec → Option σ} {l : List (VisR × Out)} {x : VisR × Out} (hx : x ∈ l)
    (h : ∀ M, step M x.1 (E.show n x.2) = none) : ∀ M, gatherL E n step M l = none := by
  induction l with
  | nil => cases hx
  | cons a l ih =>
    intro M
    obtain ⟨S, out⟩ := a
    rw [gatherL]
    rcases List.mem_cons.1 hx with rfl | hx
    · have := h M
      simp only at this
      rw [this]
      rfl
    · cases step M S (E.show n out) with
      | none => rfl
      | some M' => exact ih hx M'

theorem find_last {σ : Type} (p : σ → Bool) (e : Nat → σ) : ∀ (N : Nat), ((List.range N).reverse.map e).find? p = none ∧ (∀ i < N, p (e i) = false) ∨
    ∃ i < N, ((List.range N).reverse.map e).find? p = some (e i) ∧ p (e i) = true ∧ ∀ i', i < i' → i' < N → p (e i') = false
  | 0 => Or.inl ⟨rfl, fun i hi => by omega⟩
  | N + 1 => by
    rw [List.range_succ, List.reverse_append, List.reverse_singleton, List.singleton_append, List.map_cons]
    cases hp : p (e N) with
    | true =>
      refine Or.inr ⟨N, by omega, ?_, hp, fun i' h1 h2 => by omega⟩
      rw [List.find?_cons, hp]
    | false =>
      rw [List.find?_cons, hp]
      rcases find_last p e N with ⟨h1, h2⟩ | ⟨i, h1, h2, h3, h4⟩
      · refine Or.inl ⟨h1, fun i hi => ?_⟩
        by_cases h : i = N
        · rw [h]; exact hp
        · exact h2 i (by omega)
      · refine Or.inr ⟨i, by omega, h2, h3, fun i' k1 k2 => ?_⟩
        by_cases h : i' = N
        · rw [h]; exact hp
        · exact h4 i' k1 (by omega)

/-- a function that returns a record for each, without changing its state -/
theorem run_each {τ : Type} {E : Env} {n : Nat} {pr : Proc τ} {y : τ} {F : Nat → PyRec} : ∀ (l : List (VisR × Out)) (k : Nat),
    (∀ (j : Nat) (x : VisR × Out), l[j]? = some x → pr y x.1 (E.show n x.2) = some (y, some (F (k + j)))) →
    runProc E n pr y l = some (y, (List.range l.length).map fun j => some (F (k + j))) := by
  intro l
  induction l with
  | nil => intro k _; rfl
  | cons a l ih =>
    intro k h
    obtain ⟨S, out⟩ := a
    rw [runProc]
    have h0 := h 0 (S, out) rfl
    simp only at h0
    rw [h0]
    simp only
    rw [ih (k + 1) (fun j x hx => by
      have := h (j + 1) x (by rw [List.getElem?_cons_succ]; exact hx)
      rw [show k + 1 + j = k + (j + 1) by omega]
      exact this)]
    rw [Option.map_some, List.length_cons, List.range_succ_eq_map, List.map_cons, List.map_map]
    simp only [Option.some.injEq, Prod.mk.injEq, true_and]
    congr 1
    apply List.map_congr_left
    intro j _
    show some (F (k + 1 + j)) = some (F (k + (j + 1)))
    rw [show k + 1 + j = k + (j + 1) by omega]

theorem run_none {τ : Type} {E : Env} {n : Nat} {pr : Proc τ} {y : τ} {l : List (VisR × Out)} {x : VisR × Out} (hx : x ∈ l)
    (hst : ∀ x ∈ l, ∀ y' q, pr y x.1 (E.show n x.2) = some (y', q) → y' = y) (h : pr y x.1 (E.show n x.2) = none) :
    runProc E n pr y l = none := by
  induction l with
  | nil => cases hx
  | cons a l ih =>
    obtain ⟨S, out⟩ := a
    rw [runProc]
    rcases List.mem_cons.1 hx with rfl | hx
    · simp only at h
      rw [h]
    · cases hp : pr y S (E.show n out) with
      | none => rfl
      | some r =>
        obtain ⟨y', q⟩ := r
        simp only
        rw [hst (S, out) List.mem_cons_self y' q hp, ih hx (fun x hx => hst x (List.mem_cons_of_mem _ hx))]
        rfl

theorem kept_each {E : Env} {n : Nat} {mf : MFunc} {F : Nat → PyRec} : ∀ (l : List (VisR × Out)) (k : Nat),
    (∀ (j : Nat) (x : VisR × Out), l[j]? = some x → mf (k + j) (E.show n x.2) = some (F (k + j))) →
    (kept E n mf k l).length = l.length ∧ ∀ (j : Nat) (x : VisR × Out), l[j]? = some x → (kept E n mf k l)[j]? = some (x.1, F (k + j)) := by
  intro l
  induction l with
  | nil => intro k _; exact ⟨rfl, fun j x hx => by cases hx⟩
  | cons a l ih =>
    intro k h
    obtain ⟨S, out⟩ := a
    have h0 := h 0 (S, out) rfl
    obtain ⟨i1, i2⟩ := ih (k + 1) (fun j x hx => by
      have := h (j + 1) x (by rw [List.getElem?_cons_succ]; exact hx)
      rw [show k + 1 + j = k + (j + 1) by omega]
      exact this)
    rw [kept]
    simp only [Nat.add_zero] at h0
    rw [h0]
    refine ⟨by simp [i1], fun j x hx => ?_⟩
    cases j with
    | zero => cases hx; rfl
    | succ j =>
      rw [List.getElem?_cons_succ] at hx ⊢
      rw [i2 j x hx, show k + 1 + j = k + (j + 1) by omega]

/-- the records of the list have the polarisations and antennas -/
theorem record_at {E : Env} {o q bs W n} (hbl : BlLaws E.bl o) {pv : Nat → Int}
    (hp : PolsAre W bs.length pv) {ants : Nat → Nat × Nat} (hants : AntsAre E bs ants) {j : Nat} {b : Block} (hb : bs[j]? = some b)
    {S : VisR} {out : Out} (h : ReadAt o q W j b S out) (hg : AllGood S.r.vars) :
    getPol E S = some (.int (pv j)) ∧ (E.show n out).i = (ants j).1 ∧ (E.show n out).j = (ants j).2 := by
  have hj : j < bs.length := (List.getElem?_eq_some_iff.1 hb).1
  have hvar := h.values _ _ _ hp.var (hp.value j hj)
  refine ⟨getPol_int (E := E) (hp.range j hj).1 (hp.range j hj).2 hvar (fun hd => rdvr_of_getvr hg _ _ hvar hd), ?_⟩
  obtain ⟨h1, h2, h3⟩ := hants j b hb
  obtain ⟨r1, r2⟩ := mkbl_range _ _ h1 h2
  have hob : out.bl = E.bl.bits (Codes.mkbl (ants j).1 (ants j).2) := hbl.exact _ _ r1 r2 (by rw [← h3]; exact h.same.bl)
  obtain ⟨c1, c2⟩ := Codes.c03_file_roundtrip _ _ h1 h2
  constructor
  · show (Codes.geti (E.bl.val out.bl)).toNat = _
    rw [hob, hbl.val _ r2, c1]
    rfl
  · show (Codes.getj (E.bl.val out.bl)).toNat = _
    rw [hob, hbl.val _ r2, c2]
    rfl

theorem key_iff {a b : Nat × Nat} (ha : a.1 ≤ 2046 ∧ a.2 ≤ 2046) (hb : b.1 ≤ 2046 ∧ b.2 ≤ 2046) :
    Codes.ij2bl a.1 a.2 = Codes.ij2bl b.1 b.2 ↔ a = b ∨ a = b.swap := by
  obtain ⟨a1, a2⟩ := a
  obtain ⟨b1, b2⟩ := b
  simp only [Prod.swap, Prod.mk.injEq] at *
  constructor
  · intro h
    rcases Codes.c02_injective a1 a2 b1 b2 ⟨by omega, by omega⟩ ⟨by omega, by omega⟩ ⟨by omega, by omega⟩ ⟨by omega, by omega⟩ h with ⟨h1, h2⟩ | ⟨h1, h2⟩
    · exact Or.inl ⟨by omega, by omega⟩
    · exact Or.inr ⟨by omega, by omega⟩
  · rintro (⟨rfl, rfl⟩ | ⟨rfl, rfl⟩)
    · rfl
    · exact Codes.c01_symmetric _ _

theorem cross_iff {a : Nat × Nat} (ha : a.1 ≤ 2046 ∧ a.2 ≤ 2046) {p : Int} {t : Nat} {f : List Bool} :
    isCross ((p, Codes.ij2bl a.1 a.2, t), f) = true ↔ a.1 ≠ a.2 := by
  unfold isCross
  rw [Codes.c01_roundtrip a.1 a.2 ⟨by omega, by omega⟩ ⟨by omega, by omega⟩]
  simp only [bne_iff_ne, ne_eq]
  omega

theorem fin_ok {o : XOpts} {M : XMask} (h1 : o.mode = "val".toList ∨ o.mode = "both".toList → ∀ e ∈ M, isCross e = false)
    (h2 : o.mode = "int".toList ∨ o.mode = "both".toList → ∀ e ∈ M, isCross e = true) (h3 : o.share = false) : xrfiFin o M = some M := by
  unfold xrfiFin
  rw [if_neg, if_neg, if_neg]
  · rw [h3]; simp
  · rw [Bool.and_eq_true, Bool.or_eq_true, beq_iff_eq, beq_iff_eq, List.any_eq_true]
    rintro ⟨h, e, he, hc⟩
    rw [h2 h e he] at hc
    cases hc
  · rw [Bool.and_eq_true, Bool.or_eq_true, beq_iff_eq, beq_iff_eq, List.any_eq_true]
    rintro ⟨h, e, he, hc⟩
    rw [h1 h e he] at hc
    cases hc

/-- the modes and options that raise: between the loops -/
def Broken (o : XOpts) (bs : List Block) (ants : Nat → Nat × Nat) : Prop :=
  ((o.mode = "val".toList ∨ o.mode = "both".toList) ∧ ∃ j < bs.length, (ants j).1 ≠ (ants j).2) ∨
  ((o.mode = "int".toList ∨ o.mode = "both".toList) ∧ ∃ j < bs.length, (ants j).1 = (ants j).2) ∨
  (o.share = true ∧ bs ≠ [])

theorem fin_broken {o : XOpts} {M : XMask} (h : ((o.mode = "val".toList ∨ o.mode = "both".toList) ∧ ∃ e ∈ M, isCross e = true) ∨
    ((o.mode = "int".toList ∨ o.mode = "both".toList) ∧ ∃ e ∈ M, isCross e = false) ∨ (o.share = true ∧ M ≠ [])) : xrfiFin o M = none := by
  unfold xrfiFin
  split
  · rfl
  · rename_i n1
    split
    · rfl
    · rename_i n2
      split
      · rfl
      · rename_i n3
        exfalso
        simp only [Bool.and_eq_true, Bool.or_eq_true, beq_iff_eq, List.any_eq_true] at n1 n2 n3
        rcases h with h | ⟨h1, e, h2, h3⟩ | ⟨h1, h2⟩
        · exact n1 h
        · exact n2 ⟨h1, e, h2, by rw [h3]; rfl⟩
        · exact n3 ⟨h1, by simpa using h2⟩

theorem chans_of {o : XOpts} {nchan : Nat} {chans : List Int} (h : ChansAre o nchan chans) {E c g src m fuel} :
    xrfiRun E c g src m nchan o fuel =
      twoPassRun E c g src m (xrfiStep E o.reflag chans) [] (xrfiFin o) (xrfiPipe E) ((xrfiHist o).map Char.toNat) fuel := by
  unfold xrfiRun
  rcases h with ⟨h1, rfl⟩ | ⟨s, h1, h2⟩
  · rw [h1]; rfl
  · rw [h1]
    simp only [h2, Option.bind_some]

/-- the texts of the options -/
structure TextsOk (o : XOpts) (old : List Nat) : Prop where
  ascii : ∀ ch ∈ o.chan.getD [] ++ o.nsig ++ o.mode ++ o.chThresh ++ o.intThresh, 0 < ch.toNat ∧ ch.toNat < 128
  len : old.length + (o.chan.getD [] ++ o.nsig ++ o.mode ++ o.chThresh ++ o.intThresh).length + 100 ≤ 2 ^ 31

theorem texts_items {o : XOpts} {old : List Nat} (h : TextsOk o old) : ItemsOk [] [] old ((xrfiHist o).map Char.toNat) := by
  have hf : ∀ b, (∀ ch ∈ flagText b, 0 < ch.toNat ∧ ch.toNat < 128) ∧ (flagText b).length = 4 := by decide
  have hc : (∀ ch ∈ o.chan.getD "None".toList, 0 < ch.toNat ∧ ch.toNat < 128) ∧
      (o.chan.getD "None".toList).length ≤ (o.chan.getD []).length + 4 := by
    have := h.ascii
    cases ho : o.chan with
    | none => exact ⟨by decide, by decide⟩
    | some s =>
      rw [ho] at this
      refine ⟨fun ch hch => this ch ?_, by simp⟩
      simp only [Option.getD_some, List.mem_append] at hch ⊢
      tauto
  have ha : ∀ s : List Char, (s = o.nsig ∨ s = o.mode ∨ s = o.chThresh ∨ s = o.intThresh) → ∀ ch ∈ s, 0 < ch.toNat ∧ ch.toNat < 128 := by
    intro s hs ch hch
    refine h.ascii ch ?_
    simp only [List.mem_append]
    rcases hs with rfl | rfl | rfl | rfl <;> tauto
  refine ⟨fun p _ q hq => (by cases hq), (by simp), rfl, ?_, ?_⟩
  · intro x hx
    obtain ⟨ch, hch, rfl⟩ := List.mem_map.1 hx
    have app : ∀ {a b : List Char}, (∀ ch ∈ a, 0 < ch.toNat ∧ ch.toNat < 128) → (∀ ch ∈ b, 0 < ch.toNat ∧ ch.toNat < 128) →
        ∀ ch ∈ a ++ b, 0 < ch.toNat ∧ ch.toNat < 128 := by
      intro a b h1 h2 ch hch
      rcases List.mem_append.1 hch with h | h
      · exact h1 ch h
      · exact h2 ch h
    refine app (app (app (app (app (app (app (app (app (app (app (app (app (app (app (app ?_ ?_) ?_) ?_) ?_) ?_) ?_) ?_) ?_) ?_) ?_) ?_) ?_) ?_) ?_) ?_) ?_
      ch hch
    · decide
    · exact ha _ (Or.inl rfl)
    · decide
    · exact hc.1
    · decide
    · exact ha _ (Or.inr (Or.inl rfl))
    · decide
    · exact ha _ (Or.inr (Or.inr (Or.inl rfl)))
    · decide
    · exact ha _ (Or.inr (Or.inr (Or.inr rfl)))
    · decide
    · exact (hf _).1
    · decide
    · exact (hf _).1
    · decide
    · exact (hf _).1
    · decide
  · have h1 := (hf o.raw).2
    have h2 := (hf o.reflag).2
    have h3 := (hf o.share).2
    have h4 := hc.2
    have h5 := h.len
    simp only [List.length_append] at h5
    unfold xrfiHist
    simp only [List.length_append, List.length_map, h1, h2, h3]
    have e1 : ("XRFI: nsig=".toList).length = 11 := rfl
    have e2 : (" chans=".toList).length = 7 := rfl
    have e3 : (" mode=".toList).length = 6 := rfl
    have e4 : (" ch_thresh=".toList).length = 11 := rfl
    have e5 : (" int_thresh=".toList).length = 12 := rfl
    have e6 : (" raw=".toList).length = 5 := rfl
    have e7 : (" reflag=".toList).length = 8 := rfl
    have e8 : (" share=".toList).length = 7 := rfl
    have e9 : (['\n'] : List Char).length = 1 := rfl
    omega

/-- the record that `rfi_mfunc` makes of `p` with the flags `f` -/
def flagged (p : PyRec) (f : List Bool) : PyRec :=
  { p with
    flags := f.map (!·)
    data := ((List.range p.flags.length).map fun k => if f.getD k false then List.replicate 8 0 else elem p.data k).flatten }

theorem pipe_none {E : Env} {M : XMask} {S : VisR} {p : PyRec} {pol : Int} (hpol : getPol E S = some (.int pol))
    (h : M.find? (fun e => e.1.1 == pol && e.1.2.1 == Codes.ij2bl p.i p.j && pyFloatEq e.1.2.2 p.time) = none) : xrfiPipe E M S p = none := by
  unfold xrfiPipe
  rw [hpol]
  simp only
  rw [h]

theorem pipe_some {E : Env} {M : XMask} {S : VisR} {p : PyRec} {pol : Int} (hpol : getPol E S = some (.int pol)) {e}
    (h : M.find? (fun e => e.1.1 == pol && e.1.2.1 == Codes.ij2bl p.i p.j && pyFloatEq e.1.2.2 p.time) = some e)
    (hlen : e.2.length = p.flags.length) : xrfiPipe E M S p = some (M, some (flagged p e.2)) := by
  unfold xrfiPipe
  rw [hpol]
  simp only
  rw [h]
  simp only
  rw [if_pos hlen]
  rfl

theorem flagged_data (p : PyRec) (f : List Bool) (hd : p.data.length = 8 * p.flags.length) :
    (flagged p f).data.length = 8 * p.flags.length ∧ ∀ k < p.flags.length,
      at8 (flagged p f).data k = if f.getD k false then List.replicate 8 0 else at8 p.data k := by
  have h8 : ∀ x ∈ (List.range p.flags.length).map fun k => if f.getD k false then List.replicate 8 0 else elem p.data k, x.length = 8 := by
    intro x hx
    obtain ⟨k, hk, rfl⟩ := List.mem_map.1 hx
    have := List.mem_range.1 hk
    split
    · simp
    · rw [elem_at8 (by omega), at8_len]
  have hl : (flagged p f).data.length = 8 * p.flags.length := by
    show (List.flatten _).length = _
    rw [flatten_len h8]
    simp
  refine ⟨hl, fun k hk => ?_⟩
  rw [← elem_at8 (by rw [hl]; omega)]
  show elem (List.flatten _) k = _
  rw [flatten_elem h8 (x := if f.getD k false then List.replicate 8 0 else elem p.data k) (by
    rw [List.getElem?_map, List.getElem?_range hk]; rfl), elem_at8 (by omega)]

theorem pipe_mild {E : Env} {M M' : XMask} {S : VisR} {p q : PyRec} (hd : p.data.length = 8 * p.flags.length)
    (h : xrfiPipe E M S p = some (M', some q)) : Mild p q ∧ M' = M := by
  unfold xrfiPipe at h
  split at h
  · split at h
    · cases h
    · rename_i e _
      split at h
      · rename_i hl
        have h2 := Option.some.inj h
        rw [Prod.mk.injEq, Option.some.injEq] at h2
        obtain ⟨rfl, rfl⟩ := h2
        refine ⟨⟨rfl, rfl, rfl, rfl, rfl, rfl, ?_, ?_⟩, rfl⟩
        · show (e.2.map (!·)).length = _
          rw [List.length_map, hl]
        · rw [hd]
          exact (flagged_data p e.2 hd).1
      · cases h
  · cases h

theorem pipe_state {E : Env} {M M' : XMask} {S : VisR} {p : PyRec} {q : Option PyRec} (h : xrfiPipe E M S p = some (M', q)) : M' = M := by
  unfold xrfiPipe at h
  split at h
  · split at h
    · cases h
    · split at h
      · have h2 := Option.some.inj h
        rw [Prod.mk.injEq] at h2
        exact h2.1.symm
      · cases h
  · cases h

/-- the two loops of the script, with the records that are read -/
theorem xrfi_core (c : Conv) (hw : ∀ x < 2 ^ 32, c.round (c.widen x) = x) {E : Env} {o q junk bs W n names h old}
    (O : Origin E o q junk bs W n names h old) (hmode : E.mode = .real) (hl : FpLaws E.o)
    (hq : QuantOk E.q) (hbl : BlLaws E.bl o) (hun : ∀ t ints, (E.unscale t ints).length = ints.length)
    {m : Mask} (hm : FlagFile W m) (hv : VarsOk E W [] [])
    (hlast : ∀ x ∈ table W.w, x.1 ≠ nmCorr → ∃ d, valueAfter W.evs x.1 = some d ∧ Plain x.2 d)
    {obs : Option (List Byte)} (hobs : ObsOk obs) {opts : XOpts} (htext : TextsOk opts old)
    {pv : Nat → Int} (hp : PolsAre W bs.length pv) {ants : Nat → Nat × Nat} (hants : AntsAre E bs ants)
    {nchan : Nat} {chans : List Int} (hchans : ChansAre opts nchan chans) (g0 g : Nat → Byte) :
    ∃ src outs, directory c g0 h = some src ∧
      (∃ it r0 it1 R, openOld src g = some (it, r0) ∧ huvreadN g n bs.length it ⟨r0, 0, m⟩ = some (it1, R, outs)) ∧
      outs.length = bs.length ∧
      (∀ (j : Nat) (out : Out) (b : Block), outs[j]? = some out → bs[j]? = some b → Matches o q .real out b.vis) ∧
      ((∃ c ∈ chans, ¬ (-(n : Int) ≤ c ∧ c < n)) → ∀ fuel, xrfiRun E c g src m nchan opts fuel = none) ∧
      ((∀ c ∈ chans, -(n : Int) ≤ c ∧ c < n) →
        (Broken opts bs ants → ∀ fuel, xrfiRun E c g src m nchan opts fuel = none) ∧
        (¬ Broken opts bs ants →
          ((∃ out ∈ outs, NotNum out.time) → ∀ fuel, xrfiRun E c g src m nchan opts fuel = none) ∧
          ((∀ out ∈ outs, ¬ NotNum out.time) → ∃ t1 W',
            (∀ fuel, bs.length < fuel → xrfiRun E c g src m nchan opts fuel = some (t1, W')) ∧
            (W'.w.offset ≤ 2 ^ 31 → ∃ cpy, closeCopy c g obs (t1, W') = some cpy ∧
              SameItems c src cpy g [] [] old ((xrfiHist opts).map Char.toNat) obs ∧
              ∀ (g' : Nat → Byte) (m' : Mask), FlagFile W' m' → ∃ it r0, openOld cpy g' = some (it, r0) ∧
                (∃ it1 it2 R outs R', huvreadN g' n bs.length it ⟨r0, 0, m'⟩ = some (it1, R, outs) ∧
                  huvread g' n it1 R = (it2, .eof R')) ∧
                ∀ (j : Nat) (b : Block) (out0 : Out), bs[j]? = some b → outs[j]? = some out0 →
                  ∃ i bi, LastLike pv ants outs i j ∧ bs[i]? = some bi ∧ ∃ it1 R outs' out,
                    huvreadN g' n (j + 1) it ⟨r0, 0, m'⟩ = some (it1, R, outs' ++ [out]) ∧ outs'.length = j ∧
                    FlaggedAs (BadChan opts.reflag chans bi.vis) b.vis out0 out ∧
                    ∀ nm ty d, (nm, ty) ∈ table W.w → nm ≠ nmCorr → valueAfter (upTo (j + 1) W.evs) nm = some d →
                      getvr R.r nm ty = some d)))) := by
  obtain ⟨src, l, e1, e2, e3, e4, e5⟩ := two_pass_dir c hw O hmode hl hq hbl hun hm hv hlast (texts_items htext) hobs g0 g
  obtain ⟨n1, n2⟩ := e5 (xrfiStep E opts.reflag chans) [] (xrfiFin opts) (xrfiPipe E)
  have ha := O.arch
  have hrun : ∀ fuel, xrfiRun E c g src m nchan opts fuel = _ := fun fuel => chans_of hchans
  have hlen : ∀ {j : Nat} {x : VisR × Out}, l[j]? = some x → j < bs.length := fun hx => by
    rw [← e3]; exact (List.getElem?_eq_some_iff.1 hx).1
  have hblk : ∀ {j : Nat}, j < bs.length → ∃ b, bs[j]? = some b := fun hj => ⟨_, List.getElem?_eq_getElem hj⟩
  have hrd : ∀ {j : Nat}, j < bs.length → ∃ x, l[j]? = some x := fun hj => ⟨_, List.getElem?_eq_getElem (by rw [e3]; exact hj)⟩
  have hshow : ∀ {j : Nat} {x : VisR × Out} {b : Block}, l[j]? = some x → bs[j]? = some b →
      (E.show n x.2).flags = b.vis.flags ∧ (E.show n x.2).data = b.vis.data ∧ b.vis.flags.length = n ∧ b.vis.data.length = 8 * n :=
    fun hx hb => matches_show rfl ha (List.mem_of_getElem? hb) (e4 _ _ _ _ hx hb).1.same
  refine ⟨src, l.map (·.2), e1, e2, by simpa using e3, ?_, ?_, ?_⟩
  · intro j out b ho hb
    obtain ⟨x, hx⟩ := hrd (List.getElem?_eq_some_iff.1 hb).1
    rw [List.getElem?_map, hx] at ho
    cases ho
    exact (e4 _ _ _ _ hx hb).1.same
  · rintro ⟨ch, hc1, hc2⟩ fuel
    rw [hrun]
    apply n1
    obtain ⟨x, hx⟩ := hrd (j := 0) (List.length_pos_iff.2 O.nonempty)
    obtain ⟨b, hb⟩ := hblk (hlen hx)
    rw [gather_none (List.mem_of_getElem? hx)]
    · rfl
    · intro M
      obtain ⟨s1, s2, s3, s4⟩ := hshow hx hb
      obtain ⟨a1, a2⟩ := e4 _ _ _ _ hx hb
      obtain ⟨p1, _, _⟩ := record_at (n := n) hbl hp hants hb a1 a2
      unfold xrfiStep
      rw [p1]
      simp only
      rw [(xrfiFlags_spec s1 s2 (by rw [s3]; exact s4)).2 ⟨ch, hc1, by rw [s3]; exact hc2⟩]
      rfl
  intro hrange
  -- the entries of the mask
  have hent : ∀ j : Nat, ∃ e : (Int × Int × Nat) × List Bool, ∀ x b, l[j]? = some x → bs[j]? = some b →
      e.1 = (pv j, Codes.ij2bl (ants j).1 (ants j).2, x.2.time) ∧ e.2.length = n ∧
      (∀ k < n, e.2[k]? = some true ↔ BadChan opts.reflag chans b.vis k) ∧
      ∀ M, xrfiStep E opts.reflag chans M x.1 (E.show n x.2) = some (e :: M) := by
    intro j
    by_cases hj : j < bs.length
    · obtain ⟨x, hx⟩ := hrd hj
      obtain ⟨b, hb⟩ := hblk hj
      obtain ⟨s1, s2, s3, s4⟩ := hshow hx hb
      obtain ⟨a1, a2⟩ := e4 _ _ _ _ hx hb
      obtain ⟨p1, p2, p3⟩ := record_at (n := n) hbl hp hants hb a1 a2
      obtain ⟨f, f1, f2, f3⟩ := (xrfiFlags_spec (reflag := opts.reflag) (chans := chans) s1 s2 (by rw [s3]; exact s4)).1 (by rw [s3]; exact hrange)
      refine ⟨((pv j, Codes.ij2bl (ants j).1 (ants j).2, x.2.time), f), fun x' b' hx' hb' => ?_⟩
      rw [hx] at hx'
      rw [hb] at hb'
      cases hx'
      cases hb'
      refine ⟨rfl, by rw [f2, s3], by rw [← s3]; exact f3, fun M => ?_⟩
      unfold xrfiStep
      rw [p1]
      simp only
      rw [f1, p2, p3]
      rfl
    · exact ⟨((0, 0, 0), []), fun x b hx hb => absurd (hlen hx) hj⟩
  choose e he using hent
  have hgather : gatherL E n (xrfiStep E opts.reflag chans) [] l = some ((List.range bs.length).reverse.map e) := by
    have := gather_each (E := E) (n := n) (step := xrfiStep E opts.reflag chans) (e := e) l 0 [] (fun j x hx M => by
      obtain ⟨b, hb⟩ := hblk (hlen hx)
      rw [Nat.zero_add]
      exact (he j x b hx hb).2.2.2 M)
    rw [this, e3, List.append_nil]
    simp only [Nat.zero_add]
  have hkey : ∀ j < bs.length, ∃ x, l[j]? = some x ∧ (e j).1 = (pv j, Codes.ij2bl (ants j).1 (ants j).2, x.2.time) := by
    intro j hj
    obtain ⟨x, hx⟩ := hrd hj
    obtain ⟨b, hb⟩ := hblk hj
    exact ⟨x, hx, (he j x b hx hb).1⟩
  have hant : ∀ j < bs.length, (ants j).1 ≤ 2046 ∧ (ants j).2 ≤ 2046 := by
    intro j hj
    obtain ⟨b, hb⟩ := hblk hj
    exact ⟨(hants j b hb).1, (hants j b hb).2.1⟩
  have hcross : ∀ j < bs.length, (isCross (e j) = true ↔ (ants j).1 ≠ (ants j).2) := by
    intro j hj
    obtain ⟨x, hx, hk⟩ := hkey j hj
    rw [show e j = ((e j).1, (e j).2) from rfl, hk]
    exact cross_iff (hant j hj)
  have hmem : ∀ y, y ∈ (List.range bs.length).reverse.map e ↔ ∃ j < bs.length, e j = y := by
    intro y
    simp only [List.mem_map, List.mem_reverse, List.mem_range]
  refine ⟨fun hbr fuel => ?_, fun hbr => ?_⟩
  · rw [hrun]
    apply n1
    rw [hgather, Option.bind_some]
    apply fin_broken
    rcases hbr with ⟨h1, j, h2, h3⟩ | ⟨h1, j, h2, h3⟩ | ⟨h1, h2⟩
    · exact Or.inl ⟨h1, e j, (hmem _).2 ⟨j, h2, rfl⟩, (hcross j h2).2 h3⟩
    · refine Or.inr (Or.inl ⟨h1, e j, (hmem _).2 ⟨j, h2, rfl⟩, ?_⟩)
      cases hc : isCross (e j) with
      | false => rfl
      | true => exact absurd h3 ((hcross j h2).1 hc)
    · refine Or.inr (Or.inr ⟨h1, fun h0 => ?_⟩)
      have := congrArg List.length h0
      simp only [List.length_map, List.length_reverse, List.length_range, List.length_nil] at this
      exact h2 (List.length_eq_zero_iff.1 this)
  have hfin : (gatherL E n (xrfiStep E opts.reflag chans) [] l).bind (xrfiFin opts) = some ((List.range bs.length).reverse.map e) := by
    rw [hgather, Option.bind_some]
    apply fin_ok
    · intro h1 y hy
      obtain ⟨j, hj, rfl⟩ := (hmem y).1 hy
      cases hc : isCross (e j) with
      | false => rfl
      | true => exact absurd (Or.inl ⟨h1, j, hj, (hcross j hj).1 hc⟩) hbr
    · intro h1 y hy
      obtain ⟨j, hj, rfl⟩ := (hmem y).1 hy
      by_contra hc
      exact hbr (Or.inr (Or.inl ⟨h1, j, hj, by by_contra hh; exact hc ((hcross j hj).2 hh)⟩))
    · cases hs : opts.share with
      | false => rfl
      | true => exact absurd (Or.inr (Or.inr ⟨hs, O.nonempty⟩)) hbr
  obtain ⟨l2, k1, k2, k3, k4⟩ := n2 _ hfin
  have hl2 : l2.length = bs.length := by
    have := congrArg List.length k1
    simpa [e3] using this
  have hsame : ∀ {j : Nat} {x : VisR × Out}, l2[j]? = some x → ∃ S, l[j]? = some (S, x.2) := by
    intro j x hx
    have : (l.map (·.2))[j]? = some x.2 := by rw [← k1, List.getElem?_map, hx]; rfl
    rw [List.getElem?_map] at this
    cases hc : l[j]? with
    | none => rw [hc] at this; cases this
    | some y =>
      rw [hc] at this
      exact ⟨y.1, by rw [← Option.some.inj this]⟩
  have hrd2 : ∀ {j : Nat}, j < bs.length → ∃ x, l2[j]? = some x := fun hj => ⟨_, List.getElem?_eq_getElem (by rw [hl2]; exact hj)⟩
  have hlen2 : ∀ {j : Nat} {x : VisR × Out}, l2[j]? = some x → j < bs.length := fun hx => by
    rw [← hl2]; exact (List.getElem?_eq_some_iff.1 hx).1
  -- which entry is found
  have hfind : ∀ {i j : Nat} {y : VisR × Out}, i < bs.length → j < bs.length → l[j]? = some y →
      (((e i).1.1 == pv j && (e i).1.2.1 == Codes.ij2bl (ants j).1 (ants j).2 && pyFloatEq (e i).1.2.2 y.2.time) = true ↔
        SameObs pv ants (l.map (·.2)) i j) := by
    intro i j y hi hj hy
    obtain ⟨x, hx, hk⟩ := hkey i hi
    rw [hk]
    simp only [Bool.and_eq_true, beq_iff_eq, floatEq_iff, key_iff (hant i hi) (hant j hj)]
    constructor
    · rintro ⟨⟨h1, h2⟩, h3⟩
      exact ⟨h1, h2, x.2, y.2, by rw [List.getElem?_map, hx]; rfl, by rw [List.getElem?_map, hy]; rfl, h3⟩
    · rintro ⟨h1, h2, a, b, h3, h4, h5⟩
      rw [List.getElem?_map, hx] at h3
      rw [List.getElem?_map, hy] at h4
      cases h3
      cases h4
      exact ⟨⟨h1, h2⟩, h5⟩
  have hbound : ∀ {i j : Nat}, SameObs pv ants (l.map (·.2)) i j → i < bs.length := by
    rintro i j ⟨_, _, a, b, h3, _, _⟩
    have := (List.getElem?_eq_some_iff.1 h3).1
    rw [List.length_map, e3] at this
    exact this
  have hdat : ∀ {j : Nat} {x : VisR × Out}, l2[j]? = some x → (E.show n x.2).flags.length = n ∧
      (E.show n x.2).data.length = 8 * (E.show n x.2).flags.length := by
    intro j x hx
    obtain ⟨S, hS⟩ := hsame hx
    obtain ⟨b, hb⟩ := hblk (hlen2 hx)
    obtain ⟨s1, s2, s3, s4⟩ := hshow hS hb
    simp only at s1 s2
    rw [s1, s2, s3, s4]
    exact ⟨rfl, rfl⟩
  have hpol2 : ∀ {j : Nat} {x : VisR × Out}, l2[j]? = some x → getPol E x.1 = some (.int (pv j)) ∧ (E.show n x.2).i = (ants j).1 ∧
      (E.show n x.2).j = (ants j).2 := by
    intro j x hx
    obtain ⟨b, hb⟩ := hblk (hlen2 hx)
    obtain ⟨a1, a2, _⟩ := k2 j x.1 x.2 b hx hb
    exact record_at (n := n) hbl hp hants hb a1 a2
  refine ⟨fun hnan fuel => ?_, fun hnum => ?_⟩
  · obtain ⟨out, ho, hnan⟩ := hnan
    obtain ⟨j, hj⟩ := List.getElem?_of_mem ho
    rw [← k1, List.getElem?_map] at hj
    obtain ⟨x, hx, rfl⟩ := Option.map_eq_some_iff.1 hj
    rw [hrun]
    apply k3
    refine run_none (List.mem_of_getElem? hx) (fun x _ y' q hq => pipe_state hq) ?_
    obtain ⟨q1, q2, q3⟩ := hpol2 hx
    refine pipe_none q1 ?_
    rw [q2, q3]
    rw [List.find?_eq_none]
    intro y hy hc
    obtain ⟨i, hi, rfl⟩ := (hmem y).1 hy
    obtain ⟨S, hS⟩ := hsame hx
    obtain ⟨_, _, a, b, _, h4, h5⟩ := (hfind hi (hlen2 hx) hS).1 hc
    rw [List.getElem?_map, hS] at h4
    cases h4
    exact h5.2.1 hnan
  -- the pass over the records
  have hproc : ∀ j : Nat, ∃ (i : Nat) (r : PyRec), ∀ x, l2[j]? = some x → LastLike pv ants (l.map (·.2)) i j ∧
      r = flagged (E.show n x.2) (e i).2 ∧
      xrfiPipe E ((List.range bs.length).reverse.map e) x.1 (E.show n x.2) = some ((List.range bs.length).reverse.map e, some r) := by
    intro j
    by_cases hj : j < bs.length
    · obtain ⟨x, hx⟩ := hrd2 hj
      obtain ⟨S, hS⟩ := hsame hx
      obtain ⟨q1, q2, q3⟩ := hpol2 hx
      have hself : SameObs pv ants (l.map (·.2)) j j := by
        have hx2 : (l.map (·.2))[j]? = some x.2 := by rw [List.getElem?_map, hS]; rfl
        have hn := hnum x.2 (List.mem_of_getElem? hx2)
        exact ⟨rfl, Or.inl rfl, x.2, x.2, hx2, hx2, hn, hn, Or.inl rfl⟩
      rcases find_last (fun y : (Int × Int × Nat) × List Bool => y.1.1 == pv j && y.1.2.1 == Codes.ij2bl (ants j).1 (ants j).2 &&
          pyFloatEq y.1.2.2 x.2.time) e bs.length with ⟨_, h2⟩ | ⟨i, h1, h2, h3, h4⟩
      · have := (hfind hj hj hS).2 hself
        rw [h2 j hj] at this
        cases this
      · refine ⟨i, flagged (E.show n x.2) (e i).2, fun x' hx' => ?_⟩
        rw [hx] at hx'
        cases hx'
        refine ⟨⟨(hfind h1 hj hS).1 h3, fun i' hi' => ?_⟩, rfl, ?_⟩
        · by_contra hlt
          have := h4 i' (by omega) (hbound hi')
          rw [(hfind (hbound hi') hj hS).2 hi'] at this
          cases this
        · refine pipe_some q1 (by rw [q2, q3]; exact h2) ?_
          obtain ⟨y, hy⟩ := hrd h1
          obtain ⟨b, hb⟩ := hblk h1
          rw [(he i y b hy hb).2.1, (hdat hx).1]
    · exact ⟨0, E.show n ⟨0, 0, none, 0, 0, .plain [], []⟩, fun x hx => absurd (hlen2 hx) hj⟩
  choose I G hG using hproc
  have hrun2 := run_each (E := E) (n := n) (pr := xrfiPipe E) (y := (List.range bs.length).reverse.map e) (F := G) l2 0 (fun j x hx => by
    rw [Nat.zero_add]; exact (hG j x hx).2.2)
  have hmildOn : MildOn E n (xrfiPipe E) l2 := by
    intro M S out hmem M' q hq
    obtain ⟨j, hj⟩ := List.getElem?_of_mem hmem
    exact (pipe_mild (hdat hj).2 hq).1
  obtain ⟨t1, W', f1, f2⟩ := k4 _ _ hrun2 hmildOn
  obtain ⟨q1, q2⟩ := kept_each (E := E) (n := n) (mf := returned ((List.range l2.length).map fun j => some (G (0 + j)))) (F := G) l2 0 (by
    intro j x hx
    rw [Nat.zero_add]
    refine returned_at ?_ ?_
    · rw [List.getElem?_map, List.getElem?_range (by rw [hl2]; exact hlen2 hx), Option.map_some, Nat.zero_add]
    · intro q hq
      cases hq
      exact (pipe_mild (hdat hx).2 (hG j x hx).2.2).1)
  refine ⟨t1, W', fun fuel hf => by rw [hrun]; exact f1 fuel hf, fun hoff => ?_⟩
  obtain ⟨cpy, c1, c2, c3⟩ := f2 (fun h0 => by
    rw [h0] at q1
    exact O.nonempty (List.length_eq_zero_iff.1 (by rw [← hl2, ← q1]; rfl))) hoff
  refine ⟨cpy, c1, c2, fun g' m' hm' => ?_⟩
  obtain ⟨it, r0, d1, d2, d3⟩ := c3 g' m' hm'
  rw [q1, hl2] at d2
  refine ⟨it, r0, d1, d2, fun j b out0 hb ho => ?_⟩
  have hj := (List.getElem?_eq_some_iff.1 hb).1
  obtain ⟨x, hx⟩ := hrd2 hj
  obtain ⟨S, hS⟩ := hsame hx
  rw [List.getElem?_map, hS] at ho
  cases ho
  obtain ⟨g1, g2, g3⟩ := hG j x hx
  have hi := hbound g1.1
  obtain ⟨bi, hbi⟩ := hblk hi
  obtain ⟨xi, hxi⟩ := hrd hi
  refine ⟨I j, bi, g1, hbi, ?_⟩
  have hq2 := q2 j x hx
  rw [Nat.zero_add] at hq2
  obtain ⟨it1, R, outs', s1, s2, s3⟩ := d3 j _ _ hq2
  obtain ⟨a1, a2, a3⟩ := k2 j x.1 x.2 b hx hb
  obtain ⟨_, w2, w3, _⟩ := he (I j) xi bi hxi hbi
  obtain ⟨v1, v2, v3, v4⟩ := hshow hS hb
  simp only at v1 v2
  have hrec : recOf E (G j) = { x.2 with flags := (e (I j)).2.map (!·), data := .plain (flagged (E.show n x.2) (e (I j)).2).data } := by
    rw [g2]
    have key : ∀ p f, recOf E (flagged p f) = { recOf E p with flags := f.map (!·), data := .plain (flagged p f).data } := by
      intro p f
      unfold recOf
      rw [hmode]
      rfl
    rw [key, a3]
  have hget : ∀ k < n, (e (I j)).2.getD k false = true ↔ BadChan opts.reflag chans bi.vis k := by
    intro k hk
    rw [← w3 k hk, List.getD_eq_getElem?_getD, List.getElem?_eq_getElem (by rw [w2]; exact hk)]
    simp
  refine ⟨it1, R, outs', recOf E (G j), s1, s2, ?_, fun nm ty d ht hc hd => ?_⟩
  · rw [hrec]
    obtain ⟨z1, z2⟩ := flagged_data (E.show n x.2) (e (I j)).2 (hdat hx).2
    rw [(hdat hx).1] at z1 z2
    refine ⟨rfl, rfl, rfl, rfl, rfl, ?_, ?_, _, rfl, ?_, ?_⟩
    · show ((e (I j)).2.map (!·)).length = _
      rw [List.length_map, w2, v3]
    · intro k hk
      rw [v3] at hk
      show ((e (I j)).2.map (!·))[k]? = some false ↔ _
      rw [← w3 k hk, List.getElem?_map]
      cases (e (I j)).2[k]? with
      | none => simp
      | some v => cases v <;> simp
    · rw [z1, v3]
    · intro k hk
      rw [v3] at hk
      rw [z2 k hk, v2]
      constructor
      · intro hbad
        rw [if_pos ((hget k hk).2 hbad)]
      · intro hbad
        rw [if_neg (fun hh => hbad ((hget k hk).1 hh))]
  · have hg := a1.values nm ty d ht hd
    obtain ⟨v, hv', rfl, rfl⟩ := getvr_mem_of hg
    rw [s3 v hv' ⟨hc, by simp, rfl, fun _ => by decide⟩, hg]

/-! ## The theorems -/

/-- **C100** (partial: `flagmode` `none`, or one that has nothing to do; no `--share`).  xrfi.py on a directory makes one with as many
records.  A record is as it was, but flagged and zero in the channels that were flagged in the file (without `--reflag`), were zero or
were given with `-c`, in the last of the records of the same polarisation, antennas and time.  Variables and items are as they were,
but for the line that is added to the history.  The times have to be numbers. -/
theorem c100_flags_partial (c : Conv) (hw : ∀ x < 2 ^ 32, c.round (c.widen x) = x) {E : Env} {o q junk bs W n names h old}
    (O : Origin E o q junk bs W n names h old) (hmode : E.mode = .real) (hl : FpLaws E.o)
    (hq : QuantOk E.q) (hbl : BlLaws E.bl o) (hun : ∀ t ints, (E.unscale t ints).length = ints.length)
    {m : Mask} (hm : FlagFile W m) (hv : VarsOk E W [] [])
    (hlast : ∀ x ∈ table W.w, x.1 ≠ nmCorr → ∃ d, valueAfter W.evs x.1 = some d ∧ Plain x.2 d)
    {obs : Option (List Byte)} (hobs : ObsOk obs) {opts : XOpts} (htext : TextsOk opts old)
    {pv : Nat → Int} (hp : PolsAre W bs.length pv) {ants : Nat → Nat × Nat} (hants : AntsAre E bs ants)
    {nchan : Nat} {chans : List Int} (hchans : ChansAre opts nchan chans) (hrange : ∀ c ∈ chans, -(n : Int) ≤ c ∧ c < n)
    (hbr : ¬ Broken opts bs ants) (g0 g : Nat → Byte) :
    ∃ src outs, directory c g0 h = some src ∧
      (∃ it r0 it1 R, openOld src g = some (it, r0) ∧ huvreadN g n bs.length it ⟨r0, 0, m⟩ = some (it1, R, outs)) ∧
      outs.length = bs.length ∧
      (∀ (j : Nat) (out : Out) (b : Block), outs[j]? = some out → bs[j]? = some b → Matches o q .real out b.vis) ∧
      ((∀ out ∈ outs, ¬ NotNum out.time) → ∃ t1 W',
        (∀ fuel, bs.length < fuel → xrfiRun E c g src m nchan opts fuel = some (t1, W')) ∧
        (W'.w.offset ≤ 2 ^ 31 → ∃ cpy, closeCopy c g obs (t1, W') = some cpy ∧
          (∀ g', rdhd c cpy Hio.hist g' = .ok (.str (old ++ ("XRFI: nsig=".toList ++ opts.nsig ++ " chans=".toList ++
            (match opts.chan with | none => "None".toList | some s => s) ++ " mode=".toList ++ opts.mode ++
            " ch_thresh=".toList ++ opts.chThresh ++ " int_thresh=".toList ++ opts.intThresh ++
            " raw=".toList ++ (if opts.raw then "True".toList else "None".toList) ++
            " reflag=".toList ++ (if opts.reflag then "True".toList else "None".toList) ++
            " share=None\n".toList).map Char.toNat))) ∧
          (∀ (nm : Hio.Name) (k : Head.Kind) (g' : Nat → Byte), Head.itype nm = some k → nm ≠ Hio.hist → nm ≠ itVartable →
            (nm = Head.obstype → obs = none) → rdhd c cpy nm g' = rdhd c src nm g') ∧
          ∀ (g' : Nat → Byte) (m' : Mask), FlagFile W' m' → ∃ it r0, openOld cpy g' = some (it, r0) ∧
            (∃ it1 it2 R outs R', huvreadN g' n bs.length it ⟨r0, 0, m'⟩ = some (it1, R, outs) ∧
              huvread g' n it1 R = (it2, .eof R')) ∧
            ∀ (j : Nat) (b : Block), bs[j]? = some b →
              ∃ i bi out0, LastLike pv ants outs i j ∧ bs[i]? = some bi ∧ outs[j]? = some out0 ∧ ∃ it1 R outs' out,
                huvreadN g' n (j + 1) it ⟨r0, 0, m'⟩ = some (it1, R, outs' ++ [out]) ∧ outs'.length = j ∧
                FlaggedAs (BadChan opts.reflag chans bi.vis) b.vis out0 out ∧
                ∀ nm ty d, (nm, ty) ∈ table W.w → nm ≠ nmCorr → valueAfter (upTo (j + 1) W.evs) nm = some d →
                  getvr R.r nm ty = some d)) := by
  obtain ⟨src, outs, e1, e2, e3, e4, _, e6⟩ := xrfi_core c hw O hmode hl hq hbl hun hm hv hlast hobs htext hp hants hchans g0 g
  refine ⟨src, outs, e1, e2, e3, e4, fun hnum => ?_⟩
  obtain ⟨t1, W', f1, f2⟩ := ((e6 hrange).2 hbr).2 hnum
  refine ⟨t1, W', f1, fun hoff => ?_⟩
  obtain ⟨cpy, c1, c2, c3⟩ := f2 hoff
  refine ⟨cpy, c1, fun g' => ?_, fun nm k g' h1 h2 h3 h4 => (c2.others nm k g' h1 h2 h3 h4).2.1 (by simp) rfl, fun g' m' hm' => ?_⟩
  · rw [c2.history]
    have hs : opts.share = false := by
      cases hs : opts.share with
      | false => rfl
      | true => exact absurd (Or.inr (Or.inr ⟨hs, O.nonempty⟩)) hbr
    have : xrfiHist opts = "XRFI: nsig=".toList ++ opts.nsig ++ " chans=".toList ++
            (match opts.chan with | none => "None".toList | some s => s) ++ " mode=".toList ++ opts.mode ++
            " ch_thresh=".toList ++ opts.chThresh ++ " int_thresh=".toList ++ opts.intThresh ++
            " raw=".toList ++ (if opts.raw then "True".toList else "None".toList) ++
            " reflag=".toList ++ (if opts.reflag then "True".toList else "None".toList) ++
            " share=None\n".toList := by
      unfold xrfiHist flagText
      rw [hs, List.append_assoc _ " share=".toList, List.append_assoc _ (_ ++ _)]
      congr 1
      cases opts.chan <;> cases opts.raw <;> cases opts.reflag <;> rfl
    rw [this]
  · obtain ⟨it, r0, d1, d2, d3⟩ := c3 g' m' hm'
    refine ⟨it, r0, d1, d2, fun j b hb => ?_⟩
    obtain ⟨out0, ho⟩ : ∃ x, outs[j]? = some x :=
      ⟨_, List.getElem?_eq_getElem (by rw [e3]; exact (List.getElem?_eq_some_iff.1 hb).1)⟩
    obtain ⟨i, bi, k1, k2, k3⟩ := d3 j b out0 hb ho
    exact ⟨i, bi, out0, k1, k2, ho, k3⟩

/-- **C100**, no two records of the same polarisation, antennas and time: each has its own flags. -/
theorem c100_distinct_partial (c : Conv) (hw : ∀ x < 2 ^ 32, c.round (c.widen x) = x) {E : Env} {o q junk bs W n names h old}
    (O : Origin E o q junk bs W n names h old) (hmode : E.mode = .real) (hl : FpLaws E.o)
    (hq : QuantOk E.q) (hbl : BlLaws E.bl o) (hun : ∀ t ints, (E.unscale t ints).length = ints.length)
    {m : Mask} (hm : FlagFile W m) (hv : VarsOk E W [] [])
    (hlast : ∀ x ∈ table W.w, x.1 ≠ nmCorr → ∃ d, valueAfter W.evs x.1 = some d ∧ Plain x.2 d)
    {obs : Option (List Byte)} (hobs : ObsOk obs) {opts : XOpts} (htext : TextsOk opts old)
    {pv : Nat → Int} (hp : PolsAre W bs.length pv) {ants : Nat → Nat × Nat} (hants : AntsAre E bs ants)
    {nchan : Nat} {chans : List Int} (hchans : ChansAre opts nchan chans) (hrange : ∀ c ∈ chans, -(n : Int) ≤ c ∧ c < n)
    (hbr : ¬ Broken opts bs ants) (g0 g : Nat → Byte) :
    ∃ src outs, directory c g0 h = some src ∧
      (∃ it r0 it1 R, openOld src g = some (it, r0) ∧ huvreadN g n bs.length it ⟨r0, 0, m⟩ = some (it1, R, outs)) ∧
      ((∀ out ∈ outs, ¬ NotNum out.time) → (∀ i j, SameObs pv ants outs i j → i = j) → ∃ t1 W',
        (∀ fuel, bs.length < fuel → xrfiRun E c g src m nchan opts fuel = some (t1, W')) ∧
        (W'.w.offset ≤ 2 ^ 31 → ∃ cpy, closeCopy c g obs (t1, W') = some cpy ∧
          ∀ (g' : Nat → Byte) (m' : Mask), FlagFile W' m' → ∃ it r0, openOld cpy g' = some (it, r0) ∧
            ∀ (j : Nat) (b : Block), bs[j]? = some b → ∃ out0 it1 R outs' out, outs[j]? = some out0 ∧
                huvreadN g' n (j + 1) it ⟨r0, 0, m'⟩ = some (it1, R, outs' ++ [out]) ∧ outs'.length = j ∧
                FlaggedAs (BadChan opts.reflag chans b.vis) b.vis out0 out)) := by
  obtain ⟨src, outs, e1, e2, e3, e4, _, e6⟩ := xrfi_core c hw O hmode hl hq hbl hun hm hv hlast hobs htext hp hants hchans g0 g
  refine ⟨src, outs, e1, e2, fun hnum hdist => ?_⟩
  obtain ⟨t1, W', f1, f2⟩ := ((e6 hrange).2 hbr).2 hnum
  refine ⟨t1, W', f1, fun hoff => ?_⟩
  obtain ⟨cpy, c1, _, c3⟩ := f2 hoff
  refine ⟨cpy, c1, fun g' m' hm' => ?_⟩
  obtain ⟨it, r0, d1, _, d3⟩ := c3 g' m' hm'
  refine ⟨it, r0, d1, fun j b hb => ?_⟩
  have hj := (List.getElem?_eq_some_iff.1 hb).1
  obtain ⟨out0, ho⟩ : ∃ x, outs[j]? = some x := ⟨_, List.getElem?_eq_getElem (by rw [e3]; exact hj)⟩
  obtain ⟨i, bi, k1, k2, it1, R, outs', out, k3, k4, k5, _⟩ := d3 j b out0 hb ho
  have hij := hdist i j k1.1
  subst hij
  rw [hb] at k2
  cases k2
  exact ⟨out0, it1, R, outs', out, ho, k3, k4, k5⟩

/-- **C100**, what raises.  A channel that does not exist; `--flagmode val` with a correlation of two antennas; `--flagmode int` with one
of an antenna with itself; `both`, the default, with any file; `--share` with any file. -/
theorem c100_raises_violated (c : Conv) (hw : ∀ x < 2 ^ 32, c.round (c.widen x) = x) {E : Env} {o q junk bs W n names h old}
    (O : Origin E o q junk bs W n names h old) (hmode : E.mode = .real) (hl : FpLaws E.o)
    (hq : QuantOk E.q) (hbl : BlLaws E.bl o) (hun : ∀ t ints, (E.unscale t ints).length = ints.length)
    {m : Mask} (hm : FlagFile W m) (hv : VarsOk E W [] [])
    (hlast : ∀ x ∈ table W.w, x.1 ≠ nmCorr → ∃ d, valueAfter W.evs x.1 = some d ∧ Plain x.2 d)
    {opts : XOpts} (htext : TextsOk opts old)
    {pv : Nat → Int} (hp : PolsAre W bs.length pv) {ants : Nat → Nat × Nat} (hants : AntsAre E bs ants)
    {nchan : Nat} {chans : List Int} (hchans : ChansAre opts nchan chans) (g0 g : Nat → Byte)
    (hbad : (∃ c ∈ chans, c < -(n : Int) ∨ (n : Int) ≤ c) ∨
      (opts.mode = "val".toList ∧ ∃ j < bs.length, (ants j).1 ≠ (ants j).2) ∨
      (opts.mode = "int".toList ∧ ∃ j < bs.length, (ants j).1 = (ants j).2) ∨ opts.mode = "both".toList ∨ opts.share = true) :
    ∃ src, directory c g0 h = some src ∧ ∀ fuel, xrfiRun E c g src m nchan opts fuel = none := by
  obtain ⟨src, outs, e1, e2, e3, e4, e5, e6⟩ := xrfi_core c hw O hmode hl hq hbl hun hm hv hlast (obs := none) (fun s hs => by cases hs)
    htext hp hants hchans g0 g
  refine ⟨src, e1, ?_⟩
  by_cases hrange : ∀ c ∈ chans, -(n : Int) ≤ c ∧ c < n
  · refine (e6 hrange).1 ?_
    rcases hbad with ⟨ch, h1, h2⟩ | ⟨h1, h2⟩ | ⟨h1, h2⟩ | h1 | h1
    · have := hrange ch h1
      omega
    · exact Or.inl ⟨Or.inl h1, h2⟩
    · exact Or.inr (Or.inl ⟨Or.inl h1, h2⟩)
    · have h0 : 0 < bs.length := List.length_pos_iff.2 O.nonempty
      by_cases ha : (ants 0).1 = (ants 0).2
      · exact Or.inr (Or.inl ⟨Or.inr h1, 0, h0, ha⟩)
      · exact Or.inl ⟨Or.inr h1, 0, h0, ha⟩
    · exact Or.inr (Or.inr ⟨h1, O.nonempty⟩)
  · apply e5
    by_contra hc
    apply hrange
    intro ch hch
    by_contra hn
    exact hc ⟨ch, hch, hn⟩

/-- **C100**, a time that is not a number: the script raises. -/
theorem c100_nan (c : Conv) (hw : ∀ x < 2 ^ 32, c.round (c.widen x) = x) {E : Env} {o q junk bs W n names h old}
    (O : Origin E o q junk bs W n names h old) (hmode : E.mode = .real) (hl : FpLaws E.o)
    (hq : QuantOk E.q) (hbl : BlLaws E.bl o) (hun : ∀ t ints, (E.unscale t ints).length = ints.length)
    {m : Mask} (hm : FlagFile W m) (hv : VarsOk E W [] [])
    (hlast : ∀ x ∈ table W.w, x.1 ≠ nmCorr → ∃ d, valueAfter W.evs x.1 = some d ∧ Plain x.2 d)
    {opts : XOpts} (htext : TextsOk opts old)
    {pv : Nat → Int} (hp : PolsAre W bs.length pv) {ants : Nat → Nat × Nat} (hants : AntsAre E bs ants)
    {nchan : Nat} {chans : List Int} (hchans : ChansAre opts nchan chans) (g0 g : Nat → Byte) :
    ∃ src outs, directory c g0 h = some src ∧
      (∃ it r0 it1 R, openOld src g = some (it, r0) ∧ huvreadN g n bs.length it ⟨r0, 0, m⟩ = some (it1, R, outs)) ∧
      ((∃ out ∈ outs, NotNum out.time) → ∀ fuel, xrfiRun E c g src m nchan opts fuel = none) := by
  obtain ⟨src, outs, e1, e2, e3, e4, e5, e6⟩ := xrfi_core c hw O hmode hl hq hbl hun hm hv hlast (obs := none) (fun s hs => by cases hs)
    htext hp hants hchans g0 g
  refine ⟨src, outs, e1, e2, fun hnan => ?_⟩
  by_cases hrange : ∀ c ∈ chans, -(n : Int) ≤ c ∧ c < n
  · by_cases hbr : Broken opts bs ants
    · exact (e6 hrange).1 hbr
    · exact ((e6 hrange).2 hbr).1 hnan
  · apply e5
    by_contra hc
    apply hrange
    intro ch hch
    by_contra hn
    exact hc ⟨ch, hch, hn⟩

/-! ## An example -/

def demoAnts (j : Nat) : Nat × Nat := if j = 1 then (0, 2) else (0, 1)

/-- `-c 1 --flagmode none` -/
def demoXOpts : XOpts := ⟨some ['1'], "2.000000".toList, "none".toList, false, "0.330000".toList, "0.990000".toList, false, false⟩

instance (ty : Ty) (d : List Byte) : Decidable (Plain ty d) := by unfold Plain; infer_instance

theorem demo_hlast {W : VisW} (h0 : writeAll .real polSrc = some W) :
    ∀ x ∈ table W.w, x.1 ≠ nmCorr → ∃ d, valueAfter W.evs x.1 = some d ∧ Plain x.2 d := by
  have hf : (writeAll .real polSrc).any (fun W => (table W.w).all fun x => x.1 == nmCorr ||
      ((valueAfter W.evs x.1).any fun d => decide (Plain x.2 d))) = true := by decide +kernel
  rw [h0, Option.any_some, List.all_eq_true] at hf
  intro x hx hc
  have := hf x hx
  rw [Bool.or_eq_true, beq_iff_eq, Option.any_eq_true] at this
  rcases this with h | ⟨d, h1, h2⟩
  · exact absurd h hc
  · exact ⟨d, h1, of_decide_eq_true h2⟩

theorem xrfi_origin : ∃ W m, Origin demoEnv demoOps demoQuant (fun _ => 0) polSrc W 2 demoItemNames
      (demoItems.map .item ++ (W.evs.map .ev ++ [.flags W.flagOff])) [104, 105, 10] ∧
    VarsOk demoEnv W [] [] ∧ PolsAre W 3 polVals ∧ FlagFile W m ∧
    ∀ x ∈ table W.w, x.1 ≠ nmCorr → ∃ d, valueAfter W.evs x.1 = some d ∧ Plain x.2 d := by
  obtain ⟨W, h0, ha, hv, hp, m, hm⟩ := pol_archive
  have hfacts : (writeAll .real polSrc).any (fun W => decide (W.w.offset ≤ 2 ^ 31) && decide (W.flagOff < 2 ^ 63) &&
      ((table W.w).all fun p => decide ((p.1 ≠ [] ∧ ∀ c ∈ p.1, 33 ≤ c.toNat ∧ c.toNat ≤ 126) ∧ nameBytes p.1 ∉ demoItemNames ∧
        nameBytes p.1 ∉ otherFiles))) = true := by
    decide +kernel
  rw [h0] at hfacts
  simp only [Option.any_some, Bool.and_eq_true, decide_eq_true_eq] at hfacts
  obtain ⟨⟨f1, f2⟩, f3⟩ := hfacts
  exact ⟨W, m, demo_origin_of ha (by decide) f1 f2 f3, hv, hp, hm, demo_hlast h0⟩

theorem demo_ants : AntsAre demoEnv polSrc demoAnts := by
  intro j b hb
  match j, hb with
  | 0, hb => cases hb; exact ⟨by decide, by decide, rfl⟩
  | 1, hb => cases hb; exact ⟨by decide, by decide, rfl⟩
  | 2, hb => cases hb; exact ⟨by decide, by decide, rfl⟩
  | _ + 3, hb => cases hb

theorem demo_texts {o : XOpts} (h : o = demoXOpts ∨ o = { demoXOpts with mode := "both".toList }) : TextsOk o [104, 105, 10] := by
  rcases h with rfl | rfl <;> exact ⟨by decide, by decide⟩

/-- the hypotheses of the theorems can be met, and the times are those that were written -/
example : ∃ h src m t1 W' outs, directory Head.lowConv (fun _ => 0) h = some src ∧
    (∃ it r0 it1 R, openOld src (fun _ => 0) = some (it, r0) ∧ huvreadN (fun _ => 0) 2 3 it ⟨r0, 0, m⟩ = some (it1, R, outs)) ∧
    ∀ fuel, 3 < fuel → xrfiRun demoEnv Head.lowConv (fun _ => 0) src m 2 demoXOpts fuel = some (t1, W') := by
  obtain ⟨W, m, O, hv, hp, hm, hla⟩ := xrfi_origin
  obtain ⟨src, outs, e1, e2, e0, e3, e4⟩ := c100_flags_partial Head.lowConv Head.srcOps_ok.2.2.2 O rfl demo_laws demo_quant demo_bl
    (fun _ _ => rfl) hm hv hla (obs := none) (fun s hs => by cases hs) (demo_texts (Or.inl rfl)) hp demo_ants (nchan := 2) (chans := [1])
    (Or.inr ⟨_, rfl, by decide⟩) (by decide) (by
      rintro (⟨h, _⟩ | ⟨h, _⟩ | ⟨h, _⟩)
      · revert h; decide
      · revert h; decide
      · cases h) (fun _ => 0) (fun _ => 0)
  have hnum : ∀ out ∈ outs, ¬ NotNum out.time := by
    intro out ho
    obtain ⟨j, hj⟩ := List.getElem?_of_mem ho
    have hlt : j < polSrc.length := by rw [← e0]; exact (List.getElem?_eq_some_iff.1 hj).1
    have ht : out.time = polSrc[j].vis.time := by
      rcases (e3 j out _ hj (List.getElem?_eq_getElem hlt)).time with h | h
      · exact h
      · exact eq_of_beq h
    rw [ht]
    match j, hlt with
    | 0, _ => exact fun h => absurd h.1 (show ¬ 4 / 2 ^ 52 % 2 ^ 11 = 2047 from by decide)
    | 1, _ => exact fun h => absurd h.1 (show ¬ 6 / 2 ^ 52 % 2 ^ 11 = 2047 from by decide)
    | 2, _ => exact fun h => absurd h.1 (show ¬ 7 / 2 ^ 52 % 2 ^ 11 = 2047 from by decide)
  obtain ⟨t1, W', f1, _⟩ := e4 hnum
  exact ⟨_, src, m, t1, W', outs, e1, e2, f1⟩

/-- the default mode -/
example : ∃ h src m, directory Head.lowConv (fun _ => 0) h = some src ∧
    ∀ fuel, xrfiRun demoEnv Head.lowConv (fun _ => 0) src m 2 { demoXOpts with mode := "both".toList } fuel = none := by
  obtain ⟨W, m, O, hv, hp, hm, hla⟩ := xrfi_origin
  obtain ⟨src, e1, e2⟩ := c100_raises_violated Head.lowConv Head.srcOps_ok.2.2.2 O rfl demo_laws demo_quant demo_bl
    (fun _ _ => rfl) hm hv hla (demo_texts (Or.inr rfl)) hp demo_ants (nchan := 2) (chans := [1])
    (Or.inr ⟨_, rfl, by decide⟩) (fun _ => 0) (fun _ => 0) (Or.inr (Or.inr (Or.inr (Or.inl rfl))))
  exact ⟨_, src, m, e1, e2⟩

end Verif.Mir.Uv
