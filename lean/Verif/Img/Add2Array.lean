import Mathlib.Algebra.BigOperators.Group.List.Basic
import Mathlib.Tactic.Ring
/-!
# Properties C26, C27 : `utils.add2array`

Model of `/repo/aipy/utils/utils.cpp` 49-160.  An array is a shape, one stride per axis and a memory (element address
to value), so that transposed and sliced views are covered; addresses are counted in elements from `PyArray_DATA(a)`.
The element type is any commutative additive monoid (machine integers with wrap-around, booleans with or, exact
numbers; complex numbers are added by parts, which is their addition).  `ind` and `data` are taken not to overlap `a`.
-/
namespace Verif.Img

structure NdArr (α : Type) where
  shape : List Nat
  strides : List Int
  mem : Int → α

/-- conversion to the C type `int` of the variable `v`, utils.cpp 60 -/
def toInt32 (x : Int) : Int := (x + 2147483648) % 4294967296 - 2147483648

/-- one index: `v = IND2(ind,i,j,long); if (v < 0) v += DIM(a,j); if (v < 0 || v >= DIM(a,j)) return -1;`,
utils.cpp 64-66 -/
def wrapNeg (d : Nat) (v : Int) : Int := if v < 0 then toInt32 (v + d) else v

def normIndex (d : Nat) (x : Int) : Option Int :=
  if wrapNeg d (toInt32 x) < 0 ∨ wrapNeg d (toInt32 x) ≥ d then none else some (wrapNeg d (toInt32 x))

/-- the address denoted by one row of `ind`, utils.cpp 62-68 -/
def address : List Nat → List Int → List Int → Option Int
  | d :: ds, s :: ss, x :: xs => match normIndex d x with
    | none => none
    | some v => (address ds ss xs).map (fun r => v * s + r)
  | _, _, _ => some 0

/-- `ADD(index, PNT1(data,i), T)`, utils.cpp 69 -/
def addAt {α : Type} [Add α] (mem : Int → α) (p : Int) (v : α) : Int → α := fun q => if q = p then mem q + v else mem q

/-- the loop over the samples, utils.cpp 61-72; the Boolean is false when it returns -1 -/
def addloop {α : Type} [Add α] (a : NdArr α) : List (List Int × α) → NdArr α × Bool
  | [] => (a, true)
  | (row, v) :: rest => match address a.shape a.strides row with
    | none => (a, false)
    | some p => addloop { a with mem := addAt a.mem p v } rest

/-- the arguments `ind` and `data` with what is checked about them -/
structure AddArgs (α : Type) where
  indRank : Nat
  dataRank : Nat
  indCols : Nat
  ind : List (List Int)
  data : List α
  indIsLong : Bool
  sameType : Bool
  supported : Bool

/-- exceptions, all `ValueError` -/
inductive AddErr | rankInd | rankData | dim0 | dim1 | typeInd | typeData | unsupported | index
deriving DecidableEq

/-- the checks of the arguments, utils.cpp 97-108, 148-151 -/
def addCheck {α : Type} (a : NdArr α) (x : AddArgs α) : Option AddErr :=
  if x.indRank ≠ 2 then some .rankInd
  else if x.dataRank ≠ 1 then some .rankData
  else if x.ind.length ≠ x.data.length then some .dim0
  else if x.indCols ≠ a.shape.length then some .dim1
  else if x.indIsLong = false then some .typeInd
  else if x.sameType = false then some .typeData
  else if x.supported = false then some .unsupported
  else none

/-- the result of the loop, utils.cpp 152-159 -/
def addResult {α : Type} (r : NdArr α × Bool) : NdArr α × Option AddErr := (r.1, if r.2 then none else some .index)

/-- `add2array(a, ind, data)`, utils.cpp 93-160: the array afterwards and the exception if any -/
def add2array {α : Type} [Add α] (a : NdArr α) (x : AddArgs α) : NdArr α × Option AddErr :=
  match addCheck a x with
  | some e => (a, some e)
  | none => addResult (addloop a (x.ind.zip x.data))

/-! ## Specification -/

/-- `x` is an index for position `i` of an axis of length `d`, negative numbers counting from the end as in numpy -/
def Idx (d : Nat) (x : Int) (i : Nat) : Prop := i < d ∧ (x = i ∨ x = (i : Int) - d)

/-- an index row denotes a position of the array -/
inductive Denotes : List Nat → List Int → List Nat → Prop
  | nil : Denotes [] [] []
  | cons {d x i ds xs is} : Idx d x i → Denotes ds xs is → Denotes (d :: ds) (x :: xs) (i :: is)

/-- positions of an array -/
inductive Valid : List Nat → List Nat → Prop
  | nil : Valid [] []
  | cons {d i ds is} : i < d → Valid ds is → Valid (d :: ds) (i :: is)

/-- where numpy keeps an element -/
def dot : List Int → List Nat → Int
  | s :: ss, i :: is => (i : Int) * s + dot ss is
  | _, _ => 0

/-- the element at a position -/
def NdArr.get {α : Type} (a : NdArr α) (is : List Nat) : α := a.mem (dot a.strides is)

/-- what numpy guarantees: one stride per axis, different elements at different addresses; and axes shorter than 2^31 -/
structure WF {α : Type} (a : NdArr α) : Prop where
  len : a.strides.length = a.shape.length
  inj : ∀ is js, Valid a.shape is → Valid a.shape js → dot a.strides is = dot a.strides js → is = js
  small : ∀ d ∈ a.shape, d < 2147483648

/-- indices within the range of a C `int` -/
def Int32 (row : List Int) : Prop := ∀ x ∈ row, -2147483648 ≤ x ∧ x < 2147483648

open Classical in
/-- the total of the samples whose index row denotes a position -/
noncomputable def total {α : Type} [AddCommMonoid α] (shape : List Nat) (samples : List (List Int × α)) (is : List Nat) : α :=
  ((samples.filter (fun s => decide (Denotes shape s.1 is))).map Prod.snd).sum

/-! ## Lemmas -/

theorem toInt32_id {x : Int} (h : -2147483648 ≤ x ∧ x < 2147483648) : toInt32 x = x := by unfold toInt32; omega

theorem normIndex_spec {d : Nat} {x : Int} (hd : d < 2147483648) (hx : -2147483648 ≤ x ∧ x < 2147483648) :
    (∀ i : Nat, Idx d x i → normIndex d x = some (i : Int)) ∧
    (∀ v, normIndex d x = some v → ∃ i : Nat, v = i ∧ Idx d x i) := by
  unfold normIndex wrapNeg Idx
  rw [toInt32_id hx]
  constructor
  · intro i hi
    by_cases h : x < 0
    · rw [if_pos h, toInt32_id (by omega), if_neg (by omega)]
      congr 1; omega
    · rw [if_neg h, if_neg (by omega)]
      congr 1; omega
  · intro v hv
    by_cases h : x < 0
    · rw [if_pos h, toInt32_id (by omega)] at hv
      split at hv
      · cases hv
      · cases hv; exact ⟨(x + d).toNat, by omega, by omega, by omega⟩
    · rw [if_neg h] at hv
      split at hv
      · cases hv
      · cases hv; exact ⟨x.toNat, by omega, by omega, by omega⟩

theorem denotes_valid {ds : List Nat} {xs : List Int} {is : List Nat} (h : Denotes ds xs is) : Valid ds is := by
  induction h with
  | nil => exact .nil
  | cons h _ ih => exact .cons h.1 ih

theorem denotes_unique {ds : List Nat} {xs : List Int} {is js : List Nat} (h : Denotes ds xs is)
    (h' : Denotes ds xs js) : is = js := by
  induction h generalizing js with
  | nil => cases h'; rfl
  | cons h _ ih =>
    cases h' with
    | cons h1 h2 =>
      rw [ih h2]
      unfold Idx at h h1
      congr 1; omega

theorem address_spec : ∀ (ds : List Nat) (ss : List Int) (xs : List Int), ss.length = ds.length → xs.length = ds.length →
    (∀ d ∈ ds, d < 2147483648) → Int32 xs →
    (∀ is, Denotes ds xs is → address ds ss xs = some (dot ss is)) ∧
    (∀ p, address ds ss xs = some p → ∃ is, Denotes ds xs is ∧ p = dot ss is) := by
  intro ds
  induction ds with
  | nil =>
    intro ss xs h1 h2 _ _
    have : ss = [] := List.length_eq_zero_iff.1 h1
    have : xs = [] := List.length_eq_zero_iff.1 h2
    subst_vars
    refine ⟨?_, ?_⟩
    · intro is h; cases h; rfl
    · intro p h; cases h; exact ⟨[], .nil, rfl⟩
  | cons d ds ih =>
    intro ss xs h1 h2 h3 h4
    cases ss with
    | nil => cases h1
    | cons s ss =>
      cases xs with
      | nil => cases h2
      | cons x xs =>
        obtain ⟨i1, i2⟩ := ih ss xs (by simpa using h1) (by simpa using h2) (fun d' h => h3 d' (by simp [h]))
          (fun y h => h4 y (by simp [h]))
        obtain ⟨n1, n2⟩ := normIndex_spec (h3 d (by simp)) (h4 x (by simp))
        refine ⟨?_, ?_⟩
        · intro is h
          cases h with
          | cons ha hb =>
            unfold address
            rw [n1 _ ha, i1 _ hb]
            rfl
        · intro p h
          unfold address at h
          cases hn : normIndex d x with
          | none => rw [hn] at h; cases h
          | some v =>
            rw [hn] at h
            simp only [Option.map_eq_some_iff] at h
            obtain ⟨r, hr, rfl⟩ := h
            obtain ⟨i, rfl, hi⟩ := n2 v hn
            obtain ⟨is, his, rfl⟩ := i2 r hr
            exact ⟨i :: is, .cons hi his, rfl⟩

/-- the samples and the array fit together -/
structure Fits {α : Type} (a : NdArr α) (samples : List (List Int × α)) : Prop where
  wf : WF a
  rows : ∀ s ∈ samples, s.1.length = a.shape.length ∧ Int32 s.1

theorem fits_tail {α : Type} {a : NdArr α} {s : List Int × α} {rest : List (List Int × α)} {m : Int → α}
    (h : Fits a (s :: rest)) : Fits { a with mem := m } rest :=
  ⟨⟨h.wf.len, h.wf.inj, h.wf.small⟩, fun s' hs' => h.rows s' (by simp [hs'])⟩

theorem addloop_shape {α : Type} [Add α] (samples : List (List Int × α)) : ∀ a : NdArr α,
    (addloop a samples).1.shape = a.shape ∧ (addloop a samples).1.strides = a.strides := by
  induction samples with
  | nil => intro a; exact ⟨rfl, rfl⟩
  | cons s rest ih =>
    intro a
    obtain ⟨row, v⟩ := s
    unfold addloop
    cases address a.shape a.strides row with
    | none => exact ⟨rfl, rfl⟩
    | some p => exact ih _

/-- the loop adds the samples before the first bad row, and reports whether there is a bad row -/
theorem addloop_spec {α : Type} [AddCommMonoid α] : ∀ (samples : List (List Int × α)) (a : NdArr α), Fits a samples →
    ∃ good bad, samples = good ++ bad ∧ (∀ s ∈ good, ∃ is, Denotes a.shape s.1 is) ∧
      (∀ s t, bad = s :: t → ¬ ∃ is, Denotes a.shape s.1 is) ∧
      (addloop a samples).2 = decide (bad = []) ∧
      (∀ is, Valid a.shape is → (addloop a samples).1.get is = a.get is + total a.shape good is) ∧
      (∀ p, (∀ is, Valid a.shape is → p ≠ dot a.strides is) → (addloop a samples).1.mem p = a.mem p) := by
  intro samples
  induction samples with
  | nil =>
    intro a _
    exact ⟨[], [], rfl, by simp, by simp, by simp [addloop], fun is _ => by simp [addloop, total], fun p _ => rfl⟩
  | cons s rest ih =>
    intro a hf
    obtain ⟨row, v⟩ := s
    obtain ⟨hr1, hr2⟩ := hf.rows (row, v) (by simp)
    obtain ⟨ad1, ad2⟩ := address_spec a.shape a.strides row hf.wf.len hr1 hf.wf.small hr2
    unfold addloop
    cases had : address a.shape a.strides row with
    | none =>
      refine ⟨[], (row, v) :: rest, rfl, by simp, ?_, by simp, fun is _ => by simp [total], fun p _ => rfl⟩
      intro s t e
      cases e
      rintro ⟨is, h⟩
      rw [ad1 is h] at had; cases had
    | some p =>
      obtain ⟨js, hjs, rfl⟩ := ad2 p had
      obtain ⟨good, bad, g1, g2, g3, g4, g5, g6⟩ := ih _ (fits_tail (m := addAt a.mem (dot a.strides js) v) hf)
      refine ⟨(row, v) :: good, bad, by rw [g1]; rfl, ?_, g3, g4, ?_, ?_⟩
      · intro s hs
        rw [List.mem_cons] at hs
        rcases hs with rfl | hs
        · exact ⟨js, hjs⟩
        · exact g2 s hs
      · intro is his
        refine (g5 is his).trans ?_
        unfold NdArr.get addAt total
        simp only
        by_cases he : is = js
        · subst he
          rw [if_pos rfl, List.filter_cons_of_pos (by simpa using hjs)]
          simp [add_assoc]
        · rw [if_neg (fun e => he (hf.wf.inj is js his (denotes_valid hjs) e)),
            List.filter_cons_of_neg (by simpa using fun h => he (denotes_unique h hjs))]
      · intro q hq
        refine (g6 q hq).trans ?_
        unfold addAt
        simp only
        rw [if_neg (hq js (denotes_valid hjs))]

theorem add2array_loop {α : Type} [Add α] {a : NdArr α} {x : AddArgs α} (h : (add2array a x).2 = none) :
    (add2array a x).1 = (addloop a (x.ind.zip x.data)).1 ∧ (addloop a (x.ind.zip x.data)).2 = true := by
  unfold add2array at h ⊢
  cases hc : addCheck a x with
  | some e => rw [hc] at h; cases h
  | none =>
    rw [hc] at h
    refine ⟨rfl, ?_⟩
    unfold addResult at h
    cases hr : (addloop a (x.ind.zip x.data)).2 with
    | true => rfl
    | false => simp [hr] at h

theorem addCheck_index {α : Type} (a : NdArr α) (x : AddArgs α) : addCheck a x ≠ some .index := by
  unfold addCheck
  repeat' split
  all_goals simp

/-! ## C26 -/

/-- C26: every element receives the sum of the data whose index row denotes it (repeated indices accumulate, negative
indices count from the end) and everything else keeps its value, including memory of the base array outside the view. -/
theorem c26_accumulates {α : Type} [AddCommMonoid α] (a : NdArr α) (x : AddArgs α) (hf : Fits a (x.ind.zip x.data))
    (h : (add2array a x).2 = none) :
    (∀ is, Valid a.shape is → (add2array a x).1.get is = a.get is + total a.shape (x.ind.zip x.data) is) ∧
    (∀ p, (∀ is, Valid a.shape is → p ≠ dot a.strides is) → (add2array a x).1.mem p = a.mem p) := by
  obtain ⟨h1, h2⟩ := add2array_loop h
  obtain ⟨good, bad, g1, _, _, g4, g5, g6⟩ := addloop_spec _ a hf
  rw [h2] at g4
  have hb : bad = [] := by simpa using g4.symm
  rw [hb, List.append_nil] at g1
  rw [h1, g1]
  rw [g1] at g5 g6
  exact ⟨g5, g6⟩

/-- C26: the order of the samples does not matter. -/
theorem c26_order {α : Type} [AddCommMonoid α] (a : NdArr α) (x y : AddArgs α) (hf : Fits a (x.ind.zip x.data))
    (hp : (x.ind.zip x.data).Perm (y.ind.zip y.data)) (hx : (add2array a x).2 = none) (hy : (add2array a y).2 = none) :
    (add2array a x).1.mem = (add2array a y).1.mem := by
  have hf' : Fits a (y.ind.zip y.data) := ⟨hf.wf, fun s hs => hf.rows s (hp.mem_iff.2 hs)⟩
  obtain ⟨x1, x2⟩ := c26_accumulates a x hf hx
  obtain ⟨y1, y2⟩ := c26_accumulates a y hf' hy
  obtain ⟨sx, sx2⟩ := addloop_shape (x.ind.zip x.data) a
  obtain ⟨sy, sy2⟩ := addloop_shape (y.ind.zip y.data) a
  rw [← (add2array_loop hx).1] at sx sx2
  rw [← (add2array_loop hy).1] at sy sy2
  funext p
  by_cases hv : ∃ is, Valid a.shape is ∧ p = dot a.strides is
  · obtain ⟨is, h1, rfl⟩ := hv
    have e1 := x1 is h1
    have e2 := y1 is h1
    unfold NdArr.get at e1 e2
    rw [sx2] at e1
    rw [sy2] at e2
    rw [e1, e2]
    congr 1
    exact ((hp.filter _).map _).sum_eq
  · rw [x2 p (fun is h e => hv ⟨is, h, e⟩), y2 p (fun is h e => hv ⟨is, h, e⟩)]

/-- C26: with well-formed arguments the call succeeds exactly when every index row denotes a position of the array, and
otherwise raises. -/
theorem c26_raises_iff {α : Type} [AddCommMonoid α] (a : NdArr α) (x : AddArgs α) (hf : Fits a (x.ind.zip x.data))
    (hx : x.indRank = 2 ∧ x.dataRank = 1 ∧ x.ind.length = x.data.length ∧ x.indCols = a.shape.length ∧
      x.indIsLong = true ∧ x.sameType = true ∧ x.supported = true) :
    (add2array a x).2 = none ↔ ∀ row ∈ x.ind, ∃ is, Denotes a.shape row is := by
  obtain ⟨e1, e2, e3, e4, e5, e6, e7⟩ := hx
  have hmap : (x.ind.zip x.data).map Prod.fst = x.ind := by
    rw [List.map_fst_zip]; omega
  obtain ⟨good, bad, g1, g2, g3, g4, _, _⟩ := addloop_spec _ a hf
  have hr : (add2array a x).2 = if bad = [] then none else some .index := by
    have hc : addCheck a x = none := by unfold addCheck; simp [e1, e2, e3, e4, e5, e6, e7]
    unfold add2array
    rw [hc]
    simp [addResult, g4]
  rw [hr]
  constructor
  · intro h row hrow
    have hb : bad = [] := by
      by_contra hb; rw [if_neg hb] at h; cases h
    rw [← hmap, g1, hb, List.append_nil, List.mem_map] at hrow
    obtain ⟨s, hs, rfl⟩ := hrow
    exact g2 s hs
  · intro h
    by_cases hb : bad = []
    · rw [if_pos hb]
    · exfalso
      obtain ⟨s, t, rfl⟩ := List.exists_cons_of_ne_nil hb
      apply g3 s t rfl
      apply h
      rw [← hmap, g1]
      simp

/-- C26: the restriction to indices in the range of a C `int` is needed: the index 2^32 is accepted for an array of
length 1 (and lands on element 0) instead of raising. -/
theorem c26_long_index_violated :
    let a : NdArr Nat := ⟨[1], [1], fun _ => 0⟩
    let x : AddArgs Nat := ⟨2, 1, 1, [[4294967296]], [5], true, true, true⟩
    (add2array a x).2 = none ∧ (add2array a x).1.get [0] = 5 ∧ ¬ ∃ is, Denotes a.shape [4294967296] is := by
  refine ⟨by decide, by decide, ?_⟩
  rintro ⟨is, h⟩
  cases h with
  | cons h1 h2 => unfold Idx at h1; omega

/-- C-contiguous strides -/
def cStrides : List Nat → List Int
  | [] => []
  | _ :: ds => (ds.prod : Int) :: cStrides ds

theorem dot_cStrides_range : ∀ (ds is : List Nat), Valid ds is → 0 ≤ dot (cStrides ds) is ∧ dot (cStrides ds) is < ds.prod := by
  intro ds is h
  induction h with
  | nil => simp [dot, cStrides]
  | @cons d i ds is hi _ ih =>
    simp only [dot, cStrides, List.prod_cons]
    push_cast
    refine ⟨by have := Int.mul_nonneg (Int.natCast_nonneg i) (Int.natCast_nonneg ds.prod); omega, ?_⟩
    have h1 : ((i : Int) + 1) * ds.prod ≤ d * ds.prod :=
      Int.mul_le_mul_of_nonneg_right (by omega) (Int.natCast_nonneg _)
    have h2 : ((i : Int) + 1) * ds.prod = i * ds.prod + ds.prod := by ring
    omega

/-- ordinary (C-contiguous) arrays of any shape satisfy the hypothesis of the theorems -/
theorem c26_contiguous_wf {α : Type} (shape : List Nat) (mem : Int → α) (h : ∀ d ∈ shape, d < 2147483648) :
    WF (⟨shape, cStrides shape, mem⟩ : NdArr α) := by
  refine ⟨?_, ?_, h⟩
  · show (cStrides shape).length = shape.length
    clear h
    induction shape with
    | nil => rfl
    | cons d ds ih => simp [cStrides, ih]
  · clear h
    show ∀ is js, Valid shape is → Valid shape js → dot (cStrides shape) is = dot (cStrides shape) js → is = js
    intro is js h1
    induction h1 generalizing js with
    | nil => intro h2 _; cases h2; rfl
    | @cons d i ds is hi hv ih =>
      intro h2 he
      cases h2 with
      | @cons _ j _ js hj hw =>
        simp only [dot, cStrides] at he
        obtain ⟨a1, a2⟩ := dot_cStrides_range ds is hv
        obtain ⟨b1, b2⟩ := dot_cStrides_range ds js hw
        have hij : i = j := by
          rcases Nat.lt_trichotomy i j with hlt | heq | hgt
          · exfalso
            have : ((i : Int) + 1) * ds.prod ≤ j * ds.prod :=
              Int.mul_le_mul_of_nonneg_right (by omega) (Int.natCast_nonneg _)
            have h2 : ((i : Int) + 1) * ds.prod = i * ds.prod + ds.prod := by ring
            omega
          · exact heq
          · exfalso
            have : ((j : Int) + 1) * ds.prod ≤ i * ds.prod :=
              Int.mul_le_mul_of_nonneg_right (by omega) (Int.natCast_nonneg _)
            have h2 : ((j : Int) + 1) * ds.prod = j * ds.prod + ds.prod := by ring
            omega
        subst hij
        rw [ih js hw (by omega)]

/-- the hypotheses are met: a 2x3 array, repeated and negative indices -/
example : let a : NdArr Nat := ⟨[2, 3], cStrides [2, 3], fun _ => 0⟩
    let x : AddArgs Nat := ⟨2, 1, 2, [[0, 1], [-2, 1], [1, -1]], [5, 7, 9], true, true, true⟩
    Fits a (x.ind.zip x.data) ∧ (add2array a x).2 = none ∧ (add2array a x).1.get [0, 1] = 12 ∧
      (add2array a x).1.get [1, 2] = 9 ∧ (add2array a x).1.get [0, 0] = 0 := by
  refine ⟨⟨c26_contiguous_wf [2, 3] _ (by decide), ?_⟩, by decide, by decide, by decide, by decide⟩
  intro s hs
  simp at hs
  rcases hs with rfl | rfl | rfl <;> simp [Int32]

/-! ## C27 -/

/-- C27, the part that holds: an exception about the arguments (anything but a bad index) leaves the array untouched.
Missing: exceptions about a bad index, for which the claim is false (`c27_bad_index_violated`). -/
theorem c27_rejected_unchanged_partial {α : Type} [Add α] (a : NdArr α) (x : AddArgs α) (e : AddErr)
    (h : (add2array a x).2 = some e) (he : e ≠ .index) : (add2array a x).1 = a := by
  unfold add2array at h ⊢
  cases hc : addCheck a x with
  | some e' => rfl
  | none =>
    rw [hc] at h
    unfold addResult at h
    simp only at h
    split at h
    · cases h
    · cases h; exact absurd rfl he

/-- C27: only well-formed arguments get past the checks: a call that returns without an exception had an index matrix
of longs with one column per axis, one data value per row and data of the (supported) type of the array. -/
theorem c27_accepted_only {α : Type} [Add α] (a : NdArr α) (x : AddArgs α) (h : (add2array a x).2 = none) :
    x.indRank = 2 ∧ x.dataRank = 1 ∧ x.ind.length = x.data.length ∧ x.indCols = a.shape.length ∧
      x.indIsLong = true ∧ x.sameType = true ∧ x.supported = true := by
  unfold add2array at h
  cases hc : addCheck a x with
  | some e => rw [hc] at h; cases h
  | none =>
    unfold addCheck at hc
    split at hc
    · cases hc
    split at hc
    · cases hc
    split at hc
    · cases hc
    split at hc
    · cases hc
    split at hc
    · cases hc
    split at hc
    · cases hc
    split at hc
    · cases hc
    simp_all

example : (add2array (⟨[2], [1], fun _ => 0⟩ : NdArr Nat) ⟨2, 1, 1, [[0], [-1]], [5, 7], true, true, true⟩).2 = none := by
  decide

/-- C27: a bad index leaves the samples before it in the array: a retry with a corrected index list counts them twice. -/
theorem c27_bad_index_violated :
    let a : NdArr Nat := ⟨[2], [1], fun _ => 0⟩
    let x : AddArgs Nat := ⟨2, 1, 1, [[0], [2]], [5, 7], true, true, true⟩
    (add2array a x).2 = some .index ∧ (add2array a x).1.get [0] = 5 ∧ a.get [0] = 0 := by decide

/-- C27: what exactly a bad index leaves behind: the samples before the first bad row have been added, nothing after
it. -/
theorem c27_bad_index_effect {α : Type} [AddCommMonoid α] (a : NdArr α) (x : AddArgs α)
    (hf : Fits a (x.ind.zip x.data)) (h : (add2array a x).2 = some .index) :
    ∃ good s rest, x.ind.zip x.data = good ++ s :: rest ∧ (∀ t ∈ good, ∃ is, Denotes a.shape t.1 is) ∧
      (¬ ∃ is, Denotes a.shape s.1 is) ∧
      ∀ is, Valid a.shape is → (add2array a x).1.get is = a.get is + total a.shape good is := by
  obtain ⟨good, bad, g1, g2, g3, g4, g5, _⟩ := addloop_spec _ a hf
  unfold add2array at h ⊢
  cases hc : addCheck a x with
  | some e => rw [hc] at h; simp only at h; rw [h] at hc; exact absurd hc (addCheck_index a x)
  | none =>
    rw [hc] at h
    have hb : bad ≠ [] := by
      intro hb
      unfold addResult at h
      rw [g4, hb] at h
      simp at h
    obtain ⟨s, t, rfl⟩ := List.exists_cons_of_ne_nil hb
    exact ⟨good, s, t, g1, g2, g3 s t rfl, g5⟩

end Verif.Img
