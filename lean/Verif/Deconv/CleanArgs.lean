import Verif.Deconv.CleanTerm
import Mathlib.Algebra.BigOperators.Fin
import Mathlib.Algebra.BigOperators.Ring.Finset

/-!
# Property C151 : what `deconv.clean` does with its arguments

C36-C39 are about the loops of `deconv.cpp`.  Here are the front end `clean` of /repo/aipy/deconv.py 23-71 and the wrapper
`clean` of /repo/aipy/_deconv/deconv.cpp 494-569, which decide what the loops are given: the initial residual, the area, the
checks of shapes and types.
-/
namespace Verif.Deconv.Args

open Verif.Deconv

set_option linter.unusedSectionVars false

/-! ## The model -/

/-- the types of numbers: those that the wrapper knows (deconv.cpp 530-571) and the others -/
inductive DType
  | f32 | f64 | f80 | c64 | c128 | c160
  | other (k : Nat)
  deriving DecidableEq, Repr

/-- an array: its shape, the type of its elements, its elements by their indices -/
structure Arr (V : Type) where
  shape : List Nat
  ty : DType
  get : List Nat → V

/-- the keywords of `clean` and the arithmetic of the loops, see `Cfg` -/
structure Par (K R : Type) where
  gain : K
  maxiter : Int
  tol : R
  stopIfDiv : Bool
  posDef : Bool
  mag2 : K → R
  isPos : K → Bool
  sqrt : R → R

/-- what a call comes to -/
inductive Outcome (K : Type)
  /-- an exception -/
  | raised
  /-- memory that does not belong to the arrays is used -/
  | wild
  /-- it returns, and every pixel of the residual is NaN -/
  | nan
  /-- it never returns -/
  | hangs
  /-- it has not returned after the turns that are watched -/
  | running
  /-- it returns model and residual; `info['term']`, `info['iter']`, `info['success']` -/
  | done (mdl res : Arr K) (term : Exit) (iterations : Int) (success : Bool)

variable {K R : Type} [Field K] [DecidableEq K] [Field R] [LinearOrder R]

/-- `IND(area,n,int)`: the lower half of a 64-bit integer, on a machine that stores it first, is not zero -/
def inArea (x : Int) : Bool := decide (x % 2 ^ 32 ≠ 0)

/-- the arguments of `clean_1d_r` and `clean_1d_c` -/
def cfg1 (p : Par K R) (n : Nat) (ker : Arr K) (area : Arr Int) : Cfg (Fin (n + 1)) K R where
  order := order1 (n + 1)
  ker := fun i => ker.get [i.val]
  area := fun i => inArea (area.get [i.val])
  gain := p.gain
  maxiter := p.maxiter
  tol := p.tol
  stopIfDiv := p.stopIfDiv
  posDef := p.posDef
  mag2 := p.mag2
  isPos := p.isPos
  sqrt := p.sqrt

/-- the arguments of `clean_2d_r` and `clean_2d_c`: `IND2` uses the first two indices, whatever the number of axes; the
others (`tail`) are zero -/
def cfg2 (p : Par K R) (n1 n2 : Nat) (tail : List Nat) (ker : Arr K) (area : Arr Int) : Cfg (Fin (n1 + 1) × Fin (n2 + 1)) K R where
  order := order2 (n1 + 1) (n2 + 1)
  ker := fun i => ker.get (i.1.val :: i.2.val :: tail)
  area := fun i => inArea (area.get (i.1.val :: i.2.val :: tail))
  gain := p.gain
  maxiter := p.maxiter
  tol := p.tol
  stopIfDiv := p.stopIfDiv
  posDef := p.posDef
  mag2 := p.mag2
  isPos := p.isPos
  sqrt := p.sqrt

/-- the array after a loop over one axis has changed it -/
def put1 (n : Nat) (a : Arr K) (f : Fin (n + 1) → K) : Arr K :=
  { a with get := fun ix => match ix with
      | [i] => if h : i < n + 1 then f ⟨i, h⟩ else a.get ix
      | _ => a.get ix }

/-- the array after loops over two axes have changed it -/
def put2 (n1 n2 : Nat) (tail : List Nat) (a : Arr K) (f : Fin (n1 + 1) × Fin (n2 + 1) → K) : Arr K :=
  { a with get := fun ix => match ix with
      | i :: j :: t => if h : (i < n1 + 1 ∧ j < n2 + 1) ∧ t = tail then f (⟨i, h.1.1⟩, ⟨j, h.1.2⟩) else a.get ix
      | _ => a.get ix }

/-- The loops.  When the kernel is zero everywhere inside the area `q = 1/q` is infinite and the first step, `gain * 0 * q`,
NaN: so are all pixels of the residual, and `nscore`; no comparison is true any more, so that with `stop_if_div` the loop ends
at `maxiter`, and without it `best_score < 0` stays true and resets `i` every time (which ends the loop only if `maxiter` is 1).  (deconv.cpp 79-145 and the same lines of the
other functions.) -/
def loops {ι : Type} [AddCommGroup ι] [DecidableEq ι] (c : Cfg ι K R) (fuel : Nat) (res mdl : ι → K) (wrap : Info ι K → Outcome K) : Outcome K :=
  if (c.order.foldl (peakStep c) (0, 0)).2 = 0 ∧ 0 < c.maxiter then (if c.stopIfDiv ∨ c.maxiter = 1 then .nan else .hangs)
  else
    match cleanPy c fuel res mdl with
    | none => .running
    | some r => wrap r

/-- `_deconv.clean`, deconv.cpp 494-569.  Shapes are checked for one and two axes; other arrays go to the loops over two axes
unchecked.  Arrays without elements: `mdl[0] += step` is outside (no such step for `maxiter` below 1, which is not
distinguished here).  Of arrays with three or more axes those that do not have one shape are taken to be `wild`. -/
def extension (p : Par K R) (fuel : Nat) (res ker mdl : Arr K) (area : Arr Int) : Outcome K :=
  if res.shape.length = 1 ∧ ¬ (ker.shape = res.shape ∧ mdl.shape = res.shape ∧ area.shape = res.shape) then .raised
  else if res.shape.length = 2 ∧ ¬ (ker.shape = res.shape ∧ mdl.shape = res.shape ∧ area.shape = res.shape) then .raised
  else if res.ty ≠ ker.ty ∨ res.ty ≠ mdl.ty then .raised
  else
    match res.ty with
    | .other _ => .raised
    | _ =>
      match res.shape with
      | [n + 1] => loops (cfg1 p n ker area) fuel (fun i => res.get [i.val]) (fun i => mdl.get [i.val]) fun r =>
          .done (put1 n mdl r.mdl) (put1 n res r.res) r.term r.iterations r.success
      | (n1 + 1) :: (n2 + 1) :: t =>
        if ker.shape = res.shape ∧ mdl.shape = res.shape ∧ area.shape = res.shape ∧ 0 ∉ t then
          let tail := t.map fun _ => 0
          loops (cfg2 p n1 n2 tail ker area) fuel (fun i => res.get (i.1.val :: i.2.val :: tail)) (fun i => mdl.get (i.1.val :: i.2.val :: tail))
            fun r => .done (put2 n1 n2 tail mdl r.mdl) (put2 n1 n2 tail res r.res) r.term r.iterations r.success
        else .wild
      | _ => .wild

/-- how numpy combines two axes -/
def axis (a b : Nat) : Option Nat := if a = b then some a else if a = 1 then some b else if b = 1 then some a else none

/-- how numpy combines shapes, last axis first -/
def broadcastRev : List Nat → List Nat → Option (List Nat)
  | [], b => some b
  | a, [] => some a
  | x :: a, y :: b => (axis x y).bind fun z => (broadcastRev a b).map (z :: ·)

def broadcast (a b : List Nat) : Option (List Nat) := (broadcastRev a.reverse b.reverse).map List.reverse

/-- the element of an array of a shape that is used at an index of the combined shape -/
def spread (shape ix : List Nat) : List Nat := List.zipWith (fun d i => if d = 1 then 0 else i) shape (ix.drop (ix.length - shape.length))

/-- The initial residual and model, deconv.py 38-50; `none` is an exception.  `cv` is the inverse transform of the product of the
transforms of model and kernel (of both axes if the model has two, for which the kernel must have as many). -/
def firstRes (cv : Arr K → Arr K → List Nat → K) (im ker : Arr K) : Option (Arr K) → Option (Arr K × Arr K)
  | none => some (im, ⟨im.shape, im.ty, fun _ => 0⟩)
  | some m =>
    if m.shape.length ≠ 1 ∧ m.shape.length ≠ 2 then none
    else if ker.shape.length < m.shape.length then none
    else (broadcast m.shape ker.shape).bind fun s => (broadcast im.shape s).map fun t =>
      (⟨t, im.ty, fun ix => im.get (spread im.shape ix) - cv m ker (spread s ix)⟩, m)

/-- `area.astype(np.int_)` of a number: its integer part, deconv.py 51-54 -/
def areaOf (im : Arr K) : Option (Arr ℚ) → Arr Int
  | none => ⟨im.shape, .other 0, fun _ => 1⟩
  | some a => ⟨a.shape, .other 0, fun ix => (a.get ix).num.tdiv (a.get ix).den⟩

/-- `deconv.clean`, deconv.py 23-71 (without the text of `verbose`, and without `info['score']`, `info['tol']`) -/
def deconvClean (cv : Arr K → Arr K → List Nat → K) (p : Par K R) (fuel : Nat) (im ker : Arr K) (mdl : Option (Arr K))
    (area : Option (Arr ℚ)) : Outcome K :=
  match firstRes cv im ker mdl with
  | none => .raised
  | some (res, m) => extension p fuel res ker m (areaOf im area)

/-! ## The specification -/

/-- the arguments are of one shape and, but for the area, of one type, a type of real or complex floating point numbers -/
structure Fits (shape : List Nat) (im ker : Arr K) (mdl : Option (Arr K)) (area : Option (Arr ℚ)) : Prop where
  imShape : im.shape = shape
  kerShape : ker.shape = shape
  mdlShape : ∀ m, mdl = some m → m.shape = shape ∧ m.ty = im.ty
  areaShape : ∀ a, area = some a → a.shape = shape
  kerTy : ker.ty = im.ty
  float : im.ty ∈ [DType.f32, .f64, .f80, .c64, .c128, .c160]

/-- the cyclic convolution of two arrays of one axis -/
def conv1 (n : Nat) (ker mdl : Arr K) (i : Nat) : K := ∑ k ∈ Finset.range n, ker.get [(i + n - k) % n] * mdl.get [k]

/-- the cyclic convolution of two arrays of two axes -/
def conv2 (n1 n2 : Nat) (ker mdl : Arr K) (i j : Nat) : K :=
  ∑ k ∈ Finset.range n1, ∑ l ∈ Finset.range n2, ker.get [(i + n1 - k) % n1, (j + n2 - l) % n2] * mdl.get [k, l]

/-- the squared magnitudes and the square root are as they are for real and complex numbers -/
structure Usual (p : Par K R) : Prop where
  nonneg : ∀ x, 0 ≤ p.mag2 x
  zero : ∀ x, p.mag2 x = 0 ↔ x = 0
  neg : ∀ x, p.mag2 (-x) = p.mag2 x
  root : ∀ x, 0 ≤ p.sqrt x
  rootPos : ∀ x, 0 < x → 0 < p.sqrt x

/-- the model given, or zeros -/
def start (mdl : Option (Arr K)) (ix : List Nat) : K :=
  match mdl with
  | none => 0
  | some m => m.get ix

/-- a pixel is inside the area -/
def Inside (area : Option (Arr ℚ)) (ix : List Nat) : Prop := ∀ a, area = some a → a.get ix ≠ 0

/-- the area is given in whole numbers of 32 bits -/
def Whole (area : Option (Arr ℚ)) : Prop := ∀ a, area = some a → ∀ ix, ∃ k : Int, a.get ix = k ∧ -2 ^ 31 ≤ k ∧ k < 2 ^ 31

/-! ## Lemmas -/

theorem axis_self (a : Nat) : axis a a = some a := by simp [axis]

theorem broadcastRev_self : ∀ a : List Nat, broadcastRev a a = some a
  | [] => rfl
  | x :: a => by simp [broadcastRev, axis_self, broadcastRev_self a]

theorem broadcast_self (a : List Nat) : broadcast a a = some a := by simp [broadcast, broadcastRev_self]

theorem spread1 {n i : Nat} (h : i < n) : spread [n] [i] = [i] := by
  unfold spread
  simp only [List.length_cons, List.length_nil, Nat.sub_self, List.drop_zero, List.zipWith_cons_cons, List.zipWith_nil_left]
  by_cases h1 : n = 1
  · rw [if_pos h1]; congr 1; omega
  · rw [if_neg h1]

theorem spread2 {n1 n2 i j : Nat} (h : i < n1) (h' : j < n2) : spread [n1, n2] [i, j] = [i, j] := by
  unfold spread
  simp only [List.length_cons, List.length_nil, Nat.sub_self, List.drop_zero, List.zipWith_cons_cons, List.zipWith_nil_left]
  congr 1
  · by_cases h1 : n1 = 1
    · rw [if_pos h1]; omega
    · rw [if_neg h1]
  · congr 1
    by_cases h1 : n2 = 1
    · rw [if_pos h1]; omega
    · rw [if_neg h1]

/-- the initial residual and model of arguments that fit -/
theorem first_fits (cv : Arr K → Arr K → List Nat → K) {shape : List Nat} {im ker : Arr K} {mdl : Option (Arr K)} {area : Option (Arr ℚ)}
    (h : Fits shape im ker mdl area) (hs : shape.length = 1 ∨ shape.length = 2) :
    ∃ res m, firstRes cv im ker mdl = some (res, m) ∧ res.shape = shape ∧ m.shape = shape ∧ res.ty = im.ty ∧ m.ty = im.ty ∧
      (∀ ix, m.get ix = start mdl ix) ∧
      ∀ ix, spread shape ix = ix → res.get ix = im.get ix - (match mdl with | none => 0 | some m => cv m ker ix) := by
  cases mdl with
  | none => exact ⟨_, _, rfl, h.imShape, h.imShape, rfl, rfl, fun _ => rfl, fun ix _ => (sub_zero _).symm⟩
  | some m =>
    obtain ⟨m1, m2⟩ := h.mdlShape m rfl
    refine ⟨⟨shape, im.ty, fun ix => im.get (spread im.shape ix) - cv m ker (spread shape ix)⟩, m, ?_, rfl, m1, rfl, m2, fun _ => rfl, ?_⟩
    · unfold firstRes
      simp only [m1, h.kerShape, broadcast_self, h.imShape, Option.bind_some, Option.map_some]
      rw [if_neg (by omega), if_neg (by omega)]
    · intro ix hix
      show im.get (spread im.shape ix) - cv m ker (spread shape ix) = _
      rw [h.imShape, hix]

theorem float_ne {ty : DType} (h : ty ∈ [DType.f32, .f64, .f80, .c64, .c128, .c160]) (k : Nat) : ty ≠ .other k := by
  rintro rfl
  simp at h

/-- the wrapper with arguments that fit, one axis -/
theorem ext1 (p : Par K R) (fuel : Nat) {n : Nat} {res ker mdl : Arr K} {area : Arr Int} (h1 : res.shape = [n + 1]) (h2 : ker.shape = [n + 1])
    (h3 : mdl.shape = [n + 1]) (h4 : area.shape = [n + 1]) (t1 : ker.ty = res.ty) (t2 : mdl.ty = res.ty)
    (ht : res.ty ∈ [DType.f32, .f64, .f80, .c64, .c128, .c160]) :
    extension p fuel res ker mdl area = loops (cfg1 p n ker area) fuel (fun i => res.get [i.val]) (fun i => mdl.get [i.val]) fun r =>
      .done (put1 n mdl r.mdl) (put1 n res r.res) r.term r.iterations r.success := by
  unfold extension
  rw [h1, h2, h3, h4, t1, t2]
  simp only [and_self, not_true, and_false, if_false, ne_eq, or_self]
  cases hy : res.ty with
  | other k => exact absurd hy (float_ne ht k)
  | _ => rfl

/-- the wrapper with arguments of one shape, two axes or more -/
theorem ext2 (p : Par K R) (fuel : Nat) {n1 n2 : Nat} {t : List Nat} {res ker mdl : Arr K} {area : Arr Int} (h1 : res.shape = (n1 + 1) :: (n2 + 1) :: t)
    (h2 : ker.shape = (n1 + 1) :: (n2 + 1) :: t) (h3 : mdl.shape = (n1 + 1) :: (n2 + 1) :: t) (h4 : area.shape = (n1 + 1) :: (n2 + 1) :: t)
    (h0 : 0 ∉ t) (t1 : ker.ty = res.ty) (t2 : mdl.ty = res.ty) (ht : res.ty ∈ [DType.f32, .f64, .f80, .c64, .c128, .c160]) :
    extension p fuel res ker mdl area = loops (cfg2 p n1 n2 (t.map fun _ => 0) ker area) fuel
      (fun i => res.get (i.1.val :: i.2.val :: t.map fun _ => 0)) (fun i => mdl.get (i.1.val :: i.2.val :: t.map fun _ => 0)) fun r =>
        .done (put2 n1 n2 (t.map fun _ => 0) mdl r.mdl) (put2 n1 n2 (t.map fun _ => 0) res r.res) r.term r.iterations r.success := by
  unfold extension
  rw [h1, h2, h3, h4, t1, t2]
  simp only [and_self, not_true, and_false, if_false, ne_eq, or_self, h0, not_false_eq_true, if_true]
  cases hy : res.ty with
  | other k => exact absurd hy (float_ne ht k)
  | _ => rfl

theorem loops_done {ι : Type} [AddCommGroup ι] [DecidableEq ι] {c : Cfg ι K R} {fuel : Nat} {res mdl : ι → K} {wrap : Info ι K → Outcome K}
    {M Rr : Arr K} {t : Exit} {i : Int} {s : Bool} (h : loops c fuel res mdl wrap = .done M Rr t i s) :
    ∃ o : Out ι K, run c fuel (St.init (R := R) res mdl) = some o ∧ wrap (report c o) = .done M Rr t i s := by
  unfold loops at h
  by_cases h0 : (c.order.foldl (peakStep c) (0, 0)).2 = 0 ∧ 0 < c.maxiter
  · rw [if_pos h0] at h
    by_cases h1 : c.stopIfDiv = true ∨ c.maxiter = 1
    · rw [if_pos h1] at h; cases h
    · rw [if_neg h1] at h; cases h
  · rw [if_neg h0] at h
    unfold cleanPy at h
    cases hr : run c fuel (St.init (R := R) res mdl) with
    | none => rw [hr] at h; cases h
    | some o => rw [hr] at h; exact ⟨o, rfl, h⟩

theorem report_keeps {ι : Type} (c : Cfg ι K R) (o : Out ι K) : (report c o).res = o.res ∧ (report c o).mdl = o.mdl := by
  unfold report
  dsimp only
  split
  · exact ⟨rfl, rfl⟩
  · split <;> exact ⟨rfl, rfl⟩

theorem conv1_eq (n : Nat) (ker M : Arr K) (x : Fin (n + 1)) :
    conv (fun i : Fin (n + 1) => ker.get [i.val]) (fun i => M.get [i.val]) x = conv1 (n + 1) ker M x.val := by
  unfold conv conv1
  rw [Finset.sum_range]
  refine Finset.sum_congr rfl fun y _ => ?_
  have h1 : (x - y).val = (x.val + (n + 1) - y.val) % (n + 1) := by
    rw [Fin.sub_def]
    show (n + 1 - y.val + x.val) % (n + 1) = _
    congr 1
    have := y.isLt
    omega
  show ker.get [(x - y).val] * _ = _
  rw [h1]

theorem conv2_eq (n1 n2 : Nat) (ker M : Arr K) (x : Fin (n1 + 1) × Fin (n2 + 1)) :
    conv (fun i : Fin (n1 + 1) × Fin (n2 + 1) => ker.get [i.1.val, i.2.val]) (fun i => M.get [i.1.val, i.2.val]) x =
      conv2 (n1 + 1) (n2 + 1) ker M x.1.val x.2.val := by
  unfold conv conv2
  rw [Finset.sum_range, Fintype.sum_prod_type]
  refine Finset.sum_congr rfl fun y _ => ?_
  rw [Finset.sum_range]
  refine Finset.sum_congr rfl fun z _ => ?_
  have h1 : (x.1 - y).val = (x.1.val + (n1 + 1) - y.val) % (n1 + 1) := by
    rw [Fin.sub_def]
    show (n1 + 1 - y.val + x.1.val) % (n1 + 1) = _
    congr 1
    have := y.isLt
    omega
  have h2 : (x.2 - z).val = (x.2.val + (n2 + 1) - z.val) % (n2 + 1) := by
    rw [Fin.sub_def]
    show (n2 + 1 - z.val + x.2.val) % (n2 + 1) = _
    congr 1
    have := z.isLt
    omega
  show ker.get [(x.1 - y).val, (x.2 - z).val] * _ = _
  rw [h1, h2]

theorem areaOf_shape {shape : List Nat} {im ker : Arr K} {mdl : Option (Arr K)} {area : Option (Arr ℚ)} (h : Fits shape im ker mdl area) :
    (areaOf im area).shape = shape := by
  cases area with
  | none => exact h.imShape
  | some a => exact h.areaShape a rfl

theorem areaOf_zero (im : Arr K) {area : Option (Arr ℚ)} {ix : List Nat} (h : ¬ Inside area ix) : inArea ((areaOf im area).get ix) = false := by
  unfold Inside at h
  push Not at h
  obtain ⟨a, rfl, h0⟩ := h
  show inArea ((a.get ix).num.tdiv (a.get ix).den) = false
  rw [h0]
  decide

theorem areaOf_inside (im : Arr K) {area : Option (Arr ℚ)} {ix : List Nat} (hw : Whole area) (h : Inside area ix) :
    inArea ((areaOf im area).get ix) = true := by
  cases area with
  | none => exact (by decide : inArea 1 = true)
  | some a =>
    obtain ⟨k, h1, h2, h3⟩ := hw a rfl ix
    have h0 := h a rfl
    show inArea ((a.get ix).num.tdiv (a.get ix).den) = true
    rw [h1] at h0 ⊢
    have h4 : k ≠ 0 := by rintro rfl; exact h0 (by simp)
    simp only [Rat.num_intCast, Rat.den_intCast, Nat.cast_one, Int.tdiv_one]
    unfold inArea
    rw [decide_eq_true_iff]
    omega

/-! ## The properties -/

section
variable [IsStrictOrderedRing R]

/-- **C151.**  One axis: model and residual have the shape and type of the image, the residual and the model seen through the
kernel add up to the image, and pixels outside the area keep the value that the model had. -/
theorem c151_account1 {n : Nat} (hn : 0 < n) (cv : Arr K → Arr K → List Nat → K) (p : Par K R) (hm : ∀ x, 0 ≤ p.mag2 x) (fuel : Nat)
    {im ker : Arr K} {mdl : Option (Arr K)} {area : Option (Arr ℚ)} (hF : Fits [n] im ker mdl area)
    (hcv : ∀ m, mdl = some m → ∀ i, i < n → cv m ker [i] = conv1 n ker m i)
    {M Rr : Arr K} {term : Exit} {iterations : Int} {success : Bool}
    (h : deconvClean cv p fuel im ker mdl area = .done M Rr term iterations success) :
    (M.shape = [n] ∧ Rr.shape = [n] ∧ M.ty = im.ty ∧ Rr.ty = im.ty) ∧
      (∀ i, i < n → Rr.get [i] + conv1 n ker M i = im.get [i]) ∧
      ∀ i, i < n → ¬ Inside area [i] → M.get [i] = start mdl [i] := by
  obtain ⟨n, rfl⟩ : ∃ k, n = k + 1 := ⟨n - 1, by omega⟩
  obtain ⟨res, m, e1, s1, s2, t1, t2, g1, g2⟩ := first_fits cv hF (Or.inl rfl)
  unfold deconvClean at h
  rw [e1] at h
  change extension p fuel res ker m (areaOf im area) = _ at h
  rw [ext1 p fuel s1 hF.kerShape s2 (areaOf_shape hF) (hF.kerTy.trans t1.symm) (t2.trans t1.symm) (t1 ▸ hF.float)] at h
  obtain ⟨o, hr, hw⟩ := loops_done h
  obtain ⟨k1, k2⟩ := report_keeps (cfg1 p n ker (areaOf im area)) o
  have hl : Lists (cfg1 p n ker (areaOf im area)) := ⟨(lists1 _ _ rfl).1, (lists1 _ _ rfl).2⟩
  injection hw with w1 w2
  subst w1 w2
  rw [k1, k2]
  have gm : ∀ x : Fin (n + 1), (put1 n m o.mdl).get [x.val] = o.mdl x := fun x => dif_pos x.isLt
  have gr : ∀ x : Fin (n + 1), (put1 n res o.res).get [x.val] = o.res x := fun x => dif_pos x.isLt
  refine ⟨⟨s2, s1, t2, t1⟩, ?_, ?_⟩
  · intro i hi
    have a := c36_conserves hl _ _ _ _ hr ⟨i, hi⟩
    have b := conv1_eq n ker (put1 n m o.mdl) ⟨i, hi⟩
    rw [show (fun x : Fin (n + 1) => (put1 n m o.mdl).get [x.val]) = o.mdl from funext gm] at b
    rw [gr ⟨i, hi⟩, ← b]
    refine a.trans ?_
    rw [g2 [i] (spread1 hi)]
    have b' := conv1_eq n ker m ⟨i, hi⟩
    change im.get [i] - _ + conv (fun i : Fin (n + 1) => ker.get [i.val]) (fun i => m.get [i.val]) ⟨i, hi⟩ = im.get [i]
    rw [b']
    cases mdl with
    | none =>
      have : conv1 (n + 1) ker m i = 0 := by
        unfold conv1
        refine Finset.sum_eq_zero fun k _ => ?_
        rw [g1]
        exact mul_zero _
      show im.get [i] - 0 + conv1 (n + 1) ker m i = im.get [i]
      rw [this, sub_zero, add_zero]
    | some m' =>
      have : conv1 (n + 1) ker m i = conv1 (n + 1) ker m' i := by
        unfold conv1
        refine Finset.sum_congr rfl fun k _ => ?_
        rw [g1]
        rfl
      show im.get [i] - cv m' ker [i] + conv1 (n + 1) ker m i = im.get [i]
      rw [this, hcv m' rfl i hi, sub_add_cancel]
  · intro i hi ho
    rw [gm ⟨i, hi⟩, ← g1]
    exact c37_area_only hl hm _ _ _ _ hr ⟨i, hi⟩ (areaOf_zero im ho)

/-- **C151.**  The same for two axes. -/
theorem c151_account2 {n1 n2 : Nat} (hn1 : 0 < n1) (hn2 : 0 < n2) (cv : Arr K → Arr K → List Nat → K) (p : Par K R)
    (hm : ∀ x, 0 ≤ p.mag2 x) (fuel : Nat) {im ker : Arr K} {mdl : Option (Arr K)} {area : Option (Arr ℚ)} (hF : Fits [n1, n2] im ker mdl area)
    (hcv : ∀ m, mdl = some m → ∀ i, i < n1 → ∀ j, j < n2 → cv m ker [i, j] = conv2 n1 n2 ker m i j)
    {M Rr : Arr K} {term : Exit} {iterations : Int} {success : Bool}
    (h : deconvClean cv p fuel im ker mdl area = .done M Rr term iterations success) :
    (M.shape = [n1, n2] ∧ Rr.shape = [n1, n2] ∧ M.ty = im.ty ∧ Rr.ty = im.ty) ∧
      (∀ i, i < n1 → ∀ j, j < n2 → Rr.get [i, j] + conv2 n1 n2 ker M i j = im.get [i, j]) ∧
      ∀ i, i < n1 → ∀ j, j < n2 → ¬ Inside area [i, j] → M.get [i, j] = start mdl [i, j] := by
  obtain ⟨n1, rfl⟩ : ∃ k, n1 = k + 1 := ⟨n1 - 1, by omega⟩
  obtain ⟨n2, rfl⟩ : ∃ k, n2 = k + 1 := ⟨n2 - 1, by omega⟩
  obtain ⟨res, m, e1, s1, s2, t1, t2, g1, g2⟩ := first_fits cv hF (Or.inr rfl)
  unfold deconvClean at h
  rw [e1] at h
  change extension p fuel res ker m (areaOf im area) = _ at h
  rw [ext2 p fuel s1 hF.kerShape s2 (areaOf_shape hF) List.not_mem_nil (hF.kerTy.trans t1.symm) (t2.trans t1.symm) (t1 ▸ hF.float)] at h
  obtain ⟨o, hr, hw⟩ := loops_done h
  simp only [List.map_nil] at hr hw
  obtain ⟨k1, k2⟩ := report_keeps (cfg2 p n1 n2 [] ker (areaOf im area)) o
  have hl : Lists (cfg2 p n1 n2 [] ker (areaOf im area)) := ⟨(lists2 _ _ _ rfl).1, (lists2 _ _ _ rfl).2⟩
  injection hw with w1 w2
  subst w1 w2
  rw [k1, k2]
  have gm : ∀ x : Fin (n1 + 1) × Fin (n2 + 1), (put2 n1 n2 [] m o.mdl).get [x.1.val, x.2.val] = o.mdl x := fun x => dif_pos ⟨⟨x.1.isLt, x.2.isLt⟩, rfl⟩
  have gr : ∀ x : Fin (n1 + 1) × Fin (n2 + 1), (put2 n1 n2 [] res o.res).get [x.1.val, x.2.val] = o.res x := fun x => dif_pos ⟨⟨x.1.isLt, x.2.isLt⟩, rfl⟩
  refine ⟨⟨s2, s1, t2, t1⟩, ?_, ?_⟩
  · intro i hi j hj
    have a := c36_conserves hl _ _ _ _ hr (⟨i, hi⟩, ⟨j, hj⟩)
    have b := conv2_eq n1 n2 ker (put2 n1 n2 [] m o.mdl) (⟨i, hi⟩, ⟨j, hj⟩)
    rw [show (fun x : Fin (n1 + 1) × Fin (n2 + 1) => (put2 n1 n2 [] m o.mdl).get [x.1.val, x.2.val]) = o.mdl from funext gm] at b
    rw [gr (⟨i, hi⟩, ⟨j, hj⟩), ← b]
    refine a.trans ?_
    rw [g2 [i, j] (spread2 hi hj)]
    have b' := conv2_eq n1 n2 ker m (⟨i, hi⟩, ⟨j, hj⟩)
    change im.get [i, j] - _ + conv (fun i : Fin (n1 + 1) × Fin (n2 + 1) => ker.get [i.1.val, i.2.val]) (fun i => m.get [i.1.val, i.2.val]) (⟨i, hi⟩, ⟨j, hj⟩) = im.get [i, j]
    rw [b']
    cases mdl with
    | none =>
      have : conv2 (n1 + 1) (n2 + 1) ker m i j = 0 := by
        unfold conv2
        refine Finset.sum_eq_zero fun k _ => Finset.sum_eq_zero fun l _ => ?_
        rw [g1]
        exact mul_zero _
      show im.get [i, j] - 0 + conv2 (n1 + 1) (n2 + 1) ker m i j = im.get [i, j]
      rw [this, sub_zero, add_zero]
    | some m' =>
      have : conv2 (n1 + 1) (n2 + 1) ker m i j = conv2 (n1 + 1) (n2 + 1) ker m' i j := by
        unfold conv2
        refine Finset.sum_congr rfl fun k _ => Finset.sum_congr rfl fun l _ => ?_
        rw [g1]
        rfl
      show im.get [i, j] - cv m' ker [i, j] + conv2 (n1 + 1) (n2 + 1) ker m i j = im.get [i, j]
      rw [this, hcv m' rfl i hi j hj, sub_add_cancel]
  · intro i hi j hj ho
    rw [gm (⟨i, hi⟩, ⟨j, hj⟩), ← g1]
    exact c37_area_only hl hm _ _ _ _ hr (⟨i, hi⟩, ⟨j, hj⟩) (areaOf_zero im ho)

/-- the loops run when the kernel is not zero everywhere inside the area -/
theorem loops_run {ι : Type} [AddCommGroup ι] [Fintype ι] [DecidableEq ι] {c : Cfg ι K R} (hs : Sound c)
    (hk : ∃ x, c.area x = true ∧ c.ker x ≠ 0) (fuel : Nat) (res mdl : ι → K) (wrap : Info ι K → Outcome K) :
    loops c fuel res mdl wrap = match cleanPy c fuel res mdl with
      | none => .running
      | some r => wrap r := by
  obtain ⟨q, -, h0, h1, -⟩ := c38_calibration hs hk
  have : ¬ ((c.order.foldl (peakStep c) (0, 0)).2 = 0 ∧ 0 < c.maxiter) := by
    rintro ⟨hz, -⟩
    unfold kerQ at h1
    rw [hz, div_zero] at h1
    exact one_div_ne_zero h0 h1.symm
  unfold loops
  rw [if_neg this]

theorem sound1 {p : Par K R} (hp : Usual p) (n : Nat) (ker : Arr K) (area : Arr Int) : Sound (cfg1 p n ker area) where
  nodup := (lists1 _ _ rfl).1
  complete := (lists1 _ _ rfl).2
  mag2_nonneg := hp.nonneg
  mag2_zero := hp.zero
  mag2_neg := hp.neg
  sqrt_nonneg := hp.root
  sqrt_pos := hp.rootPos

theorem sound2 {p : Par K R} (hp : Usual p) (n1 n2 : Nat) (tail : List Nat) (ker : Arr K) (area : Arr Int) : Sound (cfg2 p n1 n2 tail ker area) where
  nodup := (lists2 _ _ _ rfl).1
  complete := (lists2 _ _ _ rfl).2
  mag2_nonneg := hp.nonneg
  mag2_zero := hp.zero
  mag2_neg := hp.neg
  sqrt_nonneg := hp.root
  sqrt_pos := hp.rootPos

/-- **C151.**  With `stop_if_div` (the default) a call whose arguments fit, of one or two axes, returns: no exception, no NaN,
provided that the kernel is not zero everywhere inside the area. -/
theorem c151_returns (cv : Arr K → Arr K → List Nat → K) (p : Par K R) (hp : Usual p) (hd : p.stopIfDiv = true) {shape : List Nat}
    (hs : shape.length = 1 ∨ shape.length = 2) (h0 : 0 ∉ shape)
    {im ker : Arr K} {mdl : Option (Arr K)} {area : Option (Arr ℚ)} (hF : Fits shape im ker mdl area) (hw : Whole area)
    (hk : ∃ ix, List.Forall₂ (· < ·) ix shape ∧ Inside area ix ∧ ker.get ix ≠ 0) :
    ∃ M Rr term iterations success, deconvClean cv p (p.maxiter.toNat + 1) im ker mdl area = .done M Rr term iterations success := by
  obtain ⟨res, m, e1, s1, s2, t1, t2, g1, g2⟩ := first_fits cv hF hs
  obtain ⟨ix, hi, hin, hne⟩ := hk
  unfold deconvClean
  rw [e1]
  show ∃ M Rr term iterations success, extension p (p.maxiter.toNat + 1) res ker m (areaOf im area) = .done M Rr term iterations success
  match shape, hs, h0, hi, hF, s1, s2 with
  | [n], _, h0, hi, hF, s1, s2 =>
    obtain ⟨n, rfl⟩ : ∃ k, n = k + 1 := ⟨n - 1, by simp at h0; omega⟩
    obtain _ | ⟨hlt, hi'⟩ := hi
    obtain _ | _ := hi'
    rename_i i
    rw [ext1 p _ s1 hF.kerShape s2 (areaOf_shape hF) (hF.kerTy.trans t1.symm) (t2.trans t1.symm) (t1 ▸ hF.float),
      loops_run (sound1 hp _ _ _) ⟨⟨i, hlt⟩, areaOf_inside im hw hin, hne⟩]
    obtain ⟨o, ho⟩ := c39_stop_if_div (c := cfg1 p n ker (areaOf im area)) hd (fun i => res.get [i.val]) (fun i => m.get [i.val])
    unfold cleanPy
    change run _ (p.maxiter.toNat + 1) _ = _ at ho
    rw [ho]
    exact ⟨_, _, _, _, _, rfl⟩
  | [n1, n2], _, h0, hi, hF, s1, s2 =>
    obtain ⟨n1, rfl⟩ : ∃ k, n1 = k + 1 := ⟨n1 - 1, by simp at h0; omega⟩
    obtain ⟨n2, rfl⟩ : ∃ k, n2 = k + 1 := ⟨n2 - 1, by simp at h0; omega⟩
    obtain _ | ⟨hlt, hi'⟩ := hi
    obtain _ | ⟨hlt', hi''⟩ := hi'
    obtain _ | _ := hi''
    rename_i i j
    rw [ext2 p _ s1 hF.kerShape s2 (areaOf_shape hF) List.not_mem_nil (hF.kerTy.trans t1.symm) (t2.trans t1.symm) (t1 ▸ hF.float),
      List.map_nil, loops_run (sound2 hp _ _ _ _ _) ⟨(⟨i, hlt⟩, ⟨j, hlt'⟩), areaOf_inside im hw hin, hne⟩]
    obtain ⟨o, ho⟩ := c39_stop_if_div (c := cfg2 p n1 n2 [] ker (areaOf im area)) hd (fun i => res.get [i.1.val, i.2.val]) (fun i => m.get [i.1.val, i.2.val])
    unfold cleanPy
    change run _ (p.maxiter.toNat + 1) _ = _ at ho
    rw [ho]
    exact ⟨_, _, _, _, _, rfl⟩

/-- **C151.**  Without a model, an image of one or two axes is accepted only with a kernel and an area of its shape, and a kernel of
its type, which is a floating point type. -/
theorem c151_rejects (cv : Arr K → Arr K → List Nat → K) (p : Par K R) (fuel : Nat) {im ker : Arr K} {area : Option (Arr ℚ)}
    (hs : im.shape.length = 1 ∨ im.shape.length = 2) (h : deconvClean cv p fuel im ker none area ≠ .raised) :
    Fits im.shape im ker none area := by
  change extension p fuel im ker ⟨im.shape, im.ty, fun _ => 0⟩ (areaOf im area) ≠ _ at h
  have hsh : ker.shape = im.shape ∧ (areaOf im area).shape = im.shape := by
    by_contra hc
    apply h
    unfold extension
    rcases hs with hs | hs
    · rw [if_pos ⟨hs, fun hc' => hc ⟨hc'.1, hc'.2.2⟩⟩]
    · rw [if_neg (by omega), if_pos ⟨hs, fun hc' => hc ⟨hc'.1, hc'.2.2⟩⟩]
  have hty : im.ty = ker.ty := by
    by_contra hc
    apply h
    unfold extension
    rw [if_neg (by simp [hsh.1, hsh.2]), if_neg (by simp [hsh.1, hsh.2]), if_pos (Or.inl hc)]
  refine ⟨rfl, hsh.1, (fun m hm => by cases hm), fun a ha => ?_, hty.symm, ?_⟩
  · subst ha
    exact hsh.2
  · cases hx : im.ty with
    | other k =>
      exfalso
      apply h
      unfold extension
      rw [if_neg (by simp [hsh.1, hsh.2]), if_neg (by simp [hsh.1, hsh.2]), if_neg (by simp [hty])]
      rw [hx]
    | _ => simp

/-- **C151**, what arrays of three axes come to: without a model they are accepted, and only the first plane is cleaned; elsewhere
the model is zero and the residual is the image, whatever the kernel. -/
theorem c151_cube {n1 n2 n3 : Nat} (hn1 : 0 < n1) (hn2 : 0 < n2) (hn3 : 0 < n3) (cv : Arr K → Arr K → List Nat → K) (p : Par K R)
    (fuel : Nat) {im ker : Arr K} {area : Option (Arr ℚ)} (hF : Fits [n1, n2, n3] im ker none area) :
    deconvClean cv p fuel im ker none area ≠ .raised ∧
      ∀ {M Rr : Arr K} {term : Exit} {iterations : Int} {success : Bool},
        deconvClean cv p fuel im ker none area = .done M Rr term iterations success →
          ∀ i j k, 0 < k → M.get [i, j, k] = 0 ∧ Rr.get [i, j, k] = im.get [i, j, k] := by
  obtain ⟨n1, rfl⟩ : ∃ k, n1 = k + 1 := ⟨n1 - 1, by omega⟩
  obtain ⟨n2, rfl⟩ : ∃ k, n2 = k + 1 := ⟨n2 - 1, by omega⟩
  have e : deconvClean cv p fuel im ker none area = extension p fuel im ker ⟨im.shape, im.ty, fun _ => 0⟩ (areaOf im area) := rfl
  rw [e, ext2 p fuel (mdl := ⟨im.shape, im.ty, fun _ => 0⟩) hF.imShape hF.kerShape hF.imShape (areaOf_shape hF) (by simp; omega) hF.kerTy rfl hF.float]
  constructor
  · intro h
    unfold loops at h
    split at h
    · split at h <;> cases h
    · split at h <;> cases h
  · intro M Rr term iterations success h i j k hk
    obtain ⟨o, -, hw⟩ := loops_done h
    injection hw with w1 w2
    subst w1 w2
    have : ¬ ((i < n1 + 1 ∧ j < n2 + 1) ∧ [k] = [n3].map fun _ => 0) := by
      rintro ⟨-, h'⟩
      injection h' with h' _
      change k = 0 at h'
      omega
    exact ⟨dif_neg this, dif_neg this⟩

end

/-! ## Concrete calls -/

/-- the keywords of the examples -/
def demoPar (maxiter : Int) (sid : Bool) : Par ℚ ℚ where
  gain := 1 / 2
  maxiter := maxiter
  tol := 1 / 1000
  stopIfDiv := sid
  posDef := false
  mag2 := fun x => x * x
  isPos := fun x => decide (0 < x)
  sqrt := fun x => |x|

theorem demoPar_usual (maxiter : Int) (sid : Bool) : Usual (demoPar maxiter sid) where
  nonneg := fun x => mul_self_nonneg x
  zero := fun _ => mul_self_eq_zero
  neg := fun x => neg_mul_neg x x
  root := fun x => abs_nonneg x
  rootPos := fun _ h => abs_pos.mpr h.ne'

/-- an array of one axis -/
def row {V : Type} (ty : DType) (z : V) (l : List V) : Arr V := ⟨[l.length], ty, fun ix => match ix with | [i] => l.getD i z | _ => z⟩

/-- an array of two axes -/
def table {V : Type} (ty : DType) (z : V) (n2 : Nat) (l : List (List V)) : Arr V :=
  ⟨[l.length, n2], ty, fun ix => match ix with | [i, j] => (l.getD i []).getD j z | _ => z⟩

/-- what is returned at some pixels: model and residual -/
def Outcome.look {K : Type} (o : Outcome K) (ixs : List (List Nat)) : Option (List (K × K)) :=
  match o with
  | .done M Rr _ _ _ => some (ixs.map fun ix => (M.get ix, Rr.get ix))
  | _ => none

/-- the cyclic convolution of one axis, as `cv` -/
def cyc (m ker : Arr ℚ) : List Nat → ℚ
  | [i] => conv1 (ker.shape.headD 0) ker m i
  | _ => 0

example : Fits [3] (row .f64 0 [4, 2, 1]) (row .f64 (0 : ℚ) [1, 1 / 2, 0]) (some (row .f64 0 [1, 0, 0])) (some (row (.other 0) 0 [1, 0, 1])) :=
  ⟨rfl, rfl, (fun m hm => by cases hm; exact ⟨rfl, rfl⟩), (fun a ha => by cases ha; rfl), rfl, by decide⟩

example : (deconvClean cyc (demoPar 3 true) 9 (row .f64 0 [4, 2, 1]) (row .f64 0 [1, 1 / 2, 0]) (some (row .f64 0 [1, 0, 0]))
    (some (row (.other 0) 0 [1, 0, 1]))).look [[0], [1], [2]] = some [(13 / 4, 3 / 4), (0, 3 / 8), (0, 1)] := by decide +kernel

example : Fits [2, 2] (table .c64 0 2 [[4, 2], [1, 0]]) (table .c64 (0 : ℚ) 2 [[1, 1 / 2], [0, 0]]) none none :=
  ⟨rfl, rfl, (fun m hm => by cases hm), (fun a ha => by cases ha), rfl, by decide⟩

example : ((deconvClean (fun _ _ _ => 0) (demoPar 3 true) 9 (table .c64 0 2 [[4, 2], [1, 0]]) (table .c64 0 2 [[1, 1 / 2], [0, 0]]) none none).look
    [[0, 0], [0, 1], [1, 0], [1, 1]]).isSome = true := by decide +kernel

/-- the hypotheses of `c151_returns` -/
example : Whole (some (row (.other 0) 0 [1, 0, 1])) ∧ ∃ ix, List.Forall₂ (· < ·) ix [3] ∧ Inside (some (row (.other 0) 0 [1, 0, 1])) ix ∧
    (row .f64 (0 : ℚ) [1, 1 / 2, 0]).get ix ≠ 0 := by
  refine ⟨?_, [0], by decide, ?_, ?_⟩
  · intro a ha ix
    cases ha
    match ix with
    | [0] => exact ⟨1, by decide +kernel, by decide, by decide⟩
    | [1] => exact ⟨0, by decide +kernel, by decide, by decide⟩
    | [2] => exact ⟨1, by decide +kernel, by decide, by decide⟩
    | [n + 3] => exact ⟨0, by simp [row], by decide, by decide⟩
    | [] => exact ⟨0, by simp [row], by decide, by decide⟩
    | _ :: _ :: _ => exact ⟨0, by simp [row], by decide, by decide⟩
  · intro a ha
    cases ha
    decide +kernel
  · decide +kernel

/-- a kernel of another shape, of another type, and integers are refused -/
example : (match deconvClean cyc (demoPar 3 true) 9 (row .f64 0 [4, 2, 1]) (row .f64 0 [1, 1 / 2]) none none with | .raised => true | _ => false) = true ∧
    (match deconvClean cyc (demoPar 3 true) 9 (row .f64 0 [4, 2, 1]) (row .f32 0 [1, 1 / 2, 0]) none none with | .raised => true | _ => false) = true ∧
    (match deconvClean cyc (demoPar 3 true) 9 (row (.other 0) 0 [4, 2, 1]) (row (.other 0) 0 [1, 1 / 2, 0]) none none with | .raised => true | _ => false) = true := by
  decide +kernel

/-- **C151 fails** for three axes, which the description does not admit: they are accepted and one plane is cleaned.  Here a cube whose
second plane is as bright as the first. -/
theorem c151_cube_violated :
    (deconvClean cyc (demoPar 2 true) 9 (⟨[1, 1, 2], .f64, fun _ => 4⟩ : Arr ℚ) ⟨[1, 1, 2], .f64, fun ix => if ix = [0, 0, 0] then 1 else 0⟩ none none).look
      [[0, 0, 0], [0, 0, 1]] = some [(2, 2), (0, 4)] := by decide +kernel

/-- **C151 fails** for a model given with an area: an image of another shape is accepted, one pixel being used for all. -/
theorem c151_broadcast_violated :
    (deconvClean cyc (demoPar 2 true) 9 (row .f64 0 [4]) (row .f64 0 [1, 0]) (some (row .f64 0 [0, 0])) (some (row (.other 0) 0 [1, 1]))).look
      [[0], [1]] = some [(2, 2), (0, 4)] := by decide +kernel

/-- **C151 fails** for a kernel that is zero everywhere inside the area: the residual is NaN, or the call never returns. -/
theorem c151_vanishing_violated (maxiter : Int) (hm : 2 ≤ maxiter) (fuel : Nat) :
    deconvClean cyc (demoPar maxiter true) fuel (row .f64 0 [4, 2]) (row .f64 0 [1, 0]) none (some (row (.other 0) 0 [0, 1])) = .nan ∧
      deconvClean cyc (demoPar maxiter false) fuel (row .f64 0 [4, 2]) (row .f64 0 [1, 0]) none (some (row (.other 0) 0 [0, 1])) = .hangs := by
  have key : ∀ sid, ((cfg1 (demoPar maxiter sid) 1 (row .f64 0 [1, 0]) (areaOf (row .f64 (0 : ℚ) [4, 2]) (some (row (.other 0) 0 [0, 1])))).order.foldl
      (peakStep (cfg1 (demoPar maxiter sid) 1 (row .f64 0 [1, 0]) (areaOf (row .f64 (0 : ℚ) [4, 2]) (some (row (.other 0) 0 [0, 1]))))) (0, 0)).2 = 0 := by
    intro sid
    show ((order1 2).foldl (peakStep (cfg1 (demoPar 0 true) 1 (row .f64 0 [1, 0]) (areaOf (row .f64 (0 : ℚ) [4, 2]) (some (row (.other 0) 0 [0, 1]))))) (0, 0)).2 = 0
    decide +kernel
  constructor
  · show loops _ fuel _ _ _ = _
    unfold loops
    rw [if_pos ⟨key true, by show 0 < maxiter; omega⟩, if_pos (Or.inl (by rfl))]
  · show loops _ fuel _ _ _ = _
    unfold loops
    rw [if_pos ⟨key false, by show 0 < maxiter; omega⟩, if_neg (by
      rintro (h | h)
      · cases h
      · change maxiter = 1 at h
        omega)]

/-- **C151 fails** for areas given in fractions: a pixel of weight 1/2 counts as outside, and its flux stays in the residual. -/
theorem c151_area_violated :
    (deconvClean cyc (demoPar 2 true) 9 (row .f64 0 [4, 8]) (row .f64 0 [1, 0]) none (some (row (.other 0) 0 [1, 1 / 2]))).look
      [[0], [1]] = some [(2, 2), (0, 8)] := by decide +kernel

end Verif.Deconv.Args
