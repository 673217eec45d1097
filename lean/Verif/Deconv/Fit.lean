import Mathlib.Algebra.Order.Field.Basic
import Mathlib.Algebra.Order.BigOperators.Group.Finset
import Mathlib.Algebra.BigOperators.Pi
import Mathlib.Data.Fintype.BigOperators
import Mathlib.Data.Fintype.Card
import Mathlib.Data.Fin.VecNotation
import Mathlib.Algebra.Order.Ring.Rat
import Mathlib.Tactic.Linarith

/-!
# Simulated annealing and least squares (C40, C66)

`aipy/deconv.py` 79-132 (`lsq`) and 240-270 (`anneal`).  The map from a model to the image it makes,
`ifft2(fft2(x) * ker_i).real`, is an arbitrary function `conv` here.  The random numbers of `anneal` are an
arbitrary sequence.  Arithmetic is exact; an average is a sum over all pixels divided by their number.
-/

namespace Verif.Deconv.Fit

set_option linter.unusedSectionVars false

variable {ι R : Type} [Fintype ι] [Field R] [LinearOrder R]

/-- `np.clip(x, lower, upper)` for one pixel: `minimum(maximum(x, lower), upper)`. -/
def clip (lower upper v : R) : R := min (max v lower) upper

/-- `np.average(dif**2)`.  `deconv.py` 259, 266. -/
def avgSq (d : ι → R) : R := (∑ x, d x * d x) / (Fintype.card ι : R)

/-- The arguments of `anneal`; `noise i` is what `np.random.normal` returns in step `i`. -/
structure Anneal (ι R : Type) where
  im : ι → R
  conv : (ι → R) → (ι → R)
  q : R
  lower : R
  upper : R
  cooling : Nat → (ι → R) → (ι → R)
  noise : Nat → (ι → R)

/-- The variables of the loop: `mdl`, `dif`, `score`. -/
structure ASt (ι R : Type) where
  mdl : ι → R
  dif : ι → R
  score : R

/-- `dif = im - ifft2(fft2(mdl)*inv_ker).real`.  `deconv.py` 258, 265. -/
def Anneal.difOf (a : Anneal ι R) (mdl : ι → R) : ι → R := fun x => a.im x - a.conv mdl x

/-- The start.  `deconv.py` 255-259. -/
def Anneal.start (a : Anneal ι R) (mdl : ι → R) : ASt ι R :=
  { mdl := mdl, dif := a.difOf mdl, score := avgSq (a.difOf mdl) }

/-- `n_mdl`: the perturbed and clipped model.  `deconv.py` 263-264. -/
def Anneal.propose (a : Anneal ι R) (i : Nat) (s : ASt ι R) : ι → R :=
  fun x => clip a.lower a.upper (s.mdl x + a.noise i x * a.cooling i (fun y => s.dif y / a.q) x)

/-- One pass of the loop.  `deconv.py` 262-268. -/
def Anneal.step (a : Anneal ι R) (s : ASt ι R) (i : Nat) : ASt ι R :=
  let nMdl := a.propose i s
  let nDif := a.difOf nMdl
  let nScore := avgSq nDif
  if nScore < s.score then { mdl := nMdl, dif := nDif, score := nScore } else s

/-- `anneal`: the model returned and the entries `res`, `score`, `iter` of `info`; `none` is the
`NameError` of `i+1` when the loop body never ran.  `deconv.py` 240-270. -/
def Anneal.run (a : Anneal ι R) (mdl : ι → R) (maxiter : Nat) : Option (ASt ι R × Nat) :=
  match maxiter with
  | 0 => none
  | k + 1 => some ((List.range (k + 1)).foldl a.step (a.start mdl), k + 1)

/-- The arguments of `lsq`; `q` is the estimated gain of the kernel. -/
structure Lsq (ι R : Type) where
  im : ι → R
  conv : (ι → R) → (ι → R)
  area : ι → R
  q : R
  gain : R
  tol : R
  lower : R
  upper : R

/-- `diff = (im - x_conv_ker) * area`.  `deconv.py` 108-109. -/
def Lsq.diff (a : Lsq ι R) (x : ι → R) : ι → R := fun p => (a.im p - a.conv x p) * a.area p

/-- `n_score = np.average(chi2)`.  `deconv.py` 111, 117. -/
def Lsq.score (a : Lsq ι R) (x : ι → R) : R := avgSq (a.diff x)

/-- The update of `x`.  `deconv.py` 110, 128-129. -/
def Lsq.update (a : Lsq ι R) (x : ι → R) : ι → R := fun p =>
  let g := -2 * a.q * a.diff x p
  let chi2 := a.diff x p * a.diff x p
  let d := if 0 < |g| then -(1 / g) * chi2 else 0
  clip a.lower a.upper (x p + a.gain * d)

/-- `abs(1 - score/n_score) < tol`; a division by zero gives `nan` or `inf` in numpy, and the comparison
is then false.  `deconv.py` 118, 122. -/
def Lsq.done (a : Lsq ι R) (score n : R) : Bool := decide (n ≠ 0) && decide (|1 - score / n| < a.tol)

/-- The loop, from the `i`-th pass on; returns `x`, `score`, `i` and whether it broke off.
`deconv.py` 115-129. -/
def Lsq.loop (a : Lsq ι R) : Nat → Nat → (ι → R) → R → (ι → R) × R × Nat × Bool
  | 0, i, x, score => (x, score, i - 1, false)
  | k + 1, i, x, score =>
    let n := a.score x
    if a.done score n then (x, score, i, true)
    else a.loop k (i + 1) (a.update x) n

/-- What `lsq` returns: `x`, `info['res']`, `info['score']`, `info['iter']`, `info['term'] == 'tol'`;
`none` is the `NameError` for `maxiter = 0`.  `deconv.py` 130-132. -/
structure LsqOut (ι R : Type) where
  x : ι → R
  res : ι → R
  score : R
  iterations : Nat
  tol : Bool

/-- `lsq`.  `deconv.py` 79-132. -/
def Lsq.run (a : Lsq ι R) (mdl : ι → R) (maxiter : Nat) : Option (LsqOut ι R) :=
  match maxiter with
  | 0 => none
  | k + 1 =>
    let o := a.loop (k + 1) 0 mdl 0
    some { x := o.1, res := fun p => a.im p - a.conv o.1 p, score := o.2.1,
           iterations := o.2.2.1 + 1, tol := o.2.2.2 }

/-! ## Properties -/

/-- What a user expects of the triple (model, residual, score). -/
def Consistent (a : Anneal ι R) (s : ASt ι R) : Prop :=
  (∀ x, s.dif x = a.im x - a.conv s.mdl x) ∧ s.score = (∑ x, s.dif x ^ 2) / (Fintype.card ι : R)

theorem consistent_start (a : Anneal ι R) (m : ι → R) : Consistent a (a.start m) := by
  refine ⟨fun x => rfl, ?_⟩
  simp only [Anneal.start, avgSq, pow_two]

theorem consistent_step (a : Anneal ι R) (s : ASt ι R) (i : Nat) (h : Consistent a s) :
    Consistent a (a.step s i) ∧ (a.step s i).score ≤ s.score := by
  unfold Anneal.step
  dsimp only
  split
  · rename_i hlt
    refine ⟨⟨fun x => rfl, ?_⟩, le_of_lt hlt⟩
    simp only [avgSq, pow_two]
  · exact ⟨h, le_refl _⟩

theorem clip_bounds {lower upper : R} (h : lower ≤ upper) (v : R) :
    lower ≤ clip lower upper v ∧ clip lower upper v ≤ upper :=
  ⟨le_min (le_max_right _ _) h, min_le_right _ _⟩

/-- **C40.**  Whatever the random numbers, `anneal` returns a model with its own residual and score, and
that score is no worse than the score of the model it started from. -/
theorem c40_no_worse (a : Anneal ι R) (mdl0 : ι → R) (maxiter : Nat) (s : ASt ι R) (n : Nat)
    (h : a.run mdl0 maxiter = some (s, n)) :
    Consistent a s ∧
    s.score ≤ (∑ x, (a.im x - a.conv mdl0 x) ^ 2) / (Fintype.card ι : R) ∧ n = maxiter := by
  have key : ∀ (l : List Nat) (s : ASt ι R), Consistent a s →
      Consistent a (l.foldl a.step s) ∧ (l.foldl a.step s).score ≤ s.score := by
    intro l
    induction l with
    | nil => intro s h; exact ⟨h, le_refl _⟩
    | cons i l ih =>
      intro s h
      obtain ⟨h1, h2⟩ := consistent_step a s i h
      obtain ⟨h3, h4⟩ := ih _ h1
      exact ⟨h3, le_trans h4 h2⟩
  cases maxiter with
  | zero => cases h
  | succ k =>
    simp only [Anneal.run, Option.some.injEq, Prod.mk.injEq] at h
    obtain ⟨rfl, rfl⟩ := h
    obtain ⟨h1, h2⟩ := key (List.range (k + 1)) (a.start mdl0) (consistent_start a mdl0)
    refine ⟨h1, ?_, rfl⟩
    refine le_trans h2 (le_of_eq ?_)
    exact (consistent_start a mdl0).2

/-- **C40.**  The model returned is the starting model itself, or lies between the bounds everywhere. -/
theorem c40_bounds (a : Anneal ι R) (hb : a.lower ≤ a.upper) (mdl0 : ι → R) (maxiter : Nat)
    (s : ASt ι R) (n : Nat) (h : a.run mdl0 maxiter = some (s, n)) :
    s.mdl = mdl0 ∨ ∀ x, a.lower ≤ s.mdl x ∧ s.mdl x ≤ a.upper := by
  have key : ∀ (l : List Nat) (s : ASt ι R),
      (s.mdl = mdl0 ∨ ∀ x, a.lower ≤ s.mdl x ∧ s.mdl x ≤ a.upper) →
      ((l.foldl a.step s).mdl = mdl0 ∨
        ∀ x, a.lower ≤ (l.foldl a.step s).mdl x ∧ (l.foldl a.step s).mdl x ≤ a.upper) := by
    intro l
    induction l with
    | nil => intro s h; exact h
    | cons i l ih =>
      intro s h
      rw [List.foldl_cons]
      apply ih
      unfold Anneal.step
      dsimp only
      split
      · right; intro x; exact clip_bounds hb _
      · exact h
  cases maxiter with
  | zero => cases h
  | succ k =>
    simp only [Anneal.run, Option.some.injEq, Prod.mk.injEq] at h
    obtain ⟨rfl, rfl⟩ := h
    exact key _ _ (Or.inl rfl)

/-- A non-trivial run: the first proposal is rejected, the second accepted. -/
example : ((Anneal.mk (ι := Fin 2) (R := ℚ) ![2, 1] (fun x => x) 1 (-10) 10 (fun _ _ => fun _ => 1)
    (fun i => if i = 0 then ![-1, 0] else ![1, 1])).run (fun _ => 0) 2).map
      (fun r => (r.1.mdl 0, r.1.mdl 1, r.1.dif 0, r.1.score, r.2)) =
    some (1, 1, 1, 1 / 2, 2) := by decide +kernel

/-- `maxiter = 0` is not accepted: `i` is used without ever having been set. -/
theorem c40_zero_iterations_violated (a : Anneal ι R) (mdl : ι → R) : a.run mdl 0 = none := rfl

/-- **C66**, the part that holds: `lsq` returns a model with its own residual, makes at most `maxiter`
passes, and unless it broke off in the first pass the model lies within the bounds. -/
theorem c66_lsq_partial (a : Lsq ι R) (hb : a.lower ≤ a.upper) (mdl0 : ι → R) (maxiter : Nat)
    (o : LsqOut ι R) (h : a.run mdl0 maxiter = some o) :
    (∀ p, o.res p = a.im p - a.conv o.x p) ∧ 1 ≤ o.iterations ∧ o.iterations ≤ maxiter ∧
    ((o.x = mdl0 ∧ o.iterations = 1 ∧ o.tol = true) ∨ ∀ p, a.lower ≤ o.x p ∧ o.x p ≤ a.upper) := by
  have key : ∀ (k i : Nat) (x : ι → R) (score : R), 0 < i →
      (∀ p, a.lower ≤ x p ∧ x p ≤ a.upper) →
      (∀ p, a.lower ≤ (a.loop k i x score).1 p ∧ (a.loop k i x score).1 p ≤ a.upper) ∧
      (a.loop k i x score).2.2.1 + 1 ≤ k + i := by
    intro k
    induction k with
    | zero => intro i x score hi hx; refine ⟨hx, ?_⟩; simp only [Lsq.loop]; omega
    | succ k ih =>
      intro i x score hi hx
      rw [Lsq.loop]
      split
      · exact ⟨hx, by dsimp only; omega⟩
      · obtain ⟨h1, h2⟩ := ih (i + 1) (a.update x) (a.score x) (Nat.succ_pos _)
          (fun p => clip_bounds hb _)
        exact ⟨h1, by omega⟩
  cases maxiter with
  | zero => cases h
  | succ k =>
    simp only [Lsq.run, Option.some.injEq] at h
    subst h
    refine ⟨fun p => rfl, Nat.succ_le_succ (Nat.zero_le _), ?_, ?_⟩
    · rw [Lsq.loop]
      dsimp only
      split
      · dsimp only; omega
      · have := (key k 1 (a.update mdl0) (a.score mdl0) Nat.one_pos (fun p => clip_bounds hb _)).2
        simpa using this
    · rw [Lsq.loop]
      dsimp only
      split
      · left; exact ⟨rfl, rfl, rfl⟩
      · right
        exact (key k 1 (a.update mdl0) (a.score mdl0) Nat.one_pos (fun p => clip_bounds hb _)).1

/-- **C66.**  What `term == 'tol'` means: the mean square of the masked residual of the model returned is not
zero, and differs from the score reported by less than the tolerance, relatively. -/
theorem c66_tolerance (a : Lsq ι R) (mdl0 : ι → R) (maxiter : Nat) (o : LsqOut ι R)
    (h : a.run mdl0 maxiter = some o) (ht : o.tol = true) :
    (∑ p, (o.res p * a.area p) ^ 2) / (Fintype.card ι : R) ≠ 0 ∧
    |1 - o.score / ((∑ p, (o.res p * a.area p) ^ 2) / (Fintype.card ι : R))| < a.tol := by
  have key : ∀ (k i : Nat) (x : ι → R) (score : R), (a.loop k i x score).2.2.2 = true →
      a.done (a.loop k i x score).2.1 (a.score (a.loop k i x score).1) = true := by
    intro k
    induction k with
    | zero => intro i x score h; simp [Lsq.loop] at h
    | succ k ih =>
      intro i x score
      rw [Lsq.loop]
      split
      · rename_i hd; intro _; exact hd
      · exact ih _ _ _
  cases maxiter with
  | zero => cases h
  | succ k =>
    simp only [Lsq.run, Option.some.injEq] at h
    subst h
    have hd := key (k + 1) 0 mdl0 0 ht
    have e : a.score (a.loop (k + 1) 0 mdl0 0).1 =
        (∑ p, ((a.im p - a.conv (a.loop (k + 1) 0 mdl0 0).1 p) * a.area p) ^ 2) / (Fintype.card ι : R) := by
      simp only [Lsq.score, avgSq, Lsq.diff, pow_two]
    dsimp only
    rw [← e]
    unfold Lsq.done at hd
    simpa using hd

/-- A run that ends by the tolerance in the second pass. -/
example : ((Lsq.mk (ι := Fin 1) (R := ℚ) ![1] (fun x => x) ![1] 1 (1 / 10) (1 / 2) 0 10).run (fun _ => 0) 9).map
      (fun o => (o.x 0, o.score, o.iterations, o.tol)) = some (1 / 20, 1, 2, true) := by
  decide +kernel

/-- **C66 is false for the score**: it belongs to the model before the last update.  Here the residual
returned is 1/2, but the score reported is 1. -/
theorem c66_score_violated :
    ((Lsq.mk (ι := Fin 1) (R := ℚ) ![1] (fun x => x) ![1] 1 1 (1 / 10) 0 10).run (fun _ => 0) 1).map
      (fun o => (o.res 0, o.score, o.iterations, o.tol)) = some (1 / 2, 1, 1, false) := by
  decide +kernel

/-- **C66 is false for the bounds** when the first pass already satisfies the tolerance: the starting model
is returned without clipping. -/
theorem c66_bounds_violated :
    ((Lsq.mk (ι := Fin 1) (R := ℚ) ![1] (fun x => x) ![1] 1 1 2 0 10).run (fun _ => -5) 3).map
      (fun o => (o.x 0, o.iterations, o.tol)) = some (-5, 1, true) := by
  decide +kernel

end Verif.Deconv.Fit
