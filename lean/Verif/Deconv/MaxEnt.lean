import Verif.Deconv.Fit
import Mathlib.Analysis.SpecialFunctions.Log.Deriv
/-!
# Property C94 : what `maxent` reports is true

Real numbers instead of doubles; numbers that are not finite are kept apart (see `nextStep`, `loop`).
-/
set_option linter.unusedSectionVars false
noncomputable section
namespace Verif.Deconv
open Real Finset

variable {ι : Type} [Fintype ι]

/-! ## Model -/

/-- the arguments of `maxent`: `conv b` is `ifft2(fft2(b)*inv_ker).real`, `upper = none` is `np.inf`, `m` is `mdl`; deconv.py 134-159 -/
structure MaxEnt (ι : Type) where
  im : ι → ℝ
  conv : (ι → ℝ) → (ι → ℝ)
  q : ℝ
  var0 : ℝ
  gain : ℝ
  tol : ℝ
  lower : ℝ
  upper : Option ℝ
  m : ι → ℝ

/-- `np.clip(v, lower, upper)` -/
def clipTo (lower : ℝ) : Option ℝ → ℝ → ℝ
  | none, v => max v lower
  | some u, v => min (max v lower) u

namespace MaxEnt

/-- `diff`, deconv.py 161-164 -/
def diff (a : MaxEnt ι) (b : ι → ℝ) : ι → ℝ := fun p => a.im p - a.conv b p

/-- `chi2`, deconv.py 157, 165 -/
def chi2 (a : MaxEnt ι) (b : ι → ℝ) : ℝ := (∑ p, a.diff b p * a.diff b p) - Fintype.card ι * a.var0

/-- `g_chi2`, deconv.py 166 -/
def gChi2 (a : MaxEnt ι) (b : ι → ℝ) : ι → ℝ := fun p => -2 * a.q * a.diff b p

/-- `g_J`, deconv.py 167 -/
def gJ (a : MaxEnt ι) (b : ι → ℝ) (alpha : ℝ) : ι → ℝ := fun p => (-log (b p / a.m p) - 1) - alpha * a.gChi2 b p

/-- `gg_J`, deconv.py 168 -/
def ggJ (a : MaxEnt ι) (b : ι → ℝ) (alpha : ℝ) : ι → ℝ := fun p => -1 / b p - alpha * (2 * a.q ^ 2)

/-- `dot`, deconv.py 170 -/
def dot (w x y : ι → ℝ) : ℝ := ∑ p, x p * y p / -(w p)

open Classical in
/-- `next_step`, deconv.py 160-179: the score, and the changes of `b_i` and `alpha`.  The first `none`: a logarithm of a number that is not
positive, or a division by zero, which makes the score NaN or infinite.  The second `none`: `d_alpha` is NaN or infinite. -/
def nextStep (a : MaxEnt ι) (b : ι → ℝ) (alpha : ℝ) : Option (ℝ × Option ((ι → ℝ) × ℝ)) :=
  if (∃ p, b p / a.m p ≤ 0 ∨ a.ggJ b alpha p = 0) ∨ dot (a.ggJ b alpha) 1 1 = 0 then none
  else
    let g := a.gJ b alpha
    let w := a.ggJ b alpha
    let c := a.gChi2 b
    let score := dot w g g / dot w 1 1
    if dot w c c = 0 then some (score, none)
    else
      let dAlpha := (a.chi2 b + dot w c g) / dot w c c
      some (score, some (fun p => -1 / w p * (g p - dAlpha * c p), dAlpha))

/-- `info['term']` -/
inductive Term | maxiter | tol | divergence
deriving DecidableEq

open Classical in
/-- The loop from pass `i` on, deconv.py 183-193: `b_i` and `alpha`, the last score, `i`, `info['term']`.  A state of `none` is one with
a NaN or an infinity in `alpha` (and in `b_i`), a score of `none` is not finite; in the pass after the first such state the score is NaN. -/
def loop (a : MaxEnt ι) : Nat → Nat → Option ((ι → ℝ) × ℝ) → Option ℝ → Option ((ι → ℝ) × ℝ) × Option ℝ × Nat × Term
  | 0, i, s, score => (s, score, i - 1, .maxiter)
  | _ + 1, i, none, _ => (none, none, i, .divergence)
  | k + 1, i, some s, _ =>
    match a.nextStep s.1 s.2 with
    | none => (some s, none, i, .divergence)
    | some (score, d) =>
      if score < a.tol ∧ 0 < score then (some s, some score, i, .tol)
      else if 10 ^ 10 < score ∨ score ≤ 0 then (some s, some score, i, .divergence)
      else a.loop k (i + 1) (d.map fun d => (fun p => clipTo a.lower a.upper (s.1 p + a.gain * d.1 p), s.2 + a.gain * d.2)) (some score)

/-- what `maxent` returns; `img = none` if there are NaNs or infinities -/
structure Out (ι : Type) where
  img : Option (ι → ℝ)
  res : Option (ι → ℝ)
  score : Option ℝ
  alpha : Option ℝ
  iterations : Nat
  term : Term
  success : Bool

/-- `maxent`, deconv.py 180-197; `none` is the NameError of `score` with `maxiter = 0` -/
def run (a : MaxEnt ι) (maxiter : Nat) : Option (Out ι) :=
  match maxiter with
  | 0 => none
  | k + 1 =>
    let o := a.loop (k + 1) 0 (some (a.m, 0)) none
    some { img := o.1.map Prod.fst, res := o.1.map fun s p => a.im p - a.conv s.1 p, score := o.2.1, alpha := o.1.map Prod.snd,
           iterations := o.2.2.1 + 1, term := o.2.2.2, success := decide (o.2.2.2 ≠ .divergence) }

end MaxEnt

/-- the model if none is given, deconv.py 153-155; `none` if the kernel sums to zero -/
def defaultModel (im : ι → ℝ) (kerSum : ℝ) : Option (ι → ℝ) :=
  if kerSum = 0 then none else some fun _ => (∑ p, im p) / Fintype.card ι / kerSum

/-! ## Specification -/

namespace MaxEnt

/-- how far a pixel is from the maximum of `entropy - alpha * chi²` when chi² is taken to have the gradient `-2 q (im - conv b)` -/
def slope (a : MaxEnt ι) (b : ι → ℝ) (alpha : ℝ) (p : ι) : ℝ := -log (b p / a.m p) - 1 + 2 * alpha * a.q * (a.im p - a.conv b p)

/-- minus the curvature there -/
def curv (a : MaxEnt ι) (b : ι → ℝ) (alpha : ℝ) (p : ι) : ℝ := 1 / b p + 2 * alpha * a.q ^ 2

/-- the mean of the squared slopes, weighted by the inverse curvature -/
def misfit (a : MaxEnt ι) (b : ι → ℝ) (alpha : ℝ) : ℝ := (∑ p, a.slope b alpha p ^ 2 / a.curv b alpha p) / ∑ p, 1 / a.curv b alpha p

/-! ## Lemmas -/

theorem ggJ_curv (a : MaxEnt ι) (b : ι → ℝ) (alpha : ℝ) (p : ι) : -(a.ggJ b alpha p) = a.curv b alpha p := by
  unfold ggJ curv
  ring

theorem gJ_slope (a : MaxEnt ι) (b : ι → ℝ) (alpha : ℝ) (p : ι) : a.gJ b alpha p = a.slope b alpha p := by
  unfold gJ slope gChi2 diff
  ring

theorem score_misfit (a : MaxEnt ι) (b : ι → ℝ) (alpha : ℝ) :
    dot (a.ggJ b alpha) (a.gJ b alpha) (a.gJ b alpha) / dot (a.ggJ b alpha) 1 1 = a.misfit b alpha := by
  unfold dot misfit
  simp only [ggJ_curv, gJ_slope, Pi.one_apply, mul_one, pow_two]

/-- what a pass finds -/
theorem nextStep_score (a : MaxEnt ι) (b : ι → ℝ) (alpha score : ℝ) (d : Option ((ι → ℝ) × ℝ)) (h : a.nextStep b alpha = some (score, d)) :
    score = a.misfit b alpha ∧ (∀ p, 0 < b p / a.m p) := by
  unfold nextStep at h
  split at h
  · cases h
  · next hn =>
    rw [not_or, not_exists] at hn
    have hp : ∀ p, 0 < b p / a.m p := fun p => not_le.1 fun hl => hn.1 p (Or.inl hl)
    simp only [score_misfit] at h
    split at h <;> cases h <;> exact ⟨rfl, hp⟩

theorem clipTo_bounds {lower : ℝ} {upper : Option ℝ} (h : ∀ u, upper = some u → lower ≤ u) (v : ℝ) :
    lower ≤ clipTo lower upper v ∧ ∀ u, upper = some u → clipTo lower upper v ≤ u := by
  cases upper with
  | none => exact ⟨le_max_right _ _, by rintro u ⟨⟩⟩
  | some u =>
    refine ⟨le_min (le_max_right _ _) (h u rfl), ?_⟩
    rintro u' ⟨⟩
    exact min_le_right _ _

/-- the pixels are within the bounds -/
def Within (a : MaxEnt ι) (b : ι → ℝ) : Prop := ∀ p, a.lower ≤ b p ∧ ∀ u, a.upper = some u → b p ≤ u

/-- The loop keeps what holds for all clipped images. -/
theorem loop_spec (a : MaxEnt ι) (hb : ∀ u, a.upper = some u → a.lower ≤ u) : ∀ (k i : Nat) (s : Option ((ι → ℝ) × ℝ)) (sc : Option ℝ)
    (o : Option ((ι → ℝ) × ℝ) × Option ℝ × Nat × Term), a.loop k i s sc = o → (∀ b, s = some b → a.Within b.1) →
    (∀ b, o.1 = some b → a.Within b.1)
  | 0, i, s, sc, o, h, hs => by
    unfold loop at h
    subst h
    exact hs
  | k + 1, i, none, sc, o, h, hs => by
    unfold loop at h
    subst h
    rintro b ⟨⟩
  | k + 1, i, some s, sc, o, h, hs => by
    unfold loop at h
    cases hn : a.nextStep s.1 s.2 with
    | none =>
      rw [hn] at h
      subst h
      exact hs
    | some r =>
      obtain ⟨score, d⟩ := r
      rw [hn] at h
      simp only at h
      split at h
      · subst h
        exact hs
      · split at h
        · subst h
          exact hs
        · refine loop_spec a hb k _ _ _ o h ?_
          intro b e
          cases d with
          | none => cases e
          | some d =>
            rw [Option.map_some] at e
            cases e
            exact fun p => clipTo_bounds hb _

theorem loop_truth (a : MaxEnt ι) : ∀ (k i : Nat) (s : Option ((ι → ℝ) × ℝ)) (sc : Option ℝ)
    (o : Option ((ι → ℝ) × ℝ) × Option ℝ × Nat × Term), a.loop (k + 1) i s sc = o → 
    i ≤ o.2.2.1 ∧ o.2.2.1 ≤ i + k ∧ (o.2.2.2 = .maxiter → o.2.2.1 = i + k) ∧
    (o.2.2.2 = .tol → ∃ b alpha, o.1 = some (b, alpha) ∧ o.2.1 = some (a.misfit b alpha) ∧ 0 < a.misfit b alpha ∧ a.misfit b alpha < a.tol ∧ ∀ p, 0 < b p / a.m p)
  | k, i, none, sc, o, h => by
    unfold loop at h
    subst h
    exact ⟨le_rfl, Nat.le_add_right _ _, (fun h => by cases h), (fun h => by cases h)⟩
  | k, i, some s, sc, o, h => by
    unfold loop at h
    cases hn : a.nextStep s.1 s.2 with
    | none =>
      rw [hn] at h
      subst h
      exact ⟨le_rfl, Nat.le_add_right _ _, (fun h => by cases h), (fun h => by cases h)⟩
    | some r =>
      obtain ⟨score, d⟩ := r
      obtain ⟨e, hp⟩ := nextStep_score a _ _ _ _ hn
      rw [hn] at h
      simp only at h
      split at h
      · next ht =>
        subst h
        refine ⟨le_rfl, Nat.le_add_right _ _, (fun h => by cases h), fun _ => ⟨s.1, s.2, rfl, by rw [e], by rw [← e]; exact ht.2, by rw [← e]; exact ht.1, hp⟩⟩
      · split at h
        · subst h
          exact ⟨le_rfl, Nat.le_add_right _ _, (fun h => by cases h), (fun h => by cases h)⟩
        · cases k with
          | zero =>
            unfold loop at h
            subst h
            exact ⟨by simp, by simp, by simp, (fun h => by cases h)⟩
          | succ k =>
            obtain ⟨h1, h2, h3, h4⟩ := loop_truth a k _ _ _ o h
            exact ⟨by omega, by omega, fun hm => by rw [h3 hm]; omega, h4⟩

/-- the first pass: the model itself is at distance 1 -/
theorem first_step (a : MaxEnt ι) (hm : ∀ p, a.m p ≠ 0) (hs : ∑ p, a.m p ≠ 0) : ∃ d, a.nextStep a.m 0 = some (1, d) ∧
    (d = none ↔ dot (a.ggJ a.m 0) (a.gChi2 a.m) (a.gChi2 a.m) = 0) := by
  have hg : ∀ p, -(a.ggJ a.m 0 p) = 1 / a.m p := by
    intro p
    unfold ggJ
    ring
  have h1 : dot (a.ggJ a.m 0) 1 1 = ∑ p, a.m p := by
    unfold dot
    simp only [hg]
    simp
  have hmis : a.misfit a.m 0 = 1 := by
    have hc : ∀ p, a.curv a.m 0 p = 1 / a.m p := by
      intro p
      unfold curv
      ring
    have hsl : ∀ p, a.slope a.m 0 p = -1 := by
      intro p
      unfold slope
      rw [div_self (hm p), log_one]
      ring
    unfold misfit
    simp only [hc, hsl]
    simp [hs]
  have hn : ¬ ((∃ p, a.m p / a.m p ≤ 0 ∨ a.ggJ a.m 0 p = 0) ∨ dot (a.ggJ a.m 0) 1 1 = 0) := by
    rw [h1, not_or]
    refine ⟨?_, hs⟩
    rintro ⟨p, h | h⟩
    · rw [div_self (hm p)] at h
      linarith
    · have := hg p
      rw [h, neg_zero] at this
      exact one_div_ne_zero (hm p) this.symm
  unfold nextStep
  rw [if_neg hn]
  simp only [score_misfit, hmis]
  by_cases h0 : dot (a.ggJ a.m 0) (a.gChi2 a.m) (a.gChi2 a.m) = 0
  · rw [if_pos h0]
    exact ⟨none, rfl, by simp [h0]⟩
  · rw [if_neg h0]
    exact ⟨_, rfl, by simp [h0]⟩

/-- The loop after the first pass. -/
theorem first_loop (a : MaxEnt ι) (ht : a.tol ≤ 1) (hm : ∀ p, a.m p ≠ 0) (hs : ∑ p, a.m p ≠ 0) (k : Nat) :
    ∃ d : Option ((ι → ℝ) × ℝ), (d = none ↔ dot (a.ggJ a.m 0) (a.gChi2 a.m) (a.gChi2 a.m) = 0) ∧
      a.loop (k + 1) 0 (some (a.m, 0)) none =
        a.loop k 1 (d.map fun d => (fun p => clipTo a.lower a.upper (a.m p + a.gain * d.1 p), 0 + a.gain * d.2)) (some 1) := by
  obtain ⟨d, e, hd⟩ := first_step a hm hs
  refine ⟨d, hd, ?_⟩
  rw [loop, e]
  simp only
  rw [if_neg (by rintro ⟨h, -⟩; linarith), if_neg (by norm_num)]

/-- a loop that was not left was not left earlier -/
theorem loop_prefix (a : MaxEnt ι) : ∀ (k i : Nat) (s : Option ((ι → ℝ) × ℝ)) (sc : Option ℝ), (a.loop (k + 1) i s sc).2.2.2 = .maxiter →
    (a.loop k i s sc).2.2.2 = .maxiter
  | 0, i, s, sc, _ => rfl
  | k + 1, i, none, sc, h => by cases h
  | k + 1, i, some s, sc, h => by
    rw [loop] at h
    rw [loop]
    cases hn : a.nextStep s.1 s.2 with
    | none => rw [hn] at h; cases h
    | some r =>
      obtain ⟨score, d⟩ := r
      rw [hn] at h
      simp only at h ⊢
      split at h
      · cases h
      · next h1 =>
        rw [if_neg h1]
        split at h
        · cases h
        · next h2 =>
          rw [if_neg h2]
          exact loop_prefix a k (i + 1) _ _ h

/-- `v` brought between the bounds is `w` -/
def Brought (lower : ℝ) (upper : Option ℝ) (v w : ℝ) : Prop :=
  (lower ≤ v → (∀ u, upper = some u → v ≤ u) → w = v) ∧ (v < lower → (∀ u, upper = some u → lower ≤ u) → w = lower) ∧
  (∀ u, upper = some u → u < v → w = u)

/-- A step of Newton's method for the maximum of `entropy - alpha * chi²` under `chi² = N var0`, of which the part `gain` is made: `d` and `dAlpha` are the full step.
To first order it takes the slope to zero in every pixel, and chi² to `N var0`. -/
def Newton (a : MaxEnt ι) (b : ι → ℝ) (alpha : ℝ) (b' : ι → ℝ) (alpha' : ℝ) : Prop :=
  ∃ (d : ι → ℝ) (dAlpha : ℝ),
    (∀ p, a.slope b alpha p - a.curv b alpha p * d p + dAlpha * (2 * a.q * (a.im p - a.conv b p)) = 0) ∧
    (∑ p, (a.im p - a.conv b p) ^ 2) + (∑ p, -(2 * a.q * (a.im p - a.conv b p)) * d p) = Fintype.card ι * a.var0 ∧
    alpha' = alpha + a.gain * dAlpha ∧ ∀ p, Brought a.lower a.upper (b p + a.gain * d p) (b' p)

theorem clipTo_brought (lower : ℝ) (upper : Option ℝ) (v : ℝ) : Brought lower upper v (clipTo lower upper v) := by
  cases upper with
  | none =>
    refine ⟨fun h _ => max_eq_left h, fun h _ => max_eq_right h.le, ?_⟩
    rintro u ⟨⟩
  | some u =>
    refine ⟨fun h hu => ?_, fun h hu => ?_, ?_⟩
    · show min (max v lower) u = v
      rw [max_eq_left h, min_eq_left (hu u rfl)]
    · show min (max v lower) u = lower
      rw [max_eq_right h.le, min_eq_left (hu u rfl)]
    · rintro u' ⟨⟩ h
      exact min_eq_right (h.le.trans (le_max_left _ _))

theorem nextStep_newton (a : MaxEnt ι) (b : ι → ℝ) (alpha score : ℝ) (d : (ι → ℝ) × ℝ) (h : a.nextStep b alpha = some (score, some d)) :
    a.Newton b alpha (fun p => clipTo a.lower a.upper (b p + a.gain * d.1 p)) (alpha + a.gain * d.2) := by
  unfold nextStep at h
  split at h
  · cases h
  · next hn =>
    rw [not_or, not_exists] at hn
    have hw : ∀ p, a.ggJ b alpha p ≠ 0 := fun p h0 => hn.1 p (Or.inr h0)
    simp only at h
    split at h
    · cases h
    · next hc =>
      cases h
      refine ⟨_, _, ?_, ?_, rfl, fun p => clipTo_brought _ _ _⟩
      · intro p
        simp only
        rw [← ggJ_curv, ← gJ_slope]
        have := hw p
        unfold gChi2 diff
        field_simp
        ring
      · simp only
        have e : ∀ p, -(2 * a.q * (a.im p - a.conv b p)) * (-1 / a.ggJ b alpha p * (a.gJ b alpha p -
            (a.chi2 b + dot (a.ggJ b alpha) (a.gChi2 b) (a.gJ b alpha)) / dot (a.ggJ b alpha) (a.gChi2 b) (a.gChi2 b) * a.gChi2 b p)) =
            a.gChi2 b p * a.gJ b alpha p / -(a.ggJ b alpha p) - (a.chi2 b + dot (a.ggJ b alpha) (a.gChi2 b) (a.gJ b alpha)) /
              dot (a.ggJ b alpha) (a.gChi2 b) (a.gChi2 b) * (a.gChi2 b p * a.gChi2 b p / -(a.ggJ b alpha p)) := by
          intro p
          have := hw p
          unfold gChi2 diff
          field_simp
        rw [Finset.sum_congr rfl fun p _ => e p, Finset.sum_sub_distrib, ← Finset.mul_sum]
        have e1 : ∑ p, a.gChi2 b p * a.gJ b alpha p / -(a.ggJ b alpha p) = dot (a.ggJ b alpha) (a.gChi2 b) (a.gJ b alpha) := rfl
        have e2 : ∑ p, a.gChi2 b p * a.gChi2 b p / -(a.ggJ b alpha p) = dot (a.ggJ b alpha) (a.gChi2 b) (a.gChi2 b) := rfl
        rw [e1, e2, div_mul_cancel₀ _ hc]
        unfold chi2 diff
        simp only [pow_two]
        ring

/-- one pass that does not end the loop -/
theorem loop_one (a : MaxEnt ι) (i : Nat) (s s' : (ι → ℝ) × ℝ) (sc : Option ℝ) (x : Option ℝ × Nat × Term)
    (h : a.loop 1 i (some s) sc = (some s', x)) (hm : x.2.2 = .maxiter) : a.Newton s.1 s.2 s'.1 s'.2 := by
  unfold loop at h
  cases hn : a.nextStep s.1 s.2 with
  | none =>
    rw [hn] at h
    simp only at h
    obtain ⟨-, rfl⟩ := Prod.mk.inj h
    cases hm
  | some r =>
    obtain ⟨score, d⟩ := r
    rw [hn] at h
    simp only at h
    split at h
    · obtain ⟨-, rfl⟩ := Prod.mk.inj h
      cases hm
    · split at h
      · obtain ⟨-, rfl⟩ := Prod.mk.inj h
        cases hm
      · unfold loop at h
        cases d with
        | none => cases (Prod.mk.inj h).1
        | some d =>
          obtain ⟨e, -⟩ := Prod.mk.inj h
          rw [← Option.some.inj e]
          exact nextStep_newton a _ _ _ _ hn

/-- the last pass alone -/
theorem loop_last (a : MaxEnt ι) : ∀ (k i : Nat) (s : Option ((ι → ℝ) × ℝ)) (sc : Option ℝ), (a.loop k i s sc).2.2.2 = .maxiter →
    ∃ sc', a.loop (k + 1) i s sc = a.loop 1 (i + k) (a.loop k i s sc).1 sc'
  | 0, i, s, sc, _ => ⟨sc, rfl⟩
  | k + 1, i, none, sc, h => by cases h
  | k + 1, i, some s, sc, h => by
    rw [loop] at h
    rw [loop, loop]
    cases hn : a.nextStep s.1 s.2 with
    | none => rw [hn] at h; cases h
    | some r =>
      obtain ⟨score, d⟩ := r
      rw [hn] at h
      simp only at h ⊢
      split at h
      · cases h
      · next h1 =>
        rw [if_neg h1]
        split at h
        · cases h
        · next h2 =>
          rw [if_neg h2, if_neg h1, if_neg h2]
          obtain ⟨sc', e⟩ := loop_last a k (i + 1) _ _ h
          exact ⟨sc', by rw [e, show i + 1 + k = i + (k + 1) from by omega]⟩

/-! ## The claims -/

/-- C94: every pass that does not end the loop is (the part `gain` of) a Newton step from the image and alpha of the pass before, starting at the model with alpha 0. -/
theorem c94_newton (a : MaxEnt ι) (o : Out ι) (b' : ι → ℝ) (alpha' : ℝ) (hb : o.img = some b') (ha : o.alpha = some alpha') (hm : o.term = .maxiter) :
    (a.run 1 = some o → a.Newton a.m 0 b' alpha') ∧
    ∀ k, a.run (k + 2) = some o → ∃ o' b alpha, a.run (k + 1) = some o' ∧ o'.img = some b ∧ o'.alpha = some alpha ∧ o'.term = .maxiter ∧ a.Newton b alpha b' alpha' := by
  constructor
  · intro h
    unfold run at h
    simp only at h
    cases h
    simp only [Option.map_eq_some_iff] at hb ha
    obtain ⟨s, hs, rfl⟩ := hb
    obtain ⟨s', hs', rfl⟩ := ha
    rw [hs] at hs'
    cases hs'
    exact loop_one a 0 (a.m, 0) s none (a.loop 1 0 (some (a.m, 0)) none).2 (Prod.ext hs rfl) hm
  · intro k h
    unfold run at h
    simp only at h
    cases h
    simp only [Option.map_eq_some_iff] at hb ha
    obtain ⟨s, hs, rfl⟩ := hb
    obtain ⟨s', hs', rfl⟩ := ha
    rw [hs] at hs'
    cases hs'
    simp only at hm
    have ht : (a.loop (k + 1) 0 (some (a.m, 0)) none).2.2.2 = .maxiter := loop_prefix a (k + 1) 0 _ _ hm
    obtain ⟨sc, e⟩ := loop_last a (k + 1) 0 (some (a.m, 0)) none ht
    rw [e] at hs hm
    cases hl : (a.loop (k + 1) 0 (some (a.m, 0)) none).1 with
    | none =>
      rw [hl] at hm
      cases hm
    | some r =>
      rw [hl] at hs hm
      refine ⟨_, r.1, r.2, rfl, by simp [hl], by simp [hl], ht, ?_⟩
      exact loop_one a _ r s sc (a.loop 1 (0 + (k + 1)) (some r) sc).2 (Prod.ext hs rfl) hm

/-- C94: what is reported about the image returned.  The residual is its residual, `maxiter` means that all passes were made, `tol` means
that the image is positive relative to the model and that its distance from the maximum is below the tolerance, and success is no divergence. -/
theorem c94_report (a : MaxEnt ι) (maxiter : Nat) (o : Out ι) (h : a.run maxiter = some o) :
    1 ≤ o.iterations ∧ o.iterations ≤ maxiter ∧ (o.term = .maxiter → o.iterations = maxiter) ∧
    (o.success = false ↔ o.term = .divergence) ∧ o.res = o.img.map (fun b p => a.im p - a.conv b p) ∧
    (o.term = .tol → ∃ b alpha, o.img = some b ∧ o.alpha = some alpha ∧ o.score = some (a.misfit b alpha) ∧
      0 < a.misfit b alpha ∧ a.misfit b alpha < a.tol ∧ ∀ p, 0 < b p / a.m p) := by
  cases maxiter with
  | zero => cases h
  | succ k =>
    unfold run at h
    simp only at h
    cases h
    obtain ⟨h1, h2, h3, h4⟩ := loop_truth a k 0 (some (a.m, 0)) none _ rfl
    refine ⟨by simp, by simpa using h2, fun hm => by rw [h3 hm]; simp, by simp, ?_, ?_⟩
    · rw [Option.map_map]
      rfl
    · intro ht
      obtain ⟨b, alpha, e1, e2, e3, e4, e5⟩ := h4 ht
      exact ⟨b, alpha, by simp [e1], by simp [e1], e2, e3, e4, e5⟩

/-- C94: with a tolerance of at most 1 the image returned is within the bounds, whatever the reason for stopping, unless it has NaNs. -/
theorem c94_bounds_partial (a : MaxEnt ι) (hb : ∀ u, a.upper = some u → a.lower ≤ u) (ht : a.tol ≤ 1) (hm : ∀ p, a.m p ≠ 0)
    (hs : ∑ p, a.m p ≠ 0) (maxiter : Nat) (o : Out ι) (h : a.run maxiter = some o) (b : ι → ℝ) (hi : o.img = some b) (p : ι) :
    a.lower ≤ b p ∧ ∀ u, a.upper = some u → b p ≤ u := by
  cases maxiter with
  | zero => cases h
  | succ k =>
    unfold run at h
    simp only at h
    cases h
    simp only [Option.map_eq_some_iff] at hi
    obtain ⟨s, hs1, hs2⟩ := hi
    obtain ⟨d, _, e⟩ := first_loop a ht hm hs k
    rw [e] at hs1
    have := loop_spec a hb k 1 _ _ _ rfl (by
      intro b e
      cases d with
      | none => cases e
      | some d =>
        rw [Option.map_some] at e
        cases e
        exact fun p => clipTo_bounds hb _) s hs1
    rw [← hs2]
    exact this p

/-- entropy relative to the model, minus `alpha` times chi² -/
def objective (a : MaxEnt ι) (alpha : ℝ) (b : ι → ℝ) : ℝ := (∑ p, -(b p * log (b p / a.m p))) - alpha * ∑ p, (a.im p - a.conv b p) ^ 2

open Classical in
/-- C94: for a kernel of one pixel `slope` is the derivative of entropy minus `alpha` times chi² with respect to the pixel and `-curv` the second
derivative, so `misfit` is zero exactly at its stationary points. -/
theorem c94_gradient (a : MaxEnt ι) (hk : ∀ b p, a.conv b p = a.q * b p) (b : ι → ℝ) (alpha : ℝ) (p : ι) (hp : 0 < b p / a.m p) :
    HasDerivAt (fun t => a.objective alpha (Function.update b p t)) (a.slope b alpha p) (b p) ∧
    HasDerivAt (fun t => a.slope (Function.update b p t) alpha p) (-(a.curv b alpha p)) (b p) := by
  have hb0 : b p ≠ 0 := fun h => by rw [h, zero_div] at hp; exact lt_irrefl _ hp
  have hm0 : a.m p ≠ 0 := fun h => by rw [h, div_zero] at hp; exact lt_irrefl _ hp
  have hlog : HasDerivAt (fun t => log (t / a.m p)) (1 / b p) (b p) := by
    have h1 : HasDerivAt (fun t : ℝ => t / a.m p) (1 / a.m p) (b p) := (hasDerivAt_id (b p)).div_const _
    have := h1.log hp.ne'
    have e : 1 / a.m p / (b p / a.m p) = 1 / b p := by field_simp
    rw [e] at this
    exact this
  constructor
  · have e : ∀ t, a.objective alpha (Function.update b p t) =
        (-(t * log (t / a.m p)) - alpha * (a.im p - a.q * t) ^ 2) +
        ((∑ x ∈ univ.erase p, -(b x * log (b x / a.m x))) - alpha * ∑ x ∈ univ.erase p, (a.im x - a.q * b x) ^ 2) := by
      intro t
      unfold objective
      simp only [hk]
      rw [← Finset.add_sum_erase univ _ (mem_univ p), ← Finset.add_sum_erase univ (fun x => (a.im x - a.q * Function.update b p t x) ^ 2) (mem_univ p)]
      have e1 : ∑ x ∈ univ.erase p, -(Function.update b p t x * log (Function.update b p t x / a.m x)) = ∑ x ∈ univ.erase p, -(b x * log (b x / a.m x)) := by
        apply Finset.sum_congr rfl
        intro x hx
        rw [Function.update_of_ne (Finset.ne_of_mem_erase hx)]
      have e2 : ∑ x ∈ univ.erase p, (a.im x - a.q * Function.update b p t x) ^ 2 = ∑ x ∈ univ.erase p, (a.im x - a.q * b x) ^ 2 := by
        apply Finset.sum_congr rfl
        intro x hx
        rw [Function.update_of_ne (Finset.ne_of_mem_erase hx)]
      rw [e1, e2, Function.update_self]
      ring
    simp only [e]
    have h1 : HasDerivAt (fun t => -(t * log (t / a.m p))) (-(1 * log (b p / a.m p) + b p * (1 / b p))) (b p) :=
      ((hasDerivAt_id (b p)).mul hlog).neg
    have h2 : HasDerivAt (fun t : ℝ => a.im p - a.q * t) (-(a.q * 1)) (b p) := by
      have := ((hasDerivAt_id (b p)).const_mul a.q).const_sub (a.im p)
      exact this
    have h3 := ((h2.pow 2).const_mul alpha)
    have h4 := (h1.sub h3).add_const ((∑ x ∈ univ.erase p, -(b x * log (b x / a.m x))) - alpha * ∑ x ∈ univ.erase p, (a.im x - a.q * b x) ^ 2)
    refine h4.congr_deriv ?_
    unfold slope
    rw [hk]
    field_simp
    ring
  · have h2 : HasDerivAt (fun t : ℝ => a.im p - a.q * t) (-(a.q * 1)) (b p) :=
      ((hasDerivAt_id (b p)).const_mul a.q).const_sub (a.im p)
    have h3 := ((hlog.neg).sub_const 1).add (h2.const_mul (2 * alpha * a.q))
    have e : (fun t => a.slope (Function.update b p t) alpha p) = fun t => -log (t / a.m p) - 1 + 2 * alpha * a.q * (a.im p - a.q * t) := by
      funext t
      unfold slope
      rw [hk, Function.update_self]
    rw [e]
    refine h3.congr_deriv ?_
    unfold curv
    ring

/-- C94: an image that the model explains exactly is not returned: the change of `alpha` is infinite, NaNs follow and divergence is reported. -/
theorem c94_perfect_violated (a : MaxEnt ι) (ht : a.tol ≤ 1) (hm : ∀ p, a.m p ≠ 0) (hs : ∑ p, a.m p ≠ 0) (hp : ∀ p, a.conv a.m p = a.im p) (k : Nat) :
    ∃ o, a.run (k + 2) = some o ∧ o.img = none ∧ o.success = false ∧ o.term = .divergence := by
  obtain ⟨d, hd, e⟩ := first_loop a ht hm hs (k + 1)
  have h0 : dot (a.ggJ a.m 0) (a.gChi2 a.m) (a.gChi2 a.m) = 0 := by
    unfold dot gChi2 diff
    apply Finset.sum_eq_zero
    intro p _
    rw [hp]
    simp
  rw [hd.2 h0] at e
  refine ⟨_, rfl, ?_⟩
  simp only [e]
  exact ⟨rfl, rfl, rfl⟩

/-- C94: with a tolerance above 1 the model is returned as it is, also if it is not within the bounds. -/
theorem c94_bounds_violated (a : MaxEnt ι) (ht : 1 < a.tol) (hm : ∀ p, a.m p ≠ 0) (hs : ∑ p, a.m p ≠ 0) (k : Nat) :
    ∃ o, a.run (k + 1) = some o ∧ o.img = some a.m ∧ o.success = true ∧ o.term = .tol := by
  obtain ⟨d, e, _⟩ := first_step a hm hs
  have h : a.loop (k + 1) 0 (some (a.m, 0)) none = (some (a.m, 0), some 1, 0, .tol) := by
    rw [loop, e]
    simp only
    rw [if_pos ⟨ht, one_pos⟩]
  refine ⟨_, rfl, ?_⟩
  simp only [h]
  simp

/-- C94: for an image with a negative mean (kernel with a positive sum, bounds above zero, no model given) divergence is reported after two passes. -/
theorem c94_negative_violated (a : MaxEnt ι) [Nonempty ι] (ht : a.tol ≤ 1) (hl : 0 < a.lower) (hb : ∀ u, a.upper = some u → a.lower ≤ u) (kerSum : ℝ) (hk : 0 < kerSum)
    (hm : defaultModel a.im kerSum = some a.m) (hi : ∑ p, a.im p < 0) (k : Nat) :
    ∃ o, a.run (k + 2) = some o ∧ o.success = false ∧ o.term = .divergence ∧ o.iterations = 2 := by
  unfold defaultModel at hm
  rw [if_neg hk.ne'] at hm
  have hm := congrFun (Option.some.inj hm)
  have hc : (0 : ℝ) < Fintype.card ι := by exact_mod_cast Fintype.card_pos
  have hneg : ∀ p, a.m p < 0 := by
    intro p
    rw [← hm p]
    exact div_neg_of_neg_of_pos (div_neg_of_neg_of_pos hi hc) hk
  obtain ⟨d, hd, e⟩ := first_loop a ht (fun p => (hneg p).ne) (Finset.sum_neg (fun p _ => hneg p) univ_nonempty).ne (k + 1)
  refine ⟨_, rfl, ?_⟩
  simp only [e]
  cases d with
  | none => exact ⟨rfl, rfl, rfl⟩
  | some d =>
    rw [Option.map_some]
    unfold loop
    have hn : a.nextStep (fun p => clipTo a.lower a.upper (a.m p + a.gain * d.1 p)) (0 + a.gain * d.2) = none := by
      unfold nextStep
      rw [if_pos]
      left
      obtain ⟨p⟩ := ‹Nonempty ι›
      exact ⟨p, Or.inl (div_nonpos_of_nonneg_of_nonpos (hl.le.trans (clipTo_bounds hb _).1) (hneg p).le)⟩
    rw [hn]
    exact ⟨rfl, rfl, rfl⟩

/-! ## Examples -/

/-- one pixel, kernel of one pixel -/
def demo : MaxEnt (Fin 1) := ⟨fun _ => 2, fun b p => 1 * b p, 1, 1, 1 / 10, 1 / 2, 1 / 100, none, fun _ => 1⟩

example : ∃ o, demo.run 1 = some o ∧ o.term = .maxiter ∧ o.success = true ∧ ∃ b, o.img = some b ∧ 1 / 100 ≤ b 0 := by
  obtain ⟨d, hd, e⟩ := first_loop demo (by norm_num [demo]) (by simp [demo]) (by simp [demo]) 0
  refine ⟨_, rfl, ?_⟩
  have hne : d ≠ none := by
    rw [Ne, hd]
    simp [dot, gChi2, diff, ggJ, demo]
    norm_num
  obtain ⟨d', rfl⟩ := Option.ne_none_iff_exists'.1 hne
  simp only [e]
  refine ⟨rfl, rfl, _, rfl, ?_⟩
  exact (clipTo_bounds (lower := demo.lower) (upper := demo.upper) (by simp [demo]) _).1

example : (∀ b p, demo.conv b p = demo.q * b p) ∧ 0 < (fun _ => 3 : Fin 1 → ℝ) 0 / demo.m 0 := by
  refine ⟨fun _ _ => rfl, by norm_num [demo]⟩

end MaxEnt

end Verif.Deconv
