import Verif.Deconv.Fit
import Verif.Img.GaussBeam
import Mathlib.Algebra.BigOperators.Ring.Finset
import Mathlib.Analysis.Complex.Basic
import Mathlib.Analysis.Real.Sqrt
import Mathlib.Data.Rat.Floor

/-!
# Property C152 : what the passes of `lsq` do to the residual

`aipy/deconv.py` 79-132 with the kernel and the Fourier transforms of the code (C66 takes the map from model to image as
arbitrary), for two axes, neither empty.  Numbers are exact, the transforms are the sums that define them.
-/

namespace Verif.Deconv.Fit

open Verif.Dsp Verif.Img.GaussBeam

/-! ## The model -/

/-- an image of real numbers -/
abbrev Im2 (n m : Nat) := Fin (n + 1) × Fin (m + 1) → ℝ

/-- an image as `np.fft` takes it -/
noncomputable def toMat {n m : Nat} (a : Im2 n m) : Mat n m := fun i j => (a (i, j) : ℂ)

/-- `np.fft.ifft2(np.fft.fft2(x) * ker_i).real`, deconv.py 104, 108, 130 -/
noncomputable def through {n m : Nat} (ker x : Im2 n m) : Im2 n m := fun p => (ifft2 (fun k l => fft2 (toMat x) k l * fft2 (toMat ker) k l) p.1 p.2).re

/-- `q = np.sqrt((np.abs(ker)**2).sum())`, deconv.py 103 -/
noncomputable def kerGain {n m : Nat} (ker : Im2 n m) : ℝ := Real.sqrt (∑ p, |ker p| ^ 2)

/-- The arguments of `lsq(im, ker, mdl, area, gain, tol, maxiter, lower, upper)` as the loop has them; `area=None` gives ones, an area
is cut off to integers, deconv.py 98-101. -/
noncomputable def lsqOf {n m : Nat} (im ker : Im2 n m) (area : Option (Fin (n + 1) × Fin (m + 1) → ℚ)) (gain tol lower upper : ℝ) :
    Lsq (Fin (n + 1) × Fin (m + 1)) ℝ where
  im := im
  conv := through ker
  area := fun p => match area with
    | none => 1
    | some a => (((a p).num.tdiv (a p).den : ℤ) : ℝ)
  q := kerGain ker
  gain := gain
  tol := tol
  lower := lower
  upper := upper

/-! ## The specification -/

/-- a model seen through the kernel -/
noncomputable def seen {n m : Nat} (ker x : Im2 n m) (p : Fin (n + 1) × Fin (m + 1)) : ℝ := ∑ y, ker (p - y) * x y

/-- what a model leaves of the image -/
noncomputable def left {n m : Nat} (im ker x : Im2 n m) (p : Fin (n + 1) × Fin (m + 1)) : ℝ := im p - seen ker x p

/-- one pass: every pixel is raised by a fixed part of what is left there -/
noncomputable def raise {n m : Nat} (im ker : Im2 n m) (gain : ℝ) (x : Im2 n m) : Im2 n m := fun p =>
  x p + gain / (2 * Real.sqrt (∑ y, ker y ^ 2)) * left im ker x p

/-- the Fourier component of an image -/
noncomputable def comp {n m : Nat} (a : Im2 n m) (k : Fin (n + 1)) (l : Fin (m + 1)) : ℂ :=
  ∑ i : Fin (n + 1), ∑ j : Fin (m + 1), (a (i, j) : ℂ) *
    Complex.exp (-(2 * Real.pi * Complex.I * ((i.val : ℂ) * k.val / (n + 1) + (j.val : ℂ) * l.val / (m + 1))))

/-- the bounds are not met in the first `N` passes -/
def Free {n m : Nat} (im ker : Im2 n m) (gain lower upper : ℝ) (N : Nat) (mdl : Im2 n m) : Prop :=
  ∀ t, t < N → ∀ p, lower ≤ (raise im ker gain)^[t + 1] mdl p ∧ (raise im ker gain)^[t + 1] mdl p ≤ upper

/-! ## Lemmas -/

theorem through_eq {n m : Nat} (ker x : Im2 n m) (p : Fin (n + 1) × Fin (m + 1)) : through ker x p = seen ker x p := by
  have h := c119_convolve (toMat x) (toMat ker) p.1 p.2
  unfold convolve2d at h
  unfold through
  rw [h, Complex.re_sum]
  unfold seen
  rw [Fintype.sum_prod_type]
  refine Finset.sum_congr rfl fun i _ => ?_
  rw [Complex.re_sum]
  refine Finset.sum_congr rfl fun j _ => ?_
  show ((x (i, j) : ℂ) * (ker (p.1 - i, p.2 - j) : ℂ)).re = ker (p - (i, j)) * x (i, j)
  rw [← Complex.ofReal_mul, Complex.ofReal_re, mul_comm]
  rfl

theorem kerGain_eq {n m : Nat} (ker : Im2 n m) : kerGain ker = Real.sqrt (∑ y, ker y ^ 2) := by
  unfold kerGain
  simp only [sq_abs]

theorem kerGain_pos {n m : Nat} {ker : Im2 n m} (h : ∃ p, ker p ≠ 0) : 0 < Real.sqrt (∑ y, ker y ^ 2) := by
  obtain ⟨p, hp⟩ := h
  apply Real.sqrt_pos.mpr
  have h1 : ker p ^ 2 ≤ ∑ y, ker y ^ 2 := Finset.single_le_sum (f := fun y => ker y ^ 2) (fun y _ => sq_nonneg (ker y)) (Finset.mem_univ p)
  have h2 : 0 < ker p ^ 2 := by positivity
  linarith

theorem diff_eq {n m : Nat} (im ker : Im2 n m) (gain tol lower upper : ℝ) (x : Im2 n m) (p : Fin (n + 1) × Fin (m + 1)) :
    (lsqOf im ker none gain tol lower upper).diff x p = left im ker x p := by
  show (im p - through ker x p) * 1 = _
  rw [through_eq, mul_one]
  rfl

theorem update_eq {n m : Nat} {im ker : Im2 n m} (hk : ∃ p, ker p ≠ 0) (gain tol : ℝ) {lower upper : ℝ} {x : Im2 n m}
    (hb : ∀ p, lower ≤ raise im ker gain x p ∧ raise im ker gain x p ≤ upper) :
    (lsqOf im ker none gain tol lower upper).update x = raise im ker gain x := by
  funext p
  have hq := kerGain_pos hk
  unfold Lsq.update
  simp only [diff_eq]
  show clip lower upper (x p + gain * (if 0 < |-2 * kerGain ker * left im ker x p| then
    -(1 / (-2 * kerGain ker * left im ker x p)) * (left im ker x p * left im ker x p) else 0)) = _
  have e : x p + gain * (if 0 < |-2 * kerGain ker * left im ker x p| then
      -(1 / (-2 * kerGain ker * left im ker x p)) * (left im ker x p * left im ker x p) else 0) = raise im ker gain x p := by
    unfold raise
    rw [kerGain_eq]
    generalize Real.sqrt (∑ y, ker y ^ 2) = q at hq
    by_cases hd : left im ker x p = 0
    · rw [hd]
      simp
    · rw [if_pos (by rw [abs_pos]; exact mul_ne_zero (mul_ne_zero (by norm_num) hq.ne') hd)]
      field_simp
  rw [e]
  unfold clip
  rw [max_eq_left (hb p).1, min_eq_left (hb p).2]

theorem loop_iter {n m : Nat} {im ker : Im2 n m} (hk : ∃ p, ker p ≠ 0) (gain tol : ℝ) {lower upper : ℝ} :
    ∀ (k i : Nat) (x : Im2 n m) (score : ℝ), Free im ker gain lower upper k x →
      ∃ t, t ≤ k ∧ ((lsqOf im ker none gain tol lower upper).loop k i x score).1 = (raise im ker gain)^[t] x ∧
        (((lsqOf im ker none gain tol lower upper).loop k i x score).2.2.2 = true →
          ((lsqOf im ker none gain tol lower upper).loop k i x score).2.2.1 = i + t) ∧
        (((lsqOf im ker none gain tol lower upper).loop k i x score).2.2.2 = false →
          t = k ∧ ((lsqOf im ker none gain tol lower upper).loop k i x score).2.2.1 = i + k - 1) := by
  intro k
  induction k with
  | zero => intro i x score _; exact ⟨0, le_refl _, rfl, (fun h => by cases h), fun _ => ⟨rfl, rfl⟩⟩
  | succ k ih =>
    intro i x score hf
    rw [Lsq.loop]
    by_cases hd : (lsqOf im ker none gain tol lower upper).done score ((lsqOf im ker none gain tol lower upper).score x) = true
    · simp only [hd, if_true]
      exact ⟨0, Nat.zero_le _, rfl, fun _ => rfl, (fun h => by cases h)⟩
    · simp only [hd]
      have hu := update_eq hk gain tol (x := x) (fun p => hf 0 (Nat.succ_pos _) p)
      have hf' : Free im ker gain lower upper k ((lsqOf im ker none gain tol lower upper).update x) := by
        intro t ht p
        rw [hu, ← Function.iterate_succ_apply]
        exact hf (t + 1) (Nat.succ_lt_succ ht) p
      obtain ⟨t, h1, h2, h3, h4⟩ := ih (i + 1) ((lsqOf im ker none gain tol lower upper).update x) ((lsqOf im ker none gain tol lower upper).score x) hf'
      refine ⟨t + 1, by omega, ?_, ?_, ?_⟩
      · rw [Function.iterate_succ_apply, ← hu]
        exact h2
      · intro h
        have := h3 h
        show _ = i + (t + 1)
        rw [show i + (t + 1) = i + 1 + t by omega]
        exact this
      · intro h
        obtain ⟨a, b⟩ := h4 h
        refine ⟨by omega, ?_⟩
        rw [show i + (k + 1) - 1 = i + 1 + k - 1 by omega]
        exact b

theorem left_raise {n m : Nat} (im ker : Im2 n m) (gain : ℝ) (x : Im2 n m) (p : Fin (n + 1) × Fin (m + 1)) :
    left im ker (raise im ker gain x) p =
      left im ker x p - gain / (2 * Real.sqrt (∑ y, ker y ^ 2)) * seen ker (left im ker x) p := by
  generalize hc : gain / (2 * Real.sqrt (∑ y, ker y ^ 2)) = c
  have : seen ker (raise im ker gain x) p = seen ker x p + c * seen ker (left im ker x) p := by
    unfold seen
    rw [Finset.mul_sum, ← Finset.sum_add_distrib]
    refine Finset.sum_congr rfl fun y _ => ?_
    unfold raise
    rw [hc]
    ring
  show im p - seen ker (raise im ker gain x) p = _
  rw [this]
  unfold left
  ring

theorem comp_eq {n m : Nat} (a : Im2 n m) (k : Fin (n + 1)) (l : Fin (m + 1)) : comp a k l = fft2 (toMat a) k l := by
  unfold comp fft2 fft toMat
  refine Finset.sum_congr rfl fun i _ => ?_
  rw [Finset.sum_mul]
  refine Finset.sum_congr rfl fun j _ => ?_
  rw [mul_assoc (a (i, j) : ℂ), ← Complex.exp_add]
  congr 2
  ring

theorem comp_seen {n m : Nat} (ker x : Im2 n m) (k : Fin (n + 1)) (l : Fin (m + 1)) : comp (seen ker x) k l = comp ker k l * comp x k l := by
  rw [comp_eq, comp_eq, comp_eq, mul_comm, ← fft2_conv]
  congr 1
  funext i j
  show ((seen ker x (i, j) : ℝ) : ℂ) = _
  unfold seen
  rw [Fintype.sum_prod_type]
  push_cast
  refine Finset.sum_congr rfl fun a _ => Finset.sum_congr rfl fun b _ => ?_
  exact mul_comm _ _

theorem comp_sub {n m : Nat} (a b : Im2 n m) (c : ℝ) (k : Fin (n + 1)) (l : Fin (m + 1)) :
    comp (fun p => a p - c * b p) k l = comp a k l - c * comp b k l := by
  unfold comp
  rw [Finset.mul_sum, ← Finset.sum_sub_distrib]
  refine Finset.sum_congr rfl fun i _ => ?_
  rw [Finset.mul_sum, ← Finset.sum_sub_distrib]
  refine Finset.sum_congr rfl fun j _ => ?_
  push_cast
  ring

theorem comp_iter {n m : Nat} (im ker : Im2 n m) (gain : ℝ) (x : Im2 n m) (k : Fin (n + 1)) (l : Fin (m + 1)) : ∀ t,
    comp (left im ker ((raise im ker gain)^[t] x)) k l =
      (1 - ((gain / (2 * Real.sqrt (∑ y, ker y ^ 2)) : ℝ) : ℂ) * comp ker k l) ^ t * comp (left im ker x) k l
  | 0 => by simp
  | t + 1 => by
    rw [Function.iterate_succ_apply', show left im ker (raise im ker gain ((raise im ker gain)^[t] x)) = fun p =>
      left im ker ((raise im ker gain)^[t] x) p - gain / (2 * Real.sqrt (∑ y, ker y ^ 2)) * seen ker (left im ker ((raise im ker gain)^[t] x)) p from
      funext (left_raise im ker gain _), comp_sub, comp_seen, comp_iter im ker gain x k l t, pow_succ]
    ring

theorem exp_unit (x : ℝ) : ‖Complex.exp (2 * Real.pi * Complex.I * (x : ℂ))‖ = 1 := by
  rw [show (2 * Real.pi * Complex.I * (x : ℂ) : ℂ) = ((2 * Real.pi * x : ℝ) : ℂ) * Complex.I by push_cast; ring]
  exact Complex.norm_exp_ofReal_mul_I _

theorem norm_ifft {n : Nat} (d : Row n) (k : Fin (n + 1)) : ‖ifft d k‖ ≤ (∑ x, ‖d x‖) / (n + 1) := by
  unfold ifft
  have h0 : ‖((n : ℂ) + 1)‖ = (n : ℝ) + 1 := by
    rw [show ((n : ℂ) + 1) = (((n : ℝ) + 1 : ℝ) : ℂ) by push_cast; rfl, Complex.norm_real, Real.norm_of_nonneg (by positivity)]
  rw [norm_div, h0]
  apply div_le_div_of_nonneg_right _ (by positivity)
  refine (norm_sum_le _ _).trans (Finset.sum_le_sum fun x _ => ?_)
  rw [norm_mul, show (2 * Real.pi * Complex.I * ((x.val : ℂ) * k.val) / (n + 1) : ℂ) = 2 * Real.pi * Complex.I * (((x.val * k.val / (n + 1) : ℝ)) : ℂ) by
    push_cast; ring, exp_unit, mul_one]

/-- a pixel is at most the mean of the magnitudes of the components -/
theorem pixel_le {n m : Nat} (a : Im2 n m) (p : Fin (n + 1) × Fin (m + 1)) :
    |a p| ≤ (∑ k, ∑ l, ‖comp a k l‖) / ((n + 1) * (m + 1)) := by
  have h : ((a p : ℝ) : ℂ) = ifft2 (fft2 (toMat a)) p.1 p.2 := by rw [ifft2_fft2]; rfl
  have h1 : |a p| = ‖ifft2 (fft2 (toMat a)) p.1 p.2‖ := by rw [← h, Complex.norm_real, Real.norm_eq_abs]
  rw [h1]
  unfold ifft2
  refine (norm_ifft _ _).trans ?_
  rw [mul_comm ((n : ℝ) + 1), ← div_div]
  apply div_le_div_of_nonneg_right _ (by positivity)
  rw [Finset.sum_div]
  refine Finset.sum_le_sum fun k _ => (norm_ifft _ _).trans ?_
  apply div_le_div_of_nonneg_right _ (by positivity)
  exact le_of_eq (Finset.sum_congr rfl fun l _ => by rw [comp_eq])

/-! ## The properties -/

/-- **C152.**  As long as the bounds are not met, every pass raises each pixel by `gain / (2 q)` times what is left of the image there, `q`
being the root of the sum of the squares of the kernel.  The model returned has gone through `t` passes; the residual belongs to it. -/
theorem c152_passes {n m : Nat} (im ker mdl : Im2 n m) (hk : ∃ p, ker p ≠ 0) (gain tol lower upper : ℝ) (maxiter : Nat)
    (hf : Free im ker gain lower upper maxiter mdl) {o : LsqOut (Fin (n + 1) × Fin (m + 1)) ℝ}
    (h : (lsqOf im ker none gain tol lower upper).run mdl maxiter = some o) :
    ∃ t, t ≤ maxiter ∧ o.x = (raise im ker gain)^[t] mdl ∧ (∀ p, o.res p = left im ker o.x p) ∧
      (o.tol = true → o.iterations = t + 1) ∧ (o.tol = false → t = maxiter ∧ o.iterations = maxiter) := by
  cases maxiter with
  | zero => cases h
  | succ k =>
    simp only [Lsq.run, Option.some.injEq] at h
    subst h
    obtain ⟨t, h1, h2, h3, h4⟩ := loop_iter hk gain tol (k + 1) 0 mdl 0 hf
    refine ⟨t, h1, h2, ?_, ?_, ?_⟩
    · intro p
      show im p - through ker _ p = _
      rw [through_eq]
      rfl
    · intro ht
      show _ + 1 = t + 1
      rw [h3 ht]
      omega
    · intro ht
      obtain ⟨a, b⟩ := h4 ht
      refine ⟨a, ?_⟩
      show _ + 1 = k + 1
      rw [b]
      omega

/-- **C152.**  Each Fourier component of the residual is multiplied by `1 - gain * K / (2 q)` in each pass, `K` being the component of the
kernel. -/
theorem c152_components {n m : Nat} (im ker mdl : Im2 n m) (hk : ∃ p, ker p ≠ 0) (gain tol lower upper : ℝ) (maxiter : Nat)
    (hf : Free im ker gain lower upper maxiter mdl) {o : LsqOut (Fin (n + 1) × Fin (m + 1)) ℝ}
    (h : (lsqOf im ker none gain tol lower upper).run mdl maxiter = some o) (k : Fin (n + 1)) (l : Fin (m + 1)) :
    comp o.res k l = (1 - ((gain / (2 * Real.sqrt (∑ y, ker y ^ 2)) : ℝ) : ℂ) * comp ker k l) ^ (if o.tol = true then o.iterations - 1 else o.iterations) *
      comp (left im ker mdl) k l := by
  obtain ⟨t, -, h2, h3, h4, h5⟩ := c152_passes im ker mdl hk gain tol lower upper maxiter hf h
  have e : t = if o.tol = true then o.iterations - 1 else o.iterations := by
    cases ht : o.tol with
    | true => rw [if_pos rfl, h4 ht]; omega
    | false => rw [if_neg (by simp), (h5 ht).2]; exact (h5 ht).1
  rw [show o.res = left im ker o.x from funext h3, h2, comp_iter, e]

/-- **C152.**  When no component of the kernel makes that factor larger than `r`, no pixel of the residual is larger than `r` to the
number of passes times the mean magnitude of the components of what was left at the start. -/
theorem c152_converges {n m : Nat} (im ker mdl : Im2 n m) (hk : ∃ p, ker p ≠ 0) (gain tol lower upper : ℝ) (maxiter : Nat)
    (hf : Free im ker gain lower upper maxiter mdl) {o : LsqOut (Fin (n + 1) × Fin (m + 1)) ℝ}
    (h : (lsqOf im ker none gain tol lower upper).run mdl maxiter = some o) (ht : o.tol = false) (r : ℝ)
    (hr : ∀ k l, ‖1 - ((gain / (2 * Real.sqrt (∑ y, ker y ^ 2)) : ℝ) : ℂ) * comp ker k l‖ ≤ r) (p : Fin (n + 1) × Fin (m + 1)) :
    |o.res p| ≤ r ^ maxiter * ((∑ k, ∑ l, ‖comp (left im ker mdl) k l‖) / ((n + 1) * (m + 1))) := by
  obtain ⟨t, -, h2, h3, -, h5⟩ := c152_passes im ker mdl hk gain tol lower upper maxiter hf h
  have e := (h5 ht).1
  refine (pixel_le o.res p).trans ?_
  rw [← mul_div_assoc]
  apply div_le_div_of_nonneg_right _ (by positivity)
  rw [Finset.mul_sum]
  refine Finset.sum_le_sum fun k _ => ?_
  rw [Finset.mul_sum]
  refine Finset.sum_le_sum fun l _ => ?_
  rw [show o.res = left im ker o.x from funext h3, h2, comp_iter, norm_mul, norm_pow, e]
  exact mul_le_mul_of_nonneg_right (pow_le_pow_left₀ (norm_nonneg _) (hr k l) _) (norm_nonneg _)


/-! ### With an area -/

/-- one pass with an area: the part of what is left is multiplied by the area, its fraction cut off -/
noncomputable def raiseIn {n m : Nat} (im ker : Im2 n m) (area : Fin (n + 1) × Fin (m + 1) → ℚ) (gain : ℝ) (x : Im2 n m) : Im2 n m := fun p =>
  x p + gain / (2 * Real.sqrt (∑ y, ker y ^ 2)) * (left im ker x p * (if 0 ≤ area p then ⌊area p⌋ else ⌈area p⌉ : ℤ))

theorem cut_eq (a : ℚ) : a.num.tdiv a.den = if 0 ≤ a then ⌊a⌋ else ⌈a⌉ := by
  by_cases h : 0 ≤ a
  · rw [if_pos h, Rat.floor_def']
    exact Int.tdiv_eq_ediv_of_nonneg (Rat.num_nonneg.mpr h)
  · rw [if_neg h]
    have hn : 0 ≤ -a := by linarith
    have e : ⌈a⌉ = -⌊-a⌋ := by rw [Int.floor_neg, neg_neg]
    rw [e, Rat.floor_def']
    have h1 : (-a).num / ((-a).den : ℤ) = (-a).num.tdiv (-a).den := (Int.tdiv_eq_ediv_of_nonneg (Rat.num_nonneg.mpr hn)).symm
    rw [h1, Rat.neg_num, Rat.neg_den, Int.neg_tdiv, neg_neg]

theorem updateIn_eq {n m : Nat} {im ker : Im2 n m} (hk : ∃ p, ker p ≠ 0) (area : Fin (n + 1) × Fin (m + 1) → ℚ) (gain tol : ℝ) {lower upper : ℝ} {x : Im2 n m}
    (hb : ∀ p, lower ≤ raiseIn im ker area gain x p ∧ raiseIn im ker area gain x p ≤ upper) :
    (lsqOf im ker (some area) gain tol lower upper).update x = raiseIn im ker area gain x := by
  funext p
  have hq := kerGain_pos hk
  have hd : (lsqOf im ker (some area) gain tol lower upper).diff x p = left im ker x p * (if 0 ≤ area p then ⌊area p⌋ else ⌈area p⌉ : ℤ) := by
    show (im p - through ker x p) * (((area p).num.tdiv (area p).den : ℤ) : ℝ) = _
    rw [through_eq, cut_eq]
    rfl
  unfold Lsq.update
  simp only [hd]
  generalize hdd : left im ker x p * ((if 0 ≤ area p then ⌊area p⌋ else ⌈area p⌉ : ℤ) : ℝ) = d
  show clip lower upper (x p + gain * (if 0 < |-2 * kerGain ker * d| then -(1 / (-2 * kerGain ker * d)) * (d * d) else 0)) = _
  have e : x p + gain * (if 0 < |-2 * kerGain ker * d| then -(1 / (-2 * kerGain ker * d)) * (d * d) else 0) = raiseIn im ker area gain x p := by
    unfold raiseIn
    rw [hdd, kerGain_eq]
    generalize Real.sqrt (∑ y, ker y ^ 2) = q at hq
    by_cases hd : d = 0
    · rw [hd]
      simp
    · rw [if_pos (by rw [abs_pos]; exact mul_ne_zero (mul_ne_zero (by norm_num) hq.ne') hd)]
      field_simp
  rw [e]
  unfold clip
  rw [max_eq_left (hb p).1, min_eq_left (hb p).2]

theorem loop_iterate {ι : Type} [Fintype ι] (a : Lsq ι ℝ) (F : (ι → ℝ) → ι → ℝ) : ∀ (k i : Nat) (x : ι → ℝ) (score : ℝ),
    (∀ t, t < k → a.update (F^[t] x) = F^[t + 1] x) →
      ∃ t, t ≤ k ∧ (a.loop k i x score).1 = F^[t] x ∧ ((a.loop k i x score).2.2.2 = false → t = k) := by
  intro k
  induction k with
  | zero => intro i x score _; exact ⟨0, le_refl _, rfl, fun _ => rfl⟩
  | succ k ih =>
    intro i x score hf
    rw [Lsq.loop]
    by_cases hd : a.done score (a.score x) = true
    · simp only [hd, if_true]
      exact ⟨0, Nat.zero_le _, rfl, (fun h => by cases h)⟩
    · simp only [hd]
      have hu : a.update x = F x := hf 0 (Nat.succ_pos _)
      obtain ⟨t, h1, h2, h4⟩ := ih (i + 1) (a.update x) (a.score x) (by
        intro t ht
        have := hf (t + 1) (Nat.succ_lt_succ ht)
        rw [hu, ← Function.iterate_succ_apply, ← Function.iterate_succ_apply]
        exact this)
      refine ⟨t + 1, by omega, ?_, fun h => by have := h4 h; omega⟩
      rw [Function.iterate_succ_apply, ← hu]
      exact h2

/-- **C152.**  With an area, the raise of each pixel is multiplied by the area there, its fraction cut off; outside the area (or where it is below one) the
model returned is the one that was given.  `lower` and `upper` are not to be met. -/
theorem c152_area {n m : Nat} (im ker mdl : Im2 n m) (hk : ∃ p, ker p ≠ 0) (area : Fin (n + 1) × Fin (m + 1) → ℚ) (gain tol lower upper : ℝ) (maxiter : Nat)
    (hf : ∀ t, t < maxiter → ∀ p, lower ≤ (raiseIn im ker area gain)^[t + 1] mdl p ∧ (raiseIn im ker area gain)^[t + 1] mdl p ≤ upper)
    {o : LsqOut (Fin (n + 1) × Fin (m + 1)) ℝ} (h : (lsqOf im ker (some area) gain tol lower upper).run mdl maxiter = some o) :
    (∃ t, t ≤ maxiter ∧ o.x = (raiseIn im ker area gain)^[t] mdl ∧ (o.tol = false → t = maxiter)) ∧
      (∀ p, o.res p = left im ker o.x p) ∧ ∀ p, |area p| < 1 → o.x p = mdl p := by
  cases maxiter with
  | zero => cases h
  | succ k =>
    simp only [Lsq.run, Option.some.injEq] at h
    subst h
    obtain ⟨t, h1, h2, h4⟩ := loop_iterate (lsqOf im ker (some area) gain tol lower upper) (raiseIn im ker area gain) (k + 1) 0 mdl 0 (by
      intro t ht
      rw [Function.iterate_succ_apply']
      refine updateIn_eq hk area gain tol fun p => ?_
      rw [← Function.iterate_succ_apply' (f := raiseIn im ker area gain)]
      exact hf t ht p)
    refine ⟨⟨t, h1, h2, h4⟩, fun p => ?_, fun p hp => ?_⟩
    · show im p - through ker _ p = _
      rw [through_eq]
      rfl
    · show ((lsqOf im ker (some area) gain tol lower upper).loop (k + 1) 0 mdl 0).1 p = mdl p
      rw [h2]
      clear h1 h2 h4
      have hz : (if 0 ≤ area p then ⌊area p⌋ else ⌈area p⌉ : ℤ) = 0 := by
        rw [abs_lt] at hp
        by_cases h0 : 0 ≤ area p
        · rw [if_pos h0, Int.floor_eq_zero_iff]
          exact ⟨h0, hp.2⟩
        · rw [if_neg h0, Int.ceil_eq_zero_iff]
          exact ⟨hp.1, by linarith⟩
      induction t with
      | zero => rfl
      | succ t ih =>
        rw [Function.iterate_succ_apply', ← ih]
        show _ + _ * (_ * (((if 0 ≤ area p then ⌊area p⌋ else ⌈area p⌉ : ℤ) : ℤ) : ℝ)) = _
        rw [hz, Int.cast_zero, mul_zero, mul_zero, add_zero]

/-- a kernel with one pixel -/
def spike {n m : Nat} (c : ℝ) (z : Fin (n + 1) × Fin (m + 1)) : Im2 n m := fun p => if p = z then c else 0

theorem seen_spike {n m : Nat} (c : ℝ) (x : Im2 n m) (p : Fin (n + 1) × Fin (m + 1)) : seen (spike c 0) x p = c * x p := by
  unfold seen spike
  rw [Finset.sum_eq_single p]
  · simp
  · intro y _ hy
    rw [if_neg (fun h => hy (sub_eq_zero.mp h).symm), zero_mul]
  · intro h
    exact absurd (Finset.mem_univ p) h

theorem spike_gain {n m : Nat} (c : ℝ) (z : Fin (n + 1) × Fin (m + 1)) : Real.sqrt (∑ y, spike c z y ^ 2) = |c| := by
  rw [Finset.sum_eq_single z]
  · unfold spike
    rw [if_pos rfl, Real.sqrt_sq_eq_abs]
  · intro y _ hy
    unfold spike
    rw [if_neg hy]
    simp
  · intro h
    exact absurd (Finset.mem_univ z) h

theorem spike_ne {n m : Nat} {c : ℝ} (hc : c ≠ 0) (z : Fin (n + 1) × Fin (m + 1)) : ∃ p, spike c z p ≠ 0 :=
  ⟨z, by unfold spike; rw [if_pos rfl]; exact hc⟩

theorem spike_step {n m : Nat} {c : ℝ} (hc : 0 < c) (im x : Im2 n m) (gain : ℝ) (p : Fin (n + 1) × Fin (m + 1)) :
    left im (spike c 0) (raise im (spike c 0) gain x) p = (1 - gain / 2) * left im (spike c 0) x p := by
  rw [left_raise, seen_spike, spike_gain, abs_of_pos hc]
  field_simp

theorem spike_iter {n m : Nat} {c : ℝ} (hc : 0 < c) (im x : Im2 n m) (gain : ℝ) (p : Fin (n + 1) × Fin (m + 1)) : ∀ t,
    left im (spike c 0) ((raise im (spike c 0) gain)^[t] x) p = (1 - gain / 2) ^ t * left im (spike c 0) x p
  | 0 => by simp
  | t + 1 => by
    rw [Function.iterate_succ_apply', spike_step hc, spike_iter hc im x gain p t, pow_succ]
    ring

/-- **C152.**  The kernel for which the docstring says that the method is made, one pixel at the origin: half of `gain` of what is left is
taken away in every pass, in every pixel. -/
theorem c152_spike {n m : Nat} (im mdl : Im2 n m) {c : ℝ} (hc : 0 < c) (gain tol lower upper : ℝ) (maxiter : Nat)
    (hf : Free im (spike c 0) gain lower upper maxiter mdl) {o : LsqOut (Fin (n + 1) × Fin (m + 1)) ℝ}
    (h : (lsqOf im (spike c 0) none gain tol lower upper).run mdl maxiter = some o) (ht : o.tol = false) (p : Fin (n + 1) × Fin (m + 1)) :
    o.res p = (1 - gain / 2) ^ maxiter * (im p - c * mdl p) := by
  obtain ⟨t, -, h2, h3, -, h5⟩ := c152_passes im (spike c 0) mdl (spike_ne hc.ne' 0) gain tol lower upper maxiter hf h
  rw [h3, h2, spike_iter hc, (h5 ht).1]
  unfold left
  rw [seen_spike]

theorem score_spike {n m : Nat} {c : ℝ} (hc : 0 < c) (im x : Im2 n m) (gain tol lower upper : ℝ) :
    (lsqOf im (spike c 0) none gain tol lower upper).score (raise im (spike c 0) gain x) =
      (1 - gain / 2) ^ 2 * (lsqOf im (spike c 0) none gain tol lower upper).score x := by
  unfold Lsq.score avgSq
  simp only [diff_eq]
  rw [← mul_div_assoc, Finset.mul_sum]
  congr 1
  refine Finset.sum_congr rfl fun p _ => ?_
  rw [spike_step hc]
  ring

theorem loop_never {n m : Nat} {c : ℝ} (hc : 0 < c) (im : Im2 n m) {gain tol lower upper : ℝ} (hg : 0 < gain) (hg' : gain < 2) (htol : tol ≤ gain) :
    ∀ (k i : Nat) (x : Im2 n m) (score : ℝ), Free im (spike c 0) gain lower upper k x →
      score * (1 - gain / 2) ^ 2 = (lsqOf im (spike c 0) none gain tol lower upper).score x →
      ((lsqOf im (spike c 0) none gain tol lower upper).loop k i x score).2.2.2 = false := by
  intro k
  induction k with
  | zero => intro i x score _ _; rfl
  | succ k ih =>
    intro i x score hf hs
    rw [Lsq.loop]
    have hd : ¬ (lsqOf im (spike c 0) none gain tol lower upper).done score ((lsqOf im (spike c 0) none gain tol lower upper).score x) = true := by
      unfold Lsq.done
      simp only [Bool.and_eq_true, decide_eq_true_eq, not_and, not_lt]
      intro hn
      show tol ≤ _
      rw [← hs] at hn ⊢
      have hs0 : score ≠ 0 := fun h => hn (by rw [h, zero_mul])
      have hp : 0 < (1 - gain / 2) ^ 2 := by
        have : 0 < 1 - gain / 2 := by linarith
        positivity
      rw [show score / (score * (1 - gain / 2) ^ 2) = 1 / (1 - gain / 2) ^ 2 by field_simp]
      have h1 : 1 + gain ≤ 1 / (1 - gain / 2) ^ 2 := by
        rw [le_div_iff₀ hp]
        nlinarith [mul_pos hg hg, mul_pos (mul_pos hg hg) hg]
      rw [abs_sub_comm]
      exact htol.trans (le_trans (by linarith) (le_abs_self _))
    simp only [hd]
    have hu := update_eq (spike_ne hc.ne' 0) gain tol (x := x) (fun p => hf 0 (Nat.succ_pos _) p)
    refine ih (i + 1) _ _ ?_ ?_
    · intro t ht p
      rw [hu, ← Function.iterate_succ_apply]
      exact hf (t + 1) (Nat.succ_lt_succ ht) p
    · rw [hu, score_spike hc, mul_comm]

/-- **C152.**  On such a kernel the fractional change of the score is the same in every pass and larger than `gain`: with `tol` at most
`gain`, as by default (`.001` and `.1`), `lsq` never ends because of `tol`; it always makes `maxiter` passes. -/
theorem c152_never {n m : Nat} (im mdl : Im2 n m) {c : ℝ} (hc : 0 < c) {gain tol lower upper : ℝ} (hg : 0 < gain) (hg' : gain ≤ 1) (htol : tol ≤ gain) (maxiter : Nat)
    (hf : Free im (spike c 0) gain lower upper maxiter mdl) {o : LsqOut (Fin (n + 1) × Fin (m + 1)) ℝ}
    (h : (lsqOf im (spike c 0) none gain tol lower upper).run mdl maxiter = some o) : o.tol = false ∧ o.iterations = maxiter := by
  have key : o.tol = false := by
    cases maxiter with
    | zero => cases h
    | succ k =>
      simp only [Lsq.run, Option.some.injEq] at h
      subst h
      show ((lsqOf im (spike c 0) none gain tol lower upper).loop (k + 1) 0 mdl 0).2.2.2 = false
      rw [Lsq.loop]
      have hd : ¬ (lsqOf im (spike c 0) none gain tol lower upper).done 0 ((lsqOf im (spike c 0) none gain tol lower upper).score mdl) = true := by
        unfold Lsq.done
        simp only [Bool.and_eq_true, decide_eq_true_eq, not_and, not_lt]
        intro _
        show tol ≤ _
        rw [zero_div, sub_zero, abs_one]
        linarith
      simp only [hd]
      have hu := update_eq (spike_ne hc.ne' 0) gain tol (x := mdl) (fun p => hf 0 (Nat.succ_pos _) p)
      refine loop_never hc im hg (by linarith) htol k 1 _ _ ?_ ?_
      · intro t ht p
        rw [hu, ← Function.iterate_succ_apply]
        exact hf (t + 1) (Nat.succ_lt_succ ht) p
      · rw [hu, score_spike hc, mul_comm]
  obtain ⟨t, -, -, -, -, h5⟩ := c152_passes im (spike c 0) mdl (spike_ne hc.ne' 0) gain tol lower upper maxiter hf h
  exact ⟨key, (h5 key).2⟩

/-! ### A kernel whose peak is not at the origin -/

/-- an image of two pixels -/
def two (a b : ℝ) : Im2 1 0 := fun p => if p.1 = 0 then a else b

theorem seen_two (a b : ℝ) : seen (spike 1 (1, 0)) (two a b) = two b a := by
  funext p
  unfold seen
  rw [Fintype.sum_prod_type]
  obtain ⟨i, j⟩ := p
  fin_cases i <;> fin_cases j <;> simp [Fin.sum_univ_two, spike, two, show (-1 : Fin 2) = 1 by decide]

theorem two_eta (x : Im2 1 0) : x = two (x (0, 0)) (x (1, 0)) := by
  funext p
  obtain ⟨i, j⟩ := p
  fin_cases i <;> fin_cases j <;> simp [two]

theorem update_two (gain lower upper a b : ℝ) :
    (lsqOf (two 3 1) (spike 1 (1, 0)) none gain 0 lower upper).update (two a b) =
      two (clip lower upper (a + gain / 2 * (3 - b))) (clip lower upper (b + gain / 2 * (1 - a))) := by
  have key : ∀ p, (lsqOf (two 3 1) (spike 1 (1, 0)) none gain 0 lower upper).update (two a b) p =
      clip lower upper (two a b p + gain / 2 * (two 3 1 p - two b a p)) := by
    intro p
    unfold Lsq.update
    simp only [diff_eq]
    have hl : left (two 3 1) (spike 1 (1, 0)) (two a b) p = two 3 1 p - two b a p := by
      unfold left
      rw [seen_two]
    show clip lower upper (two a b p + gain * (if 0 < |-2 * kerGain (spike 1 (1, 0)) * left (two 3 1) (spike 1 (1, 0)) (two a b) p| then
      -(1 / (-2 * kerGain (spike 1 (1, 0)) * left (two 3 1) (spike 1 (1, 0)) (two a b) p)) *
        (left (two 3 1) (spike 1 (1, 0)) (two a b) p * left (two 3 1) (spike 1 (1, 0)) (two a b) p) else 0)) = _
    rw [kerGain_eq, spike_gain, abs_one, hl]
    generalize two 3 1 p - two b a p = d
    congr 1
    by_cases hd : d = 0
    · rw [hd]
      simp
    · rw [if_pos (by rw [abs_pos]; exact mul_ne_zero (by norm_num) hd)]
      field_simp
  funext p
  rw [key]
  obtain ⟨i, j⟩ := p
  fin_cases i <;> fin_cases j <;> simp [two]

theorem loop_two {gain lower upper : ℝ} (hg : 0 < gain) (hg' : gain ≤ 2) (hl1 : lower ≤ 1) (hu : 1 ≤ upper) :
    ∀ (k i : Nat) (a b score : ℝ), b ≤ a → b ≤ 1 →
      ((lsqOf (two 3 1) (spike 1 (1, 0)) none gain 0 lower upper).loop k i (two a b) score).2.2.2 = false ∧
      (lower ≤ a → min (a + gain * k) upper ≤ ((lsqOf (two 3 1) (spike 1 (1, 0)) none gain 0 lower upper).loop k i (two a b) score).1 (0, 0)) := by
  intro k
  induction k with
  | zero =>
    intro i a b score _ _
    refine ⟨rfl, fun _ => ?_⟩
    show min (a + gain * ((0 : Nat) : ℝ)) upper ≤ two a b (0, 0)
    simp [two]
  | succ k ih =>
    intro i a b score hab hb
    rw [Lsq.loop]
    have hd : ¬ (lsqOf (two 3 1) (spike 1 (1, 0)) none gain 0 lower upper).done score
        ((lsqOf (two 3 1) (spike 1 (1, 0)) none gain 0 lower upper).score (two a b)) = true := by
      unfold Lsq.done
      simp only [Bool.and_eq_true, decide_eq_true_eq, not_and, not_lt]
      intro _
      exact abs_nonneg _
    simp only [hd]
    rw [update_two]
    have h1 : b + gain / 2 * (1 - a) ≤ a + gain / 2 * (3 - b) := by nlinarith
    have h2 : b + gain / 2 * (1 - a) ≤ 1 := by nlinarith
    have hlu : lower ≤ upper := hl1.trans hu
    obtain ⟨e1, e2⟩ := ih (i + 1) (clip lower upper (a + gain / 2 * (3 - b))) (clip lower upper (b + gain / 2 * (1 - a)))
      ((lsqOf (two 3 1) (spike 1 (1, 0)) none gain 0 lower upper).score (two a b))
      (by unfold clip; exact min_le_min_right _ (max_le_max_right _ h1))
      (by unfold clip; exact (min_le_left _ _).trans (max_le h2 hl1))
    refine ⟨e1, fun hla => ?_⟩
    refine le_trans ?_ (e2 (by unfold clip; exact le_min (le_max_right _ _) hlu))
    have h3 : a + gain ≤ a + gain / 2 * (3 - b) := by nlinarith
    apply le_min _ (min_le_right _ _)
    unfold clip
    push_cast
    have hk : 0 ≤ gain * (k : ℝ) := by positivity
    by_cases hc : max (a + gain / 2 * (3 - b)) lower ≤ upper
    · rw [min_eq_left hc]
      have := le_max_left (a + gain / 2 * (3 - b)) lower
      refine (min_le_left _ _).trans ?_
      linarith
    · rw [min_eq_right (not_le.mp hc).le]
      refine (min_le_right _ _).trans ?_
      linarith

/-- **C152.**  A kernel of one pixel that is not at the origin: the image `3, 1` is exactly the kernel on the model `1, 3`, which lies within the
bounds; yet from the default model of zeros the first pixel of the model grows by at least `gain` in every pass, until it meets `upper`
(infinity by default). -/
theorem c152_offcentre_violated {gain lower upper : ℝ} (hg : 0 < gain) (hg' : gain ≤ 2) (hl1 : lower ≤ 1) (hu : 3 ≤ upper) (maxiter : Nat)
    (hm : 0 < maxiter) :
    (∀ p, left (two 3 1) (spike 1 (1, 0)) (two 1 3) p = 0 ∧ lower ≤ two 1 3 p ∧ two 1 3 p ≤ upper) ∧
    ∃ o, (lsqOf (two 3 1) (spike 1 (1, 0)) none gain 0 lower upper).run (fun _ => 0) maxiter = some o ∧
      min (gain * maxiter) upper ≤ o.x (0, 0) := by
  constructor
  · intro p
    unfold left
    rw [seen_two]
    obtain ⟨i, j⟩ := p
    fin_cases i <;> fin_cases j <;> simp [two] <;> constructor <;> linarith
  · obtain ⟨k, rfl⟩ : ∃ k, maxiter = k + 1 := ⟨maxiter - 1, by omega⟩
    refine ⟨_, rfl, ?_⟩
    show min (gain * ((k + 1 : Nat) : ℝ)) upper ≤ ((lsqOf (two 3 1) (spike 1 (1, 0)) none gain 0 lower upper).loop (k + 1) 0 (fun _ => 0) 0).1 (0, 0)
    have hz : (fun _ => 0 : Im2 1 0) = two 0 0 := by
      funext p
      simp [two]
    rw [hz, Lsq.loop]
    have hd : ¬ (lsqOf (two 3 1) (spike 1 (1, 0)) none gain 0 lower upper).done 0
        ((lsqOf (two 3 1) (spike 1 (1, 0)) none gain 0 lower upper).score (two 0 0)) = true := by
      unfold Lsq.done
      simp only [Bool.and_eq_true, decide_eq_true_eq, not_and, not_lt]
      intro _
      exact abs_nonneg _
    simp only [hd]
    rw [update_two]
    have hlu : lower ≤ upper := by linarith
    obtain ⟨-, e2⟩ := loop_two hg hg' hl1 (by linarith : (1 : ℝ) ≤ upper) k 1 (clip lower upper (0 + gain / 2 * (3 - 0))) (clip lower upper (0 + gain / 2 * (1 - 0)))
      ((lsqOf (two 3 1) (spike 1 (1, 0)) none gain 0 lower upper).score (two 0 0))
      (by unfold clip; exact min_le_min_right _ (max_le_max_right _ (by linarith)))
      (by unfold clip; exact (min_le_left _ _).trans (max_le (by linarith) hl1))
    refine le_trans ?_ (e2 (by unfold clip; exact le_min (le_max_right _ _) hlu))
    apply le_min _ (min_le_right _ _)
    refine (min_le_left _ _).trans ?_
    have : gain ≤ clip lower upper (0 + gain / 2 * (3 - 0)) := by
      unfold clip
      exact le_min (le_trans (by linarith) (le_max_left _ _)) (by linarith)
    push_cast
    linarith

/-! ### Examples -/

/-- one pixel, the model starts from zero: the bounds `0, 1` are not met -/
theorem free_one (N : Nat) : Free (fun _ => 1 : Im2 0 0) (spike 1 0) (1 / 10) 0 1 N (fun _ => 0) := by
  intro t _ p
  have h := spike_iter one_pos (fun _ => 1 : Im2 0 0) (fun _ => 0) (1 / 10) p (t + 1)
  unfold left at h
  rw [seen_spike, seen_spike] at h
  have h1 : (0 : ℝ) ≤ (1 - 1 / 10 / 2) ^ (t + 1) := by norm_num
  have h2 : ((1 : ℝ) - 1 / 10 / 2) ^ (t + 1) ≤ 1 := pow_le_one₀ (by norm_num) (by norm_num)
  constructor <;> linarith

example : ∃ o, (lsqOf (fun _ => 1 : Im2 0 0) (spike 1 0) none (1 / 10) (1 / 1000) 0 1).run (fun _ => 0) 200 = some o ∧
    o.tol = false ∧ o.iterations = 200 ∧ ∀ p, o.res p = (19 / 20) ^ 200 := by
  refine ⟨_, rfl, ?_⟩
  have h := c152_never (fun _ => 1 : Im2 0 0) (fun _ => 0) one_pos (gain := 1 / 10) (tol := 1 / 1000) (lower := 0) (upper := 1)
    (by norm_num) (by norm_num) (by norm_num) 200 (free_one 200) rfl
  refine ⟨h.1, h.2, fun p => ?_⟩
  rw [c152_spike (fun _ => 1 : Im2 0 0) (fun _ => 0) one_pos (1 / 10) (1 / 1000) 0 1 200 (free_one 200) rfl h.1 p]
  norm_num

example : ∃ o, (lsqOf (two 3 1) (spike 1 (1, 0)) none (1 / 10) 0 0 1000).run (fun _ => 0) 200 = some o ∧ 20 ≤ o.x (0, 0) := by
  obtain ⟨o, h, h'⟩ := (c152_offcentre_violated (gain := 1 / 10) (lower := 0) (upper := 1000) (by norm_num) (by norm_num) (by norm_num) (by norm_num) 200
    (by norm_num)).2
  refine ⟨o, h, le_trans ?_ h'⟩
  norm_num

theorem comp_spike {n m : Nat} (c : ℝ) (k : Fin (n + 1)) (l : Fin (m + 1)) : comp (spike c 0) k l = c := by
  unfold comp spike
  rw [Finset.sum_eq_single 0, Finset.sum_eq_single 0]
  · rw [if_pos (by rfl)]
    simp
  · intro j _ hj
    rw [if_neg (fun h => hj (congrArg Prod.snd h))]
    simp
  · intro h
    exact absurd (Finset.mem_univ _) h
  · intro i _ hi
    refine Finset.sum_eq_zero fun j _ => ?_
    rw [if_neg (fun h => hi (congrArg Prod.fst h))]
    simp
  · intro h
    exact absurd (Finset.mem_univ _) h

/-- `c152_components` and `c152_converges` apply to that pixel with the defaults of `gain` and `tol` -/
example : ∃ o, (lsqOf (fun _ => 1 : Im2 0 0) (spike 1 0) none (1 / 10) (1 / 1000) 0 1).run (fun _ => 0) 200 = some o ∧
    ∀ p, |o.res p| ≤ (19 / 20) ^ 200 * ((∑ k, ∑ l, ‖comp (left (fun _ => 1 : Im2 0 0) (spike 1 0) (fun _ => 0)) k l‖) / (((0 : Nat) + 1) * ((0 : Nat) + 1))) := by
  refine ⟨_, rfl, ?_⟩
  have h := c152_never (fun _ => 1 : Im2 0 0) (fun _ => 0) one_pos (gain := 1 / 10) (tol := 1 / 1000) (lower := 0) (upper := 1)
    (by norm_num) (by norm_num) (by norm_num) 200 (free_one 200) rfl
  refine c152_converges _ _ _ (spike_ne one_ne_zero 0) _ _ _ _ 200 (free_one 200) rfl h.1 (19 / 20) fun k l => ?_
  rw [comp_spike, spike_gain, abs_one, Complex.ofReal_one, mul_one, ← Complex.ofReal_one, ← Complex.ofReal_sub, Complex.norm_real]
  norm_num

/-- two pixels, the second outside the area: by `c152_area` it keeps the zero that was given -/
example : ∃ o, (lsqOf (two 3 1) (spike 1 0) (some fun p => if p.1 = 0 then 3 / 2 else 1 / 2) (1 / 10) (1 / 1000) 0 1000).run (fun _ => 0) 1 = some o ∧
    o.x (1, 0) = 0 := by
  refine ⟨_, rfl, ?_⟩
  have h := (c152_area (two 3 1) (spike 1 0) (fun _ => 0) (spike_ne one_ne_zero 0) (fun p => if p.1 = 0 then 3 / 2 else 1 / 2) (1 / 10) (1 / 1000) 0 1000 1
    (by
      intro t ht p
      obtain rfl : t = 0 := by omega
      have hf : ⌊(3 / 2 : ℚ)⌋ = 1 := by rw [Int.floor_eq_iff]; norm_num
      have hf' : ⌊(1 / 2 : ℚ)⌋ = 0 := by rw [Int.floor_eq_iff]; norm_num
      rw [Function.iterate_one]
      unfold raiseIn left
      rw [spike_gain, seen_spike]
      by_cases e : p.1 = 0
      · simp only [e, if_true, two]
        rw [if_pos (by norm_num), hf]
        norm_num
      · simp only [e, if_false, two]
        rw [if_pos (by norm_num), hf']
        norm_num) rfl).2.2 (1, 0)
  exact h (by norm_num)

end Verif.Deconv.Fit
