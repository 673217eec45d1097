import Verif.Img.GridFlux
import Verif.Img.Imaging
/-!
# Property C148: the image of samples at any places in the uv plane

`Img.put` (`GridModel.lean`) followed by the inverse transform (`Pixels.lean`, `Imaging.lean`), for samples that need not stand on points
of the grid.  Nothing new is modelled here: the theorems are about the definitions of those modules.
-/
set_option linter.unusedVariables false
set_option linter.unusedSimpArgs false
noncomputable section
namespace Verif.Img
open Finset

/-! ## Specification -/

/-- the direct Fourier sum of samples towards (l,m), without any gridding -/
def fourierSum (uv : List (ℝ × ℝ)) (data : List ℂ) (lm : ℝ × ℝ) : ℂ :=
  ((uv.zip data).map (fun s => s.2 * Complex.exp (-(2 * Real.pi * Complex.I * ((s.1.1 * lm.1 + s.1.2 * lm.2 : ℝ) : ℂ))))).sum

/-- the transform of the Gaussian of width 1/2 and area one, at `t` image widths from the phase centre -/
def fade (t : ℝ) : ℝ := Real.exp (-(Real.pi ^ 2 * t ^ 2 / 2))

/-- the same for the nearest copy of the pixel, one image width on -/
def ghost (t : ℝ) : ℝ := Real.exp (-(Real.pi ^ 2 * (1 - |t|) ^ 2 / 2))

/-! ## One axis -/

theorem poisson_at (x t : ℝ) : (norm1 : ℂ) * ∑' j : ℤ, (Real.exp (-2 * (x - j) ^ 2) : ℂ) * turn ((j - x) * t) =
    ∑' k : ℤ, (Real.exp (-(Real.pi ^ 2 * (k + t) ^ 2 / 2)) : ℂ) * turn (k * x) := by
  have hpi := Real.pi_pos
  have hp0 : (Real.pi : ℂ) ≠ 0 := by exact_mod_cast hpi.ne'
  have h := Complex.tsum_exp_neg_quadratic (a := ((Real.pi / 2 : ℝ) : ℂ)) (by rw [Complex.ofReal_re]; positivity)
    (Complex.I * x - Real.pi * t / 2)
  have e2 : (1 : ℂ) / ((Real.pi / 2 : ℝ) : ℂ) ^ (1 / 2 : ℂ) = (norm1 : ℂ) := by
    have : ((Real.pi / 2 : ℝ) : ℂ) ^ (1 / 2 : ℂ) = ((Real.sqrt (Real.pi / 2) : ℝ) : ℂ) := by
      rw [Real.sqrt_eq_rpow, Complex.ofReal_cpow (by positivity)]
      push_cast
      rfl
    rw [this, norm1, ← Complex.ofReal_one, ← Complex.ofReal_div]
    congr 1
    rw [one_div, ← Real.sqrt_inv, inv_div]
  rw [e2] at h
  set E : ℂ := Complex.exp (Real.pi ^ 2 * t ^ 2 / 2) with hE
  have hE0 : E ≠ 0 := Complex.exp_ne_zero _
  have l : ∀ k : ℤ, Complex.exp (-Real.pi * ((Real.pi / 2 : ℝ) : ℂ) * k ^ 2 + 2 * Real.pi * (Complex.I * x - Real.pi * t / 2) * k) =
      E * ((Real.exp (-(Real.pi ^ 2 * (k + t) ^ 2 / 2)) : ℂ) * turn (k * x)) := by
    intro k
    rw [hE, turn, Complex.ofReal_exp, ← Complex.exp_add, ← Complex.exp_add]
    congr 1
    push_cast
    ring
  have r : ∀ j : ℤ, Complex.exp (-Real.pi / ((Real.pi / 2 : ℝ) : ℂ) * (j + Complex.I * (Complex.I * x - Real.pi * t / 2)) ^ 2) =
      E * ((Real.exp (-2 * (x - j) ^ 2) : ℂ) * turn ((j - x) * t)) := by
    intro j
    have hd : -(Real.pi : ℂ) / ((Real.pi / 2 : ℝ) : ℂ) = -2 := by
      push_cast
      field_simp
    have hI : Complex.I * (Complex.I * x - Real.pi * t / 2) = -(x : ℂ) - Complex.I * (Real.pi * t / 2) := by
      rw [mul_sub, ← mul_assoc, Complex.I_mul_I]; ring
    rw [hd, hI, hE, turn, Complex.ofReal_exp, ← Complex.exp_add, ← Complex.exp_add]
    congr 1
    push_cast
    linear_combination (-(Real.pi : ℂ) ^ 2 * t ^ 2 / 2) * Complex.I_sq
  rw [tsum_congr l, tsum_congr r, tsum_mul_left, tsum_mul_left] at h
  apply mul_left_cancel₀ hE0
  rw [h]
  ring

theorem norm_turn (t : ℝ) : ‖turn t‖ = 1 := by
  unfold turn
  have : 2 * (Real.pi : ℂ) * Complex.I * t = ((2 * Real.pi * t : ℝ) : ℂ) * Complex.I := by push_cast; ring
  rw [this, Complex.norm_exp_ofReal_mul_I]

theorem ghost_term (t : ℝ) (ht : |t| ≤ 1 / 2) (k : ℤ) (hk : k ≠ 0) :
    Real.exp (-(Real.pi ^ 2 * (k + t) ^ 2 / 2)) ≤ ghost t * (10 * (1 / 10) ^ k.natAbs) := by
  have hpi := Real.pi_gt_three
  have hm : 1 ≤ k.natAbs := Nat.one_le_iff_ne_zero.2 (by omega)
  obtain ⟨m, hm2⟩ : ∃ m : ℕ, k.natAbs = m + 1 := ⟨k.natAbs - 1, by omega⟩
  have habs : |(k : ℝ)| = m + 1 := by
    have : ((k.natAbs : ℕ) : ℝ) = |(k : ℝ)| := by rw [Nat.cast_natAbs, Int.cast_abs]
    rw [← this, hm2]; push_cast; ring
  have hsq : (1 - |t|) ^ 2 + 2 * m ≤ (k + t) ^ 2 := by
    have h1 : |(k : ℝ)| - |t| ≤ |(k : ℝ) + t| := by
      have := abs_sub_abs_le_abs_sub (k : ℝ) (-t)
      rwa [abs_neg, sub_neg_eq_add] at this
    rw [habs] at h1
    have h0 := abs_nonneg t
    have hm0 : (0 : ℝ) ≤ m := Nat.cast_nonneg m
    have h2 : ((m : ℝ) + 1 - |t|) ^ 2 ≤ |(k : ℝ) + t| ^ 2 := by
      apply pow_le_pow_left₀ (by linarith) h1
    rw [sq_abs] at h2
    rcases Nat.eq_zero_or_pos m with h | h
    · subst h; simpa using h2
    · have : (1 : ℝ) ≤ m := by exact_mod_cast h
      nlinarith
  have hr : Real.exp (-(Real.pi ^ 2)) ≤ 1 / 10 := by
    have h1 : (9 : ℝ) ≤ Real.pi ^ 2 := by nlinarith
    have h2 := Real.add_one_le_exp (9 : ℝ)
    rw [Real.exp_neg, one_div]
    exact inv_anti₀ (by norm_num) ((by linarith : (10 : ℝ) ≤ Real.exp 9).trans (Real.exp_le_exp.2 h1))
  have hp : (10 : ℝ) * (1 / 10) ^ k.natAbs = (1 / 10) ^ m := by
    rw [hm2, pow_succ]; ring
  rw [hp]
  calc Real.exp (-(Real.pi ^ 2 * (k + t) ^ 2 / 2)) ≤ Real.exp (-(Real.pi ^ 2 * (1 - |t|) ^ 2 / 2) + m * -(Real.pi ^ 2)) := by
        apply Real.exp_le_exp.2
        nlinarith [sq_nonneg Real.pi]
    _ = ghost t * Real.exp (-(Real.pi ^ 2)) ^ m := by rw [Real.exp_add, ghost, Real.exp_nat_mul]
    _ ≤ _ := by
        apply mul_le_mul_of_nonneg_left _ (Real.exp_pos _).le
        exact pow_le_pow_left₀ (Real.exp_pos _).le hr m

/-- all integers together: the transform of the Gaussian, but for the copies -/
theorem whole_axis (x t : ℝ) (ht : |t| ≤ 1 / 2) :
    ‖(norm1 : ℂ) * ∑' j : ℤ, (Real.exp (-2 * (x - j) ^ 2) : ℂ) * turn ((j - x) * t) - fade t‖ ≤ 3 * ghost t := by
  rw [poisson_at]
  set F : ℤ → ℂ := fun k => (Real.exp (-(Real.pi ^ 2 * (k + t) ^ 2 / 2)) : ℂ) * turn (k * x) with hF
  have hg : 0 ≤ ghost t := (Real.exp_pos _).le
  have hs := (hasSum_pow_natAbs (q := 1 / 10) (by norm_num) (by norm_num)).mul_left (ghost t * 10)
  have hd : HasSum (fun k : ℤ => ghost t * 10 * (1 / 10) ^ k.natAbs - if k = 0 then ghost t * 10 else 0)
      (ghost t * 10 * ((1 + 1 / 10) / (1 - 1 / 10)) - ghost t * 10) := hs.sub (hasSum_ite_eq 0 _)
  have hn : ∀ k : ℤ, ‖F k‖ = Real.exp (-(Real.pi ^ 2 * (k + t) ^ 2 / 2)) := by
    intro k
    rw [hF]
    simp only
    rw [norm_mul, norm_turn, mul_one, Complex.norm_real, Real.norm_eq_abs, abs_of_pos (Real.exp_pos _)]
  have hG : ∀ k : ℤ, ‖F k - if k = 0 then (fade t : ℂ) else 0‖ ≤ ghost t * 10 * (1 / 10) ^ k.natAbs - if k = 0 then ghost t * 10 else 0 := by
    intro k
    by_cases h : k = 0
    · subst h
      simp [hF, fade, turn_zero]
    · rw [if_neg h, if_neg h, sub_zero, sub_zero, hn, mul_assoc]
      exact ghost_term t ht k h
  have hb := tsum_of_norm_bounded hd hG
  have hone : HasSum (fun k : ℤ => if k = 0 then (fade t : ℂ) else 0) (fade t) := hasSum_ite_eq 0 _
  have hFs : Summable F := by
    have := (Summable.of_norm_bounded hd.summable hG).add hone.summable
    refine this.congr fun k => ?_
    simp
  rw [hFs.tsum_sub hone.summable, hone.tsum_eq] at hb
  refine hb.trans ?_
  have : ghost t * 10 * ((1 + 1 / 10) / (1 - 1 / 10)) - ghost t * 10 = ghost t * (20 / 9) := by ring
  rw [this]
  linarith

theorem gauss_summable (x : ℝ) : Summable fun n : ℤ => Real.exp (-2 * (x - n) ^ 2) := by
  by_contra h
  have h1 := tsum_eq_zero_of_not_summable h
  have h2 := abs_le.1 (mean_one x)
  rw [h1] at h2
  norm_num at h2

/-- the footprint of one sample along one axis, as seen in the direction `t` -/
def axis (x t : ℝ) (h : Nat) : ℂ := ∑ j ∈ around x h, (Real.exp (-2 * (x - j) ^ 2) : ℂ) * turn ((j - x) * t)

theorem axis_close (x t : ℝ) (h : Nat) (hh : 3 ≤ h) (ht : |t| ≤ 1 / 2) :
    ‖(norm1 : ℂ) * axis x t h - fade t‖ ≤ 3 * ghost t + 1 / 100000 := by
  set f : ℤ → ℂ := fun j => (Real.exp (-2 * (x - j) ^ 2) : ℂ) * turn ((j - x) * t) with hf
  have hn : ∀ j, ‖f j‖ = Real.exp (-2 * (x - j) ^ 2) := by
    intro j
    rw [hf]
    simp only
    rw [norm_mul, norm_turn, mul_one, Complex.norm_real, Real.norm_eq_abs, abs_of_pos (Real.exp_pos _)]
  have hX := gauss_summable x
  have hS : Summable f := Summable.of_norm_bounded hX (fun j => (hn j).le)
  have h1 := hS.sum_add_tsum_compl (s := around x h)
  have h2 := hX.sum_add_tsum_compl (s := around x h)
  have h3 : ‖∑' j : ↑((around x h : Set ℤ)ᶜ), f j‖ ≤ ∑' j : ↑((around x h : Set ℤ)ᶜ), Real.exp (-2 * (x - (j : ℤ)) ^ 2) :=
    tsum_of_norm_bounded (hX.subtype _).hasSum (fun j => (hn j).le)
  have h4 := (mass_bounds x h hh).2
  rw [mass] at h4
  have h5 : ‖axis x t h - ∑' j, f j‖ ≤ 1 / 100000 := by
    have e : axis x t h - ∑' j, f j = -∑' j : ↑((around x h : Set ℤ)ᶜ), f j := by
      rw [← h1, axis]; ring
    rw [e, norm_neg]
    linarith
  obtain ⟨_, n1, n0⟩ := norm1_bounds
  have hw := whole_axis x t ht
  have e : (norm1 : ℂ) * axis x t h - fade t = (norm1 : ℂ) * (axis x t h - ∑' j, f j) + ((norm1 : ℂ) * ∑' j, f j - fade t) := by ring
  rw [e]
  refine (norm_add_le _ _).trans ?_
  rw [norm_mul, Complex.norm_real, Real.norm_eq_abs, abs_of_pos (by linarith)]
  nlinarith [norm_nonneg (axis x t h - ∑' j, f j)]

theorem axis_norm (x t : ℝ) (h : Nat) : ‖axis x t h‖ ≤ mass x h := by
  unfold axis mass
  refine (norm_sum_le _ _).trans (Finset.sum_le_sum fun j _ => ?_)
  rw [norm_mul, norm_turn, mul_one, Complex.norm_real, Real.norm_eq_abs, abs_of_pos (Real.exp_pos _)]

/-! ## Both axes -/

theorem kernel_axes {n : Nat} (hn : n ≠ 0) (res : ℝ) (hres : res ≠ 0) (uv : ℝ × ℝ) (q p : ℤ) :
    gridKernel res uv (lOf n res p, mOf n res q) = (63661977236758149 / 100000000000000000 : ℝ) *
      (axis (-uv.2 / res) (q / n) 3 * axis (uv.1 / res) (p / n) 3) := by
  have hc : (n : ℝ) ≠ 0 := by exact_mod_cast hn
  unfold gridKernel axis
  rw [Finset.sum_mul_sum, Finset.mul_sum]
  refine Finset.sum_congr rfl fun a _ => ?_
  rw [Finset.mul_sum]
  refine Finset.sum_congr rfl fun b _ => ?_
  have e1 : (wgt (-uv.2 / res - a) (uv.1 / res - b) : ℂ) = ((63661977236758149 / 100000000000000000 : ℝ) : ℂ) *
      ((Real.exp (-2 * (-uv.2 / res - a) ^ 2) : ℂ) * (Real.exp (-2 * (uv.1 / res - b) ^ 2) : ℂ)) := by
    rw [← Complex.ofReal_mul, ← Complex.ofReal_mul, ← Real.exp_add, wgt]
    congr 3
    ring
  have e2 : turn ((a * res + uv.2) * mOf n res q - (b * res - uv.1) * lOf n res p) =
      turn ((a - -uv.2 / res) * (q / n)) * turn ((b - uv.1 / res) * (p / n)) := by
    rw [← turn_add]
    congr 1
    unfold lOf mOf
    field_simp
    ring
  rw [e1, e2]
  ring

/-- how far the weight of a sample in a pixel can be from the transform of the Gaussian -/
theorem kernel_close {n : Nat} (hn : n ≠ 0) (res : ℝ) (hres : res ≠ 0) (uv : ℝ × ℝ) (q p : ℤ) (hq : |(q : ℝ) / n| ≤ 1 / 2)
    (hp : |(p : ℝ) / n| ≤ 1 / 2) :
    ‖gridKernel res uv (lOf n res p, mOf n res q) - (fade (q / n) * fade (p / n) : ℝ)‖ ≤
      4 * (ghost (q / n) + ghost (p / n)) + 1 / 10000 := by
  rw [kernel_axes hn res hres]
  set A := axis (-uv.2 / res) (q / n) 3 with hA
  set B := axis (uv.1 / res) (p / n) 3 with hB
  set s : ℝ := q / n with hs
  set t : ℝ := p / n with ht
  obtain ⟨m1, m2, m3⟩ := norm1_bounds
  have a1 := axis_close (-uv.2 / res) s 3 le_rfl hq
  have b1 := axis_close (uv.1 / res) t 3 le_rfl hp
  rw [← hA] at a1
  rw [← hB] at b1
  have g1 : 0 ≤ ghost s := (Real.exp_pos _).le
  have g2 : 0 ≤ ghost t := (Real.exp_pos _).le
  have f1 : 0 ≤ fade t := (Real.exp_pos _).le
  have f2 : fade t ≤ 1 := Real.exp_le_one_iff.2 (by have := sq_nonneg (Real.pi * t); nlinarith)
  have a2 : ‖A‖ ≤ 13 / 10 := by
    have h1 := axis_norm (-uv.2 / res) s 3
    have h2 := abs_le.1 (mass_one (-uv.2 / res) 3 le_rfl)
    rw [← hA] at h1
    nlinarith
  have b2 : ‖B‖ ≤ 13 / 10 := by
    have h1 := axis_norm (uv.1 / res) t 3
    have h2 := abs_le.1 (mass_one (uv.1 / res) 3 le_rfl)
    rw [← hB] at h1
    nlinarith
  have nn : ‖(norm1 : ℂ)‖ = norm1 := by rw [Complex.norm_real, Real.norm_eq_abs, abs_of_pos (by linarith)]
  have e : ((63661977236758149 / 100000000000000000 : ℝ) : ℂ) * (A * B) - ((fade s * fade t : ℝ) : ℂ) =
      ((63661977236758149 / 100000000000000000 - norm1 ^ 2 : ℝ) : ℂ) * (A * B) +
        ((norm1 : ℂ) * A * ((norm1 : ℂ) * B - fade t) + ((norm1 : ℂ) * A - fade s) * fade t) := by
    push_cast
    ring
  have c : |63661977236758149 / 100000000000000000 - norm1 ^ 2| ≤ 1 / 100000 := by
    have h1 := Real.pi_gt_d6
    have h2 := Real.pi_lt_d6
    have h3 : norm1 ^ 2 = 2 / Real.pi := by rw [norm1, Real.sq_sqrt (by positivity)]
    rw [h3, abs_le]
    constructor
    · rw [neg_le_sub_iff_le_add, div_le_iff₀ Real.pi_pos]
      nlinarith
    · rw [sub_le_iff_le_add, ← sub_le_iff_le_add', le_div_iff₀ Real.pi_pos]
      nlinarith
  rw [e]
  refine (norm_add_le _ _).trans ?_
  have t1 : ‖((63661977236758149 / 100000000000000000 - norm1 ^ 2 : ℝ) : ℂ) * (A * B)‖ ≤ 1 / 100000 * (13 / 10 * (13 / 10)) := by
    rw [norm_mul, norm_mul, Complex.norm_real, Real.norm_eq_abs]
    gcongr
  have t2 : ‖(norm1 : ℂ) * A * ((norm1 : ℂ) * B - fade t)‖ ≤ 4 / 5 * (13 / 10) * (3 * ghost t + 1 / 100000) := by
    rw [norm_mul, norm_mul, nn]
    gcongr
  have t3 : ‖((norm1 : ℂ) * A - fade s) * fade t‖ ≤ (3 * ghost s + 1 / 100000) * 1 := by
    rw [norm_mul, Complex.norm_real, Real.norm_eq_abs, abs_of_nonneg f1]
    gcongr
  have t4 := norm_add_le ((norm1 : ℂ) * A * ((norm1 : ℂ) * B - fade t)) (((norm1 : ℂ) * A - fade s) * fade t)
  linarith

theorem offset_small {n : Nat} (hn : n ≠ 0) {center : ℤ × ℤ} {i j : Nat} {q p : ℤ} (h : Offset n center i j q p) :
    |(q : ℝ) / n| ≤ 1 / 2 ∧ |(p : ℝ) / n| ≤ 1 / 2 := by
  have hc : (0 : ℝ) < n := by exact_mod_cast Nat.pos_of_ne_zero hn
  have one : ∀ z : ℤ, -(n : ℤ) < 2 * z → 2 * z ≤ n → |(z : ℝ) / n| ≤ 1 / 2 := by
    intro z h1 h2
    have a : -(n : ℝ) < 2 * z := by exact_mod_cast h1
    have b : 2 * (z : ℝ) ≤ n := by exact_mod_cast h2
    rw [abs_div, abs_of_pos hc, div_le_iff₀ hc]
    refine abs_le.2 ⟨?_, ?_⟩ <;> linarith
  exact ⟨one q h.qlo h.qhi, one p h.plo h.phi⟩

theorem sum_close {n : Nat} (hn : n ≠ 0) (res : ℝ) (hres : res ≠ 0) (q p : ℤ) (hq : |(q : ℝ) / n| ≤ 1 / 2)
    (hp : |(p : ℝ) / n| ≤ 1 / 2) : ∀ (uv : List (ℝ × ℝ)) (data : List ℂ), data.length = uv.length →
    ‖directSum res uv data (lOf n res p, mOf n res q) -
        (fade (q / n) * fade (p / n) : ℝ) * fourierSum uv data (lOf n res p, mOf n res q)‖ ≤
      (4 * (ghost (q / n) + ghost (p / n)) + 1 / 10000) * (data.map (fun d => ‖d‖)).sum := by
  intro uv
  induction uv with
  | nil =>
    intro data h
    have : data = [] := List.length_eq_zero_iff.1 h
    subst this
    simp [directSum, fourierSum]
  | cons s uv ih =>
    intro data h
    cases data with
    | nil => cases h
    | cons d data =>
      have h1 := ih data (by simpa using h)
      have h2 := kernel_close hn res hres s q p hq hp
      unfold directSum fourierSum at h1 ⊢
      simp only [List.zip_cons_cons, List.map_cons, List.sum_cons]
      set K := gridKernel res s (lOf n res p, mOf n res q)
      set G : ℂ := ((fade (q / n) * fade (p / n) : ℝ) : ℂ)
      have et : Complex.exp (-(2 * Real.pi * Complex.I * ((s.1 * lOf n res p + s.2 * mOf n res q : ℝ) : ℂ))) =
          turn (-(s.1 * lOf n res p + s.2 * mOf n res q)) := by
        unfold turn
        congr 1
        push_cast
        ring
      rw [et]
      set T := turn (-(s.1 * lOf n res p + s.2 * mOf n res q)) with hT
      have hd : ‖d * T * (K - G)‖ ≤ ‖d‖ * (4 * (ghost (q / n) + ghost (p / n)) + 1 / 10000) := by
        rw [norm_mul, norm_mul, hT, norm_turn, mul_one]
        exact mul_le_mul_of_nonneg_left h2 (norm_nonneg d)
      refine le_trans (le_of_eq ?_) ((norm_add_le (d * T * (K - G)) _).trans (add_le_add hd h1) |>.trans (le_of_eq ?_))
      · congr 1
        ring
      · ring

/-! ## C148 -/

/-- C148: visibilities at any places in the uv plane, in any number, with any weights: every pixel of the image, and of the beam image, is
the direct Fourier sum of the samples (of the weights) towards the pixel, lowered by the transform of the Gaussian, up to what the copies
of the image one width on let in. -/
theorem c148_image (n : Nat) (hn : n ≠ 0) (res : ℝ) (hres : res ≠ 0) (uv : List (ℝ × ℝ)) (data w : List ℂ)
    (hd : data.length = uv.length) (hw : w.length = uv.length) (center : ℤ × ℤ) :
    ∃ g b im bm, (Image.new n res 0).put uv data [w] = some g ∧ g.bm = [b] ∧
      genImg n g.uv center = some im ∧ genImg n b center = some bm ∧
      ∀ i j, i < n → j < n → ∀ q p, Offset n center i j q p → ∃ x y, at2 im i j = some x ∧ at2 bm i j = some y ∧
        |n ^ 2 * x - fade (q / n) * fade (p / n) * (fourierSum uv data (lOf n res p, mOf n res q)).re| ≤
          (4 * (ghost (q / n) + ghost (p / n)) + 1 / 10000) * (data.map (fun d => ‖d‖)).sum ∧
        |n ^ 2 * y - fade (q / n) * fade (p / n) * (fourierSum uv w (lOf n res p, mOf n res q)).re| ≤
          (4 * (ghost (q / n) + ghost (p / n)) + 1 / 10000) * (w.map (fun d => ‖d‖)).sum := by
  have hc : (n : ℝ) ≠ 0 := by exact_mod_cast hn
  obtain ⟨g, b, hp, e1, e2, hb⟩ := put_new hn res uv data w hd hw
  obtain ⟨im, m1, m2, m3⟩ := c75_image n hn g.uv center
  obtain ⟨bm, n1, n2, n3⟩ := c75_image n hn b center
  refine ⟨g, b, im, bm, hp, hb, m1, n1, ?_⟩
  intro i j hi hj q p ho
  obtain ⟨hq, hp'⟩ := offset_small hn ho
  refine ⟨_, _, m3 i j hi hj q p ho, n3 i j hi hj q p ho, ?_⟩
  have k := c76_direct (Image.new n res 0) g hn hres uv data [w] hp q p
  have re : ∀ (m : Nat → ℂ) (l : List ℂ), l.length = uv.length →
      invDft n m (q % n).toNat (p % n).toNat = 0 + (1 / (n * n : ℂ)) * directSum res uv l (lOf n res p, mOf n res q) →
      |n ^ 2 * (invDft n m (q % n).toNat (p % n).toNat).re -
        fade (q / n) * fade (p / n) * (fourierSum uv l (lOf n res p, mOf n res q)).re| ≤
          (4 * (ghost (q / n) + ghost (p / n)) + 1 / 10000) * (l.map (fun d => ‖d‖)).sum := by
    intro m l hl he
    have h := sum_close hn res hres q p hq hp' uv l hl
    refine le_trans ?_ h
    refine le_trans (le_of_eq ?_) (Complex.abs_re_le_norm _)
    rw [he, zero_add, Complex.sub_re, Complex.re_ofReal_mul]
    have : (1 / (n * n : ℂ)) = ((1 / (n * n : ℝ) : ℝ) : ℂ) := by push_cast; ring
    rw [this, Complex.re_ofReal_mul]
    congr 2
    field_simp
  have z : ∀ r c, invDft n (fun _ => (0 : ℂ)) r c = 0 := invDft_zero n
  constructor
  · apply re _ _ hd
    have := k.1
    rw [e1] at this
    simp only [Image.new] at this
    rw [this, z]
  · apply re _ _ hw
    obtain ⟨b', j1, j2⟩ := k.2.2 0 (fun _ => 0) w rfl rfl
    rw [hb] at j1
    simp only [List.getElem?_cons_zero, Option.some.injEq] at j1
    subst j1
    rw [e1] at j2
    simp only [Image.new] at j2
    rw [j2, z]

theorem fourier_source (S : ℝ) (lm : ℝ × ℝ) : ∀ (uv : List (ℝ × ℝ)) (w : List ℝ), w.length = uv.length →
    fourierSum uv (sourceData S lm uv w) lm = ((S * w.sum : ℝ) : ℂ) := by
  intro uv
  induction uv with
  | nil =>
    intro w h
    have : w = [] := List.length_eq_zero_iff.1 h
    subst this
    simp [fourierSum]
  | cons s uv ih =>
    intro w h
    cases w with
    | nil => cases h
    | cons t w =>
      have h1 := ih w (by simpa using h)
      unfold fourierSum sourceData at h1 ⊢
      simp only [List.zip_cons_cons, List.map_cons, List.sum_cons]
      rw [h1]
      have et : turn (s.1 * lm.1 + s.2 * lm.2) * Complex.exp (-(2 * Real.pi * Complex.I * ((s.1 * lm.1 + s.2 * lm.2 : ℝ) : ℂ))) = 1 := by
        unfold turn
        rw [← Complex.exp_add, add_neg_cancel, Complex.exp_zero]
      push_cast at et ⊢
      linear_combination (S : ℂ) * (t : ℂ) * et

theorem source_norms (S : ℝ) (lm : ℝ × ℝ) : ∀ (uv : List (ℝ × ℝ)) (w : List ℝ), w.length = uv.length →
    ((sourceData S lm uv w).map (fun d => ‖d‖)).sum = |S| * (w.map (fun t => |t|)).sum := by
  intro uv
  induction uv with
  | nil =>
    intro w h
    have : w = [] := List.length_eq_zero_iff.1 h
    subst this
    simp [sourceData]
  | cons s uv ih =>
    intro w h
    cases w with
    | nil => cases h
    | cons t w =>
      have h1 := ih w (by simpa using h)
      unfold sourceData at h1 ⊢
      simp only [List.zip_cons_cons, List.map_cons, List.sum_cons]
      rw [h1, norm_mul, norm_mul, norm_turn, Complex.norm_real, Complex.norm_real, Real.norm_eq_abs, Real.norm_eq_abs]
      ring

/-- C148: a source of flux S in any pixel, sampled at any places in the uv plane: its pixel holds the flux times the sum of the weights,
lowered by the transform of the Gaussian, up to the copies. -/
theorem c148_source (n : Nat) (hn : n ≠ 0) (res : ℝ) (hres : res ≠ 0) (uv : List (ℝ × ℝ)) (w : List ℝ) (hw : w.length = uv.length)
    (S : ℝ) (center : ℤ × ℤ) (i j : Nat) (hi : i < n) (hj : j < n) (q p : ℤ) (ho : Offset n center i j q p) :
    ∃ g im x, (Image.new n res 0).put uv (sourceData S (lOf n res p, mOf n res q) uv w) [w.map Complex.ofReal] = some g ∧
      genImg n g.uv center = some im ∧ at2 im i j = some x ∧
      |n ^ 2 * x - fade (q / n) * fade (p / n) * (S * w.sum)| ≤
        (4 * (ghost (q / n) + ghost (p / n)) + 1 / 10000) * (|S| * (w.map (fun t => |t|)).sum) := by
  obtain ⟨g, b, im, bm, h1, _, h3, _, h5⟩ := c148_image n hn res hres uv (sourceData S (lOf n res p, mOf n res q) uv w)
    (w.map Complex.ofReal) (by simp [sourceData, hw]) (by simp [hw]) center
  obtain ⟨x, y, hx, _, hk, _⟩ := h5 i j hi hj q p ho
  rw [fourier_source S _ uv w hw, source_norms S _ uv w hw, Complex.ofReal_re] at hk
  exact ⟨g, im, x, h1, h3, hx, hk⟩

theorem fourier_norm (lm : ℝ × ℝ) : ∀ (uv : List (ℝ × ℝ)) (data : List ℂ), data.length = uv.length →
    ‖fourierSum uv data lm‖ ≤ (data.map (fun d => ‖d‖)).sum := by
  intro uv
  induction uv with
  | nil =>
    intro data h
    have : data = [] := List.length_eq_zero_iff.1 h
    subst this
    simp [fourierSum]
  | cons s uv ih =>
    intro data h
    cases data with
    | nil => cases h
    | cons d data =>
      have h1 := ih data (by simpa using h)
      unfold fourierSum at h1 ⊢
      simp only [List.zip_cons_cons, List.map_cons, List.sum_cons]
      refine le_trans (norm_add_le _ _) (add_le_add (le_of_eq ?_) h1)
      rw [norm_mul, Complex.norm_exp]
      have : (-(2 * Real.pi * Complex.I * ((s.1 * lm.1 + s.2 * lm.2 : ℝ) : ℂ))).re = 0 := by
        simp [Complex.mul_re, Complex.mul_im]
      rw [this, Real.exp_zero, mul_one]

/-- C148: with weights that are not negative no pixel is brighter than that of the source, relative to the transform of the Gaussian and up to
the copies: both values are compared with the flux times the sum of the weights. -/
theorem c148_brightest (n : Nat) (hn : n ≠ 0) (res : ℝ) (hres : res ≠ 0) (uv : List (ℝ × ℝ)) (w : List ℝ) (hw : w.length = uv.length)
    (h0 : ∀ t ∈ w, 0 ≤ t) (S : ℝ) (hS : 0 ≤ S) (center : ℤ × ℤ) (i j : Nat) (hi : i < n) (hj : j < n) (q p : ℤ)
    (ho : Offset n center i j q p) :
    ∃ g im x, (Image.new n res 0).put uv (sourceData S (lOf n res p, mOf n res q) uv w) [w.map Complex.ofReal] = some g ∧
      genImg n g.uv center = some im ∧ at2 im i j = some x ∧
      (fade (q / n) * fade (p / n) - (4 * (ghost (q / n) + ghost (p / n)) + 1 / 10000)) * (S * w.sum) ≤ n ^ 2 * x ∧
      ∀ i' j', i' < n → j' < n → ∀ q' p', Offset n center i' j' q' p' → ∃ x', at2 im i' j' = some x' ∧
        n ^ 2 * |x'| ≤ (fade (q' / n) * fade (p' / n) + (4 * (ghost (q' / n) + ghost (p' / n)) + 1 / 10000)) * (S * w.sum) := by
  set D := sourceData S (lOf n res p, mOf n res q) uv w with hD
  have hl : D.length = uv.length := by simp [hD, sourceData, hw]
  obtain ⟨g, b, im, bm, h1, _, h3, _, h5⟩ := c148_image n hn res hres uv D (w.map Complex.ofReal) hl (by simp [hw]) center
  have habs : (w.map fun t => |t|).sum = w.sum := by
    congr 1
    conv_rhs => rw [← List.map_id w]
    exact List.map_congr_left fun t ht => abs_of_nonneg (h0 t ht)
  have hN : (D.map (fun d => ‖d‖)).sum = S * w.sum := by
    rw [hD, source_norms S _ uv w hw, habs, abs_of_nonneg hS]
  obtain ⟨x, y, hx, _, hk, _⟩ := h5 i j hi hj q p ho
  refine ⟨g, im, x, h1, h3, hx, ?_, ?_⟩
  · rw [hN, hD, fourier_source S _ uv w hw, Complex.ofReal_re] at hk
    have := (abs_le.1 hk).1
    rw [sub_mul]
    linarith
  · intro i' j' hi' hj' q' p' ho'
    obtain ⟨x', _, hx', _, hk', _⟩ := h5 i' j' hi' hj' q' p' ho'
    refine ⟨x', hx', ?_⟩
    have hF : 0 ≤ fade (q' / n) * fade (p' / n) := by unfold fade; positivity
    have hr : |(fourierSum uv D (lOf n res p', mOf n res q')).re| ≤ S * w.sum :=
      (Complex.abs_re_le_norm _).trans ((fourier_norm _ uv D hl).trans (le_of_eq hN))
    rw [hN] at hk'
    have ha : n ^ 2 * |x'| = |n ^ 2 * x'| := by rw [abs_mul, abs_of_nonneg (by positivity : (0 : ℝ) ≤ (n : ℝ) ^ 2)]
    have hm : |fade (q' / n) * fade (p' / n) * (fourierSum uv D (lOf n res p', mOf n res q')).re| ≤
        fade (q' / n) * fade (p' / n) * (S * w.sum) := by
      rw [abs_mul, abs_of_nonneg hF]
      exact mul_le_mul_of_nonneg_left hr hF
    rw [ha, add_mul]
    have ht := abs_sub_abs_le_abs_sub (n ^ 2 * x') (fade (q' / n) * fade (p' / n) * (fourierSum uv D (lOf n res p', mOf n res q')).re)
    linarith

/-- half-way between two cells the footprint is blind to the edge of the image -/
theorem axis_edge (k : ℤ) : axis (k + 1 / 2) (1 / 2) 3 = 0 := by
  have hr : around ((k : ℝ) + 1 / 2) 3 = Icc (k - 3) (k + 4) := by
    unfold around
    congr 1
    · rw [Int.floor_eq_iff]; push_cast; constructor <;> linarith
    · rw [Int.ceil_eq_iff]; push_cast; constructor <;> linarith
  unfold axis
  rw [hr]
  set f : ℤ → ℂ := fun j => (Real.exp (-2 * ((k : ℝ) + 1 / 2 - j) ^ 2) : ℂ) * turn ((j - ((k : ℝ) + 1 / 2)) * (1 / 2)) with hf
  have h1 : ∑ j ∈ Icc (k - 3) (k + 4), f j = ∑ j ∈ Icc (k - 3) (k + 4), f (2 * k + 1 - j) := by
    refine Finset.sum_nbij' (fun j => 2 * k + 1 - j) (fun j => 2 * k + 1 - j) ?_ ?_ ?_ ?_ ?_
    · intro j hj; rw [mem_Icc] at hj ⊢; omega
    · intro j hj; rw [mem_Icc] at hj ⊢; omega
    · intro j _; ring
    · intro j _; ring
    · intro j _; congr 1; ring
  have half : turn (1 / 2) = -1 := by
    rw [turn_eq]
    have : 2 * Real.pi * (1 / 2) = Real.pi := by ring
    rw [this, Real.cos_pi, Real.sin_pi]
    simp
  have h2 : ∀ j : ℤ, f (2 * k + 1 - j) = -f j := by
    intro j
    rw [hf]
    simp only
    have e1 : (k : ℝ) + 1 / 2 - ((2 * k + 1 - j : ℤ) : ℝ) = -((k : ℝ) + 1 / 2 - j) := by push_cast; ring
    have e2 : turn ((((2 * k + 1 - j : ℤ) : ℝ) - ((k : ℝ) + 1 / 2)) * (1 / 2)) = -turn ((j - ((k : ℝ) + 1 / 2)) * (1 / 2)) := by
      rw [turn_shift _ ((j - ((k : ℝ) + 1 / 2)) * (1 / 2) + 1 / 2) (k - j) (by push_cast; ring), turn_add, half]
      ring
    rw [e1, e2, neg_sq]
    ring
  have h3 : ∑ j ∈ Icc (k - 3) (k + 4), f j = -∑ j ∈ Icc (k - 3) (k + 4), f j := by
    rw [← Finset.sum_neg_distrib]
    exact h1.trans (Finset.sum_congr rfl fun j _ => h2 j)
  have h4 : (2 : ℂ) * ∑ j ∈ Icc (k - 3) (k + 4), f j = 0 := by linear_combination h3
  simpa using h4

/-- C148, the edge of the image: samples half-way between two columns of the uv matrix leave nothing at all of a source on the edge, whatever
its flux and their weights. -/
theorem c148_edge_violated (k : Nat) (hk : k ≠ 0) (res : ℝ) (hres : res ≠ 0) (uv : List (ℝ × ℝ)) (w : List ℝ) (hw : w.length = uv.length)
    (hu : ∀ s ∈ uv, ∃ c : ℤ, s.1 = (c + 1 / 2) * res) (S : ℝ) (center : ℤ × ℤ) (i j : Nat) (hi : i < 2 * k) (hj : j < 2 * k) (q : ℤ)
    (ho : Offset (2 * k) center i j q k) :
    ∃ g im, (Image.new (2 * k) res 0).put uv (sourceData S (lOf (2 * k) res k, mOf (2 * k) res q) uv w) [w.map Complex.ofReal] = some g ∧
      genImg (2 * k) g.uv center = some im ∧ at2 im i j = some 0 := by
  have hn : 2 * k ≠ 0 := by omega
  have hkr : (k : ℝ) ≠ 0 := by exact_mod_cast hk
  set D := sourceData S (lOf (2 * k) res k, mOf (2 * k) res q) uv w with hD
  obtain ⟨g, b, hp, e1, e2, hb⟩ := put_new hn res uv D (w.map Complex.ofReal) (by simp [hD, sourceData, hw]) (by simp [hw])
  obtain ⟨im, m1, m2, m3⟩ := c75_image (2 * k) hn g.uv center
  refine ⟨g, im, hp, m1, ?_⟩
  rw [m3 i j hi hj q k ho]
  have h := (c76_direct (Image.new (2 * k) res 0) g hn hres uv D [w.map Complex.ofReal] hp q k).1
  rw [e1] at h
  simp only [Image.new] at h
  rw [h, invDft_zero]
  have z : ∀ (uv : List (ℝ × ℝ)) (D : List ℂ), (∀ s ∈ uv, ∃ c : ℤ, s.1 = (c + 1 / 2) * res) →
      directSum res uv D (lOf (2 * k) res k, mOf (2 * k) res q) = 0 := by
    intro uv D hu
    unfold directSum
    apply List.sum_eq_zero
    intro x hx
    rw [List.mem_map] at hx
    obtain ⟨s, hs, rfl⟩ := hx
    obtain ⟨c, hc⟩ := hu s.1 (List.of_mem_zip hs).1
    have := kernel_axes hn res hres s.1 q k
    rw [this, hc]
    have a : (c + 1 / 2) * res / res = (c : ℝ) + 1 / 2 := by field_simp
    have b : (((k : ℕ) : ℤ) : ℝ) / ((2 * k : ℕ) : ℝ) = 1 / 2 := by push_cast; field_simp
    rw [a, b, axis_edge]
    ring
  rw [z uv D hu]
  simp

/-- samples off the grid and a pixel off the centre that meet the hypotheses of `c148_image` and `c148_source`, with a bound that says
something -/
example : ([3, 2] : List ℂ).length = ([(3, 9 / 2), (-31 / 5, 0)] : List (ℝ × ℝ)).length ∧ ¬ OnGrid 2 [(3, 9 / 2), (-31 / 5, 0)] ∧
    Offset 8 (4, 4) 3 5 (-1) 1 := by
  refine ⟨rfl, ?_, ⟨by decide, by decide, by decide, by decide, by decide, by decide⟩⟩
  intro h
  obtain ⟨a, b, hab⟩ := h (3, 9 / 2) (by simp)
  have h1 : (3 : ℝ) = a * 2 := congrArg Prod.fst hab
  have h2 : (3 : ℤ) = a * 2 := by exact_mod_cast h1
  omega

/-- weights and a flux that meet the hypotheses of `c148_brightest` -/
example : (∀ t ∈ ([3, 2] : List ℝ), 0 ≤ t) ∧ ([3, 2] : List ℝ).length = ([(3, 9 / 2), (-31 / 5, 0)] : List (ℝ × ℝ)).length ∧
    Offset 8 (4, 4) 4 4 0 0 := by
  refine ⟨by simp, rfl, ⟨by decide, by decide, by decide, by decide, by decide, by decide⟩⟩

/-- the bound at the phase centre is below 1/16 of the flux -/
example : 4 * (ghost 0 + ghost 0) + 1 / 10000 ≤ 1 / 16 ∧ fade 0 = 1 := by
  have h : ghost 0 ≤ 1 / 130 := by
    have := q_bound
    unfold ghost
    simpa using this
  exact ⟨by linarith, by simp [fade]⟩

/-- samples and a pixel that meet the hypotheses of `c148_edge_violated` -/
example : (∀ s ∈ ([(1, 4), (7, 1)] : List (ℝ × ℝ)), ∃ c : ℤ, s.1 = (c + 1 / 2) * 2) ∧ Offset (2 * 4) (4, 4) 0 0 4 (4 : ℕ) := by
  refine ⟨?_, ⟨by decide, by decide, by decide, by decide, by decide, by decide⟩⟩
  intro s hs
  simp only [List.mem_cons, List.not_mem_nil, or_false] at hs
  rcases hs with rfl | rfl
  · exact ⟨0, by norm_num⟩
  · exact ⟨3, by norm_num⟩

end Verif.Img
