import Verif.Coord.Model
import Mathlib.Tactic.LinearCombination
import Mathlib.Tactic.Linarith
/-!
# Properties C19, C20, C21 : rotations and coordinate conversions
-/
namespace Verif.Coord
open Real Matrix

/-- length of a vector, written out -/
noncomputable def len (v : Vec) : ℝ := sqrt (v 0 ^ 2 + v 1 ^ 2 + v 2 ^ 2)

/-- unit vectors -/
def IsUnitVec (v : Vec) : Prop := v 0 ^ 2 + v 1 ^ 2 + v 2 ^ 2 = 1

/-- proper rotations -/
def IsRotation (m : Mat) : Prop := m * mᵀ = 1 ∧ m.det = 1

theorem mat3_ext {a b : Mat} (h00 : a 0 0 = b 0 0) (h01 : a 0 1 = b 0 1) (h02 : a 0 2 = b 0 2)
    (h10 : a 1 0 = b 1 0) (h11 : a 1 1 = b 1 1) (h12 : a 1 2 = b 1 2)
    (h20 : a 2 0 = b 2 0) (h21 : a 2 1 = b 2 1) (h22 : a 2 2 = b 2 2) : a = b := by
  ext i j
  fin_cases i <;> fin_cases j <;> assumption

theorem vec3_ext {a b : Vec} (h0 : a 0 = b 0) (h1 : a 1 = b 1) (h2 : a 2 = b 2) : a = b := by
  ext i; fin_cases i <;> assumption

theorem one_at : (1 : Mat) 0 0 = 1 ∧ (1 : Mat) 0 1 = 0 ∧ (1 : Mat) 0 2 = 0 ∧ (1 : Mat) 1 0 = 0 ∧ (1 : Mat) 1 1 = 1 ∧
    (1 : Mat) 1 2 = 0 ∧ (1 : Mat) 2 0 = 0 ∧ (1 : Mat) 2 1 = 0 ∧ (1 : Mat) 2 2 = 1 := by
  refine ⟨?_, ?_, ?_, ?_, ?_, ?_, ?_, ?_, ?_⟩ <;> simp

/-! ## C19 -/

/-- C19, Rodrigues' formula: `rot_m` applied to any vector is the rotation by `ang` about `vec` according to
the right-hand rule. -/
theorem c19_rodrigues (ang : ℝ) (v w : Vec) :
    rot_m ang v *ᵥ w = cos ang • w + sin ang • (v ⨯₃ w) + ((1 - cos ang) * (v ⬝ᵥ w)) • v := by
  apply vec3_ext <;>
  · simp [rot_m, mulVec, dotProduct, Fin.sum_univ_three, cross_apply, vecHead, vecTail]
    ring

/-- C19: orthogonal with determinant one. -/
theorem c19_rotation (ang : ℝ) (v : Vec) (hv : IsUnitVec v) : IsRotation (rot_m ang v) := by
  unfold IsUnitVec at hv
  have h := sin_sq_add_cos_sq ang
  obtain ⟨o1, o2, o3, o4, o5, o6, o7, o8, o9⟩ := one_at
  constructor
  · have e : ∀ i j, (rot_m ang v * (rot_m ang v)ᵀ) i j = rot_m ang v i 0 * rot_m ang v j 0 +
        rot_m ang v i 1 * rot_m ang v j 1 + rot_m ang v i 2 * rot_m ang v j 2 := by
      intro i j
      rw [mul_apply, Fin.sum_univ_three]; rfl
    apply mat3_ext <;> rw [e] <;> simp only [o1, o2, o3, o4, o5, o6, o7, o8, o9] <;>
      simp [rot_m] <;> generalize v 0 = x at * <;> generalize v 1 = y at * <;> generalize v 2 = z at * <;>
      generalize sin ang = s at * <;> generalize cos ang = c at *
    · linear_combination (1 * s ^ 2 + x * x * (1 - c) ^ 2) * hv + (1 - x * x) * h
    · linear_combination (0 * s ^ 2 + x * y * (1 - c) ^ 2) * hv + (0 - x * y) * h
    · linear_combination (0 * s ^ 2 + x * z * (1 - c) ^ 2) * hv + (0 - x * z) * h
    · linear_combination (0 * s ^ 2 + y * x * (1 - c) ^ 2) * hv + (0 - y * x) * h
    · linear_combination (1 * s ^ 2 + y * y * (1 - c) ^ 2) * hv + (1 - y * y) * h
    · linear_combination (0 * s ^ 2 + y * z * (1 - c) ^ 2) * hv + (0 - y * z) * h
    · linear_combination (0 * s ^ 2 + z * x * (1 - c) ^ 2) * hv + (0 - z * x) * h
    · linear_combination (0 * s ^ 2 + z * y * (1 - c) ^ 2) * hv + (0 - z * y) * h
    · linear_combination (1 * s ^ 2 + z * z * (1 - c) ^ 2) * hv + (1 - z * z) * h
  · rw [det_fin_three]
    simp [rot_m]
    generalize v 0 = x at *; generalize v 1 = y at *; generalize v 2 = z at *
    generalize sin ang = s at *; generalize cos ang = c at *
    linear_combination ((1 - c) * (c ^ 2 + s ^ 2 * (x ^ 2 + y ^ 2 + z ^ 2)) + s ^ 2) * hv + h

/-- C19: the axis is fixed. -/
theorem c19_axis (ang : ℝ) (v : Vec) (hv : IsUnitVec v) : rot_m ang v *ᵥ v = v := by
  have h1 : v ⬝ᵥ v = 1 := by
    unfold IsUnitVec at hv
    rw [dotProduct, Fin.sum_univ_three]; linarith
  rw [c19_rodrigues, cross_self, h1]
  apply vec3_ext <;> simp <;> ring

/-- C19: angles add. -/
theorem c19_additive (a b : ℝ) (v : Vec) (hv : IsUnitVec v) : rot_m (a + b) v = rot_m a v * rot_m b v := by
  unfold IsUnitVec at hv
  have e : ∀ i j, (rot_m a v * rot_m b v) i j = rot_m a v i 0 * rot_m b v 0 j +
      rot_m a v i 1 * rot_m b v 1 j + rot_m a v i 2 * rot_m b v 2 j := by
    intro i j
    rw [mul_apply, Fin.sum_univ_three]
  apply mat3_ext <;> rw [e] <;>
    simp [rot_m, cos_add, sin_add] <;> generalize v 0 = x at * <;> generalize v 1 = y at * <;>
    generalize v 2 = z at * <;> generalize sin a = s at * <;> generalize cos a = c at * <;>
    generalize sin b = t at * <;> generalize cos b = d at *
  · linear_combination (1 * (s * t) - x * x * ((1 - c) * (1 - d))) * hv
  · linear_combination (0 * (s * t) - x * y * ((1 - c) * (1 - d))) * hv
  · linear_combination (0 * (s * t) - x * z * ((1 - c) * (1 - d))) * hv
  · linear_combination (0 * (s * t) - y * x * ((1 - c) * (1 - d))) * hv
  · linear_combination (1 * (s * t) - y * y * ((1 - c) * (1 - d))) * hv
  · linear_combination (0 * (s * t) - y * z * ((1 - c) * (1 - d))) * hv
  · linear_combination (0 * (s * t) - z * x * ((1 - c) * (1 - d))) * hv
  · linear_combination (0 * (s * t) - z * y * ((1 - c) * (1 - d))) * hv
  · linear_combination (1 * (s * t) - z * z * ((1 - c) * (1 - d))) * hv

/-- C19: no rotation for angle zero, and the opposite angle undoes the rotation. -/
theorem c19_inverse (a : ℝ) (v : Vec) (hv : IsUnitVec v) :
    rot_m 0 v = 1 ∧ rot_m (-a) v * rot_m a v = 1 ∧ rot_m (-a) v = (rot_m a v)ᵀ := by
  have h0 : rot_m 0 v = 1 := by
    obtain ⟨o1, o2, o3, o4, o5, o6, o7, o8, o9⟩ := one_at
    apply mat3_ext <;> simp only [o1, o2, o3, o4, o5, o6, o7, o8, o9] <;> simp [rot_m]
  refine ⟨h0, ?_, ?_⟩
  · rw [← c19_additive _ _ _ hv, neg_add_cancel, h0]
  · apply mat3_ext <;> simp [rot_m] <;> ring

/-- C19: normalising the axis is necessary: unless the angle is a multiple of a full turn, only a unit axis gives
a rotation. -/
theorem c19_unit_needed (ang : ℝ) (v : Vec) (hc : cos ang ≠ 1) : IsRotation (rot_m ang v) ↔ IsUnitVec v := by
  refine ⟨?_, c19_rotation ang v⟩
  rintro ⟨h1, h2⟩
  have hsc := sin_sq_add_cos_sq ang
  unfold IsUnitVec
  rw [det_fin_three] at h2
  have e00 := congrFun (congrFun h1 0) 0
  have e11 := congrFun (congrFun h1 1) 1
  have e22 := congrFun (congrFun h1 2) 2
  obtain ⟨o1, o2, o3, o4, o5, o6, o7, o8, o9⟩ := one_at
  rw [mul_apply, Fin.sum_univ_three, o1] at e00
  rw [mul_apply, Fin.sum_univ_three, o5] at e11
  rw [mul_apply, Fin.sum_univ_three, o9] at e22
  simp [rot_m] at h2 e00 e11 e22
  generalize v 0 = x at *; generalize v 1 = y at *; generalize v 2 = z at *
  generalize sin ang = s at *; generalize cos ang = c at *
  set n := x ^ 2 + y ^ 2 + z ^ 2 with hn
  -- trace of R Rᵀ and determinant in terms of n
  have t : (c + (1 - c) * n) ^ 2 + 2 * (c ^ 2 + s ^ 2 * n) = 3 := by rw [hn]; linear_combination e00 + e11 + e22
  have dd : (c + (1 - c) * n) * (c ^ 2 + s ^ 2 * n) = 1 := by rw [hn]; linear_combination h2
  have hn0 : 0 ≤ n := by rw [hn]; positivity
  -- p = c + (1-c) n, q = c² + s² n :  p q = 1, p² + 2q = 3, hence (p-1)²(p+2) = 0
  set p := c + (1 - c) * n with hp
  set q := c ^ 2 + s ^ 2 * n with hq
  have hcub : (p - 1) ^ 2 * (p + 2) = 0 := by linear_combination p * t - 2 * dd
  have hqpos : 0 ≤ q := by rw [hq]; positivity
  have hp2 : p + 2 ≠ 0 := by
    intro hpe
    have : p = -2 := by linarith
    rw [this] at dd; linarith
  have hp1 : p - 1 = 0 := by
    rcases mul_eq_zero.1 hcub with h | h
    · exact pow_eq_zero_iff (two_ne_zero) |>.1 h
    · exact absurd h hp2
  have : (1 - c) * (n - 1) = 0 := by linear_combination hp1
  rcases mul_eq_zero.1 this with h | h
  · exact absurd (by linarith) hc
  · linarith

/-- The docstring's "scaling of |vec|" is not what happens: a rotation by nothing about an axis of length 2 is not
a scaling by 2. -/
theorem c19_docstring_scaling_violated : rot_m 0 ![0, 0, 2] ≠ (2 : ℝ) • (1 : Mat) := by
  intro h
  have := congrFun (congrFun h 0) 0
  simp [rot_m] at this

example : IsUnitVec ![0, 3/5, 4/5] := by
  show (0 : ℝ) ^ 2 + (3 / 5) ^ 2 + (4 / 5) ^ 2 = 1; norm_num
example : cos π ≠ 1 := by rw [cos_pi]; norm_num

/-! ## C20 -/

/-- C20: `eq2top_m` is a rotation. -/
theorem c20_rotation (H d : ℝ) : IsRotation (eq2top_m H d) := by
  have h1 := sin_sq_add_cos_sq H
  have h2 := sin_sq_add_cos_sq d
  obtain ⟨o1, o2, o3, o4, o5, o6, o7, o8, o9⟩ := one_at
  constructor
  · have e : ∀ i j, (eq2top_m H d * (eq2top_m H d)ᵀ) i j = eq2top_m H d i 0 * eq2top_m H d j 0 +
        eq2top_m H d i 1 * eq2top_m H d j 1 + eq2top_m H d i 2 * eq2top_m H d j 2 := by
      intro i j
      rw [mul_apply, Fin.sum_univ_three]; rfl
    apply mat3_ext <;> rw [e] <;> simp only [o1, o2, o3, o4, o5, o6, o7, o8, o9] <;> simp [eq2top_m]
    · linear_combination h1
    · ring
    · ring
    · ring
    · linear_combination sin d ^ 2 * h1 + h2
    · linear_combination (-sin d * cos d) * h1
    · ring
    · linear_combination (-sin d * cos d) * h1
    · linear_combination cos d ^ 2 * h1 + h2
  · rw [det_fin_three]; simp [eq2top_m]
    linear_combination (sin d ^ 2 + cos d ^ 2) * h1 + h2

/-- C20: `top2eq_m` is the inverse on both sides, and is the transpose. -/
theorem c20_inverse (H d : ℝ) : top2eq_m H d * eq2top_m H d = 1 ∧ eq2top_m H d * top2eq_m H d = 1 ∧
    top2eq_m H d = (eq2top_m H d)ᵀ := by
  obtain ⟨h1, h2⟩ := c20_rotation H d
  have hu : IsUnit (eq2top_m H d).det := by rw [h2]; exact isUnit_one
  refine ⟨nonsing_inv_mul _ hu, mul_nonsing_inv _ hu, ?_⟩
  exact inv_eq_right_inv h1

/-- the direction with right ascension `-H` (i.e. at hour angle `H` from the meridian `ra = 0`) and declination `d` -/
noncomputable def atHourAngle (H d : ℝ) : Vec := ![cos d * cos H, -(cos d * sin H), sin d]

/-- C20: the direction at hour angle `H` and declination `d` is mapped to the zenith, the north pole to the meridian
(north of the zenith, at altitude `d`), and the point of the equator six hours east to the east. -/
theorem c20_directions (H d : ℝ) :
    eq2top_m H d *ᵥ atHourAngle H d = ![0, 0, 1] ∧
    eq2top_m H d *ᵥ ![0, 0, 1] = ![0, cos d, sin d] ∧
    eq2top_m H d *ᵥ atHourAngle (H - π / 2) 0 = ![1, 0, 0] := by
  have h1 := sin_sq_add_cos_sq H
  have h2 := sin_sq_add_cos_sq d
  refine ⟨?_, ?_, ?_⟩
  · apply vec3_ext <;> simp [eq2top_m, mulVec, dotProduct, Fin.sum_univ_three, atHourAngle]
    · ring
    · linear_combination (-sin d * cos d) * h1
    · linear_combination cos d ^ 2 * h1 + h2
  · apply vec3_ext <;> simp [eq2top_m, mulVec, dotProduct, Fin.sum_univ_three]
  · apply vec3_ext <;> simp [eq2top_m, mulVec, dotProduct, Fin.sum_univ_three, atHourAngle, cos_sub_pi_div_two,
      sin_sub_pi_div_two]
    · linear_combination h1
    · ring
    · ring

/-- C20: lengths and scalar products are preserved. -/
theorem c20_isometry (H d : ℝ) (v w : Vec) : (eq2top_m H d *ᵥ v) ⬝ᵥ (eq2top_m H d *ᵥ w) = v ⬝ᵥ w := by
  have h : (eq2top_m H d)ᵀ * eq2top_m H d = 1 := by
    obtain ⟨h1, _, h3⟩ := c20_inverse H d
    rw [← h3]; exact h1
  rw [dotProduct_mulVec, vecMul_mulVec, ← dotProduct_mulVec, h]
  simp

example : eq2top_m 0 (π / 2) *ᵥ ![0, 0, 1] = ![0, 0, 1] := by
  rw [(c20_directions 0 (π / 2)).2.1]; simp

end Verif.Coord
