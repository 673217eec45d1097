import Verif.Coord.Props
import Mathlib.Algebra.Order.ToIntervalMod
/-!
# Property C21 : angles and vectors
-/
namespace Verif.Coord
open Real

/-- polar coordinates of a plane vector -/
theorem arctan2_polar (x y : ℝ) : sqrt (x ^ 2 + y ^ 2) * cos (arctan2 y x) = x ∧
    sqrt (x ^ 2 + y ^ 2) * sin (arctan2 y x) = y := by
  have hn : ‖(⟨x, y⟩ : ℂ)‖ = sqrt (x ^ 2 + y ^ 2) := by
    rw [Complex.norm_def, Complex.normSq_mk]; congr 1; ring
  unfold arctan2
  rw [← hn]
  exact ⟨Complex.norm_mul_cos_arg _, Complex.norm_mul_sin_arg _⟩

theorem arctan2_of_polar (r θ : ℝ) (hr : 0 < r) (h1 : -π < θ) (h2 : θ ≤ π) :
    arctan2 (r * sin θ) (r * cos θ) = θ := by
  unfold arctan2
  have : (⟨r * cos θ, r * sin θ⟩ : ℂ) = (r : ℂ) * (Complex.cos θ + Complex.sin θ * Complex.I) := by
    apply Complex.ext
    · simp [← Complex.ofReal_cos, ← Complex.ofReal_sin]
    · simp [← Complex.ofReal_cos, ← Complex.ofReal_sin]
  rw [this]
  exact Complex.arg_mul_cos_add_sin_mul_I hr ⟨h1, h2⟩

theorem arctan2_range (y x : ℝ) : -π < arctan2 y x ∧ arctan2 y x ≤ π :=
  ⟨Complex.neg_pi_lt_arg _, Complex.arg_le_pi _⟩

theorem arctan2_nonneg (y x : ℝ) (h : 0 ≤ y) : 0 ≤ arctan2 y x :=
  Complex.arg_nonneg_iff.2 h

theorem len_pos {v : Vec} (h : v ≠ 0) : 0 < len v := by
  unfold len
  apply sqrt_pos.2
  by_contra hn
  apply h
  have h0 := sq_nonneg (v 0); have h1 := sq_nonneg (v 1); have h2 := sq_nonneg (v 2)
  apply vec3_ext
  · exact pow_eq_zero_iff two_ne_zero |>.1 (by linarith)
  · exact pow_eq_zero_iff two_ne_zero |>.1 (by linarith)
  · exact pow_eq_zero_iff two_ne_zero |>.1 (by linarith)

/-! ## Specification

`SameAngle a b`: two angles that differ by whole turns. -/

def SameAngle (a b : ℝ) : Prop := ∃ k : ℤ, a = b + k * (2 * π)

/-! ## theta, phi -/

/-- C21: always unit vectors. -/
theorem c21_unit (a : ℝ × ℝ) : IsUnitVec (thphi2xyz a) ∧ IsUnitVec (radec2eq a) ∧ IsUnitVec (azalt2top a) ∧
    IsUnitVec (latlong2xyz a) := by
  have h : ∀ a : ℝ × ℝ, IsUnitVec (thphi2xyz a) := by
    intro a
    show (sin a.1 * cos a.2) ^ 2 + (sin a.1 * sin a.2) ^ 2 + cos a.1 ^ 2 = 1
    linear_combination sin a.1 ^ 2 * sin_sq_add_cos_sq a.2 + sin_sq_add_cos_sq a.1
  exact ⟨h _, h _, h _, h _⟩

/-- C21: from a vector to angles and back: the vector divided by its length. -/
theorem c21_thphi_of_vec (v : Vec) (hv : v ≠ 0) : thphi2xyz (xyz2thphi v) = (len v)⁻¹ • v := by
  have hl := len_pos hv
  obtain ⟨p1, p2⟩ := arctan2_polar (v 0) (v 1)
  have hs : 0 ≤ v 0 ^ 2 + v 1 ^ 2 := by positivity
  obtain ⟨q1, q2⟩ := arctan2_polar (v 2) (sqrt (v 0 ^ 2 + v 1 ^ 2))
  rw [sq_sqrt hs] at q1 q2
  have hlen : sqrt (v 2 ^ 2 + (v 0 ^ 2 + v 1 ^ 2)) = len v := by unfold len; congr 1; ring
  rw [hlen] at q1 q2
  set th := arctan2 (sqrt (v 0 ^ 2 + v 1 ^ 2)) (v 2) with hth
  set ph := arctan2 (v 1) (v 0) with hph
  have s1 : sin th = (len v)⁻¹ * sqrt (v 0 ^ 2 + v 1 ^ 2) := by field_simp; linarith
  have s2 : cos th = (len v)⁻¹ * v 2 := by field_simp; linarith
  apply vec3_ext
  · show sin th * cos ph = (len v)⁻¹ * v 0
    rw [s1, mul_assoc, p1]
  · show sin th * sin ph = (len v)⁻¹ * v 1
    rw [s1, mul_assoc, p2]
  · show cos th = (len v)⁻¹ * v 2
    exact s2

/-- C21: from angles to a vector and back. -/
theorem c21_vec_of_thphi (th ph : ℝ) (h1 : 0 < th) (h2 : th < π) :
    (xyz2thphi (thphi2xyz (th, ph))).1 = th ∧ SameAngle (xyz2thphi (thphi2xyz (th, ph))).2 ph ∧
    (-π < ph → ph ≤ π → (xyz2thphi (thphi2xyz (th, ph))).2 = ph) := by
  have hs : 0 < sin th := sin_pos_of_pos_of_lt_pi h1 h2
  have e1 : sqrt ((sin th * cos ph) ^ 2 + (sin th * sin ph) ^ 2) = sin th := by
    have : (sin th * cos ph) ^ 2 + (sin th * sin ph) ^ 2 = sin th ^ 2 := by
      linear_combination sin th ^ 2 * sin_sq_add_cos_sq ph
    rw [this, sqrt_sq hs.le]
  have key : ∀ p : ℝ, -π < p → p ≤ π → (xyz2thphi (thphi2xyz (th, p))).2 = p := by
    intro p hp1 hp2
    exact arctan2_of_polar _ _ hs hp1 hp2
  refine ⟨?_, ?_, key ph⟩
  · show arctan2 (sqrt ((sin th * cos ph) ^ 2 + (sin th * sin ph) ^ 2)) (cos th) = th
    rw [e1]
    have := arctan2_of_polar 1 th one_pos (by linarith [pi_pos]) h2.le
    simpa using this
  · have hpp : (0 : ℝ) < 2 * π := by linarith [pi_pos]
    set k := toIocDiv hpp (-π) ph with hk
    set p := toIocMod hpp (-π) ph with hpdef
    have hpk : p = ph + ((-k : ℤ) : ℝ) * (2 * π) := by
      rw [hpdef, toIocMod]
      push_cast
      rw [zsmul_eq_mul]; ring
    have hmem := toIocMod_mem_Ioc hpp (-π) ph
    have hv : thphi2xyz (th, ph) = thphi2xyz (th, p) := by
      unfold thphi2xyz
      simp only
      rw [hpk, cos_add_int_mul_two_pi, sin_add_int_mul_two_pi]
    refine ⟨-k, ?_⟩
    rw [hv, key p hmem.1 (by have := hmem.2; linarith), hpk]

/-- C21: at the poles `theta` is still recovered. -/
theorem c21_poles (ph : ℝ) : (xyz2thphi (thphi2xyz (0, ph))).1 = 0 ∧ (xyz2thphi (thphi2xyz (π, ph))).1 = π := by
  constructor
  · show arctan2 (sqrt ((sin 0 * cos ph) ^ 2 + (sin 0 * sin ph) ^ 2)) (cos 0) = 0
    simpa using arctan2_of_polar 1 0 one_pos (by linarith [pi_pos]) pi_pos.le
  · show arctan2 (sqrt ((sin π * cos ph) ^ 2 + (sin π * sin ph) ^ 2)) (cos π) = π
    simpa using arctan2_of_polar 1 π one_pos (by linarith [pi_pos]) le_rfl

/-- C21: the ranges of the angles. -/
theorem c21_ranges (v : Vec) :
    (0 ≤ (xyz2thphi v).1 ∧ (xyz2thphi v).1 ≤ π ∧ -π < (xyz2thphi v).2 ∧ (xyz2thphi v).2 ≤ π) ∧
    (0 ≤ (eq2radec v).1 ∧ (eq2radec v).1 < 2 * π ∧ -(π / 2) ≤ (eq2radec v).2 ∧ (eq2radec v).2 ≤ π / 2) ∧
    (0 ≤ (top2azalt v).1 ∧ (top2azalt v).1 < 2 * π ∧ -(π / 2) ≤ (top2azalt v).2 ∧ (top2azalt v).2 ≤ π / 2) := by
  have hpi := pi_pos
  have a1 : 0 ≤ (xyz2thphi v).1 := arctan2_nonneg _ _ (sqrt_nonneg _)
  have a2 : (xyz2thphi v).1 ≤ π := (arctan2_range _ _).2
  have a3 : -π < (xyz2thphi v).2 := (arctan2_range _ _).1
  have a4 : (xyz2thphi v).2 ≤ π := (arctan2_range _ _).2
  refine ⟨⟨a1, a2, a3, a4⟩, ?_, ?_⟩
  · unfold eq2radec
    simp only
    refine ⟨?_, ?_, by linarith, by linarith⟩ <;> split <;> linarith
  · unfold top2azalt
    simp only
    refine ⟨?_, ?_, by linarith, by linarith⟩ <;> split <;> linarith

/-! ## right ascension and declination, azimuth and altitude -/

/-- C21: equatorial vector to (ra, dec) and back. -/
theorem c21_radec_of_vec (v : Vec) (hv : v ≠ 0) : radec2eq (eq2radec v) = (len v)⁻¹ • v := by
  rw [← c21_thphi_of_vec v hv]
  unfold radec2eq eq2radec
  simp only
  split
  · unfold thphi2xyz; simp only [sub_sub_cancel, cos_add_two_pi, sin_add_two_pi]
  · unfold thphi2xyz; simp only [sub_sub_cancel]

theorem SameAngle.eq_of_range {a b : ℝ} (h : SameAngle a b) (ha : 0 ≤ a) (ha2 : a < 2 * π) (hb : 0 ≤ b)
    (hb2 : b < 2 * π) : a = b := by
  obtain ⟨k, hk⟩ := h
  have hpi := pi_pos
  have h1 : k < 1 := by
    by_contra hn
    have : (1 : ℝ) ≤ k := by exact_mod_cast not_lt.1 hn
    nlinarith
  have h2 : -1 < k := by
    by_contra hn
    have : (k : ℝ) ≤ -1 := by exact_mod_cast not_lt.1 hn
    nlinarith
  have : k = 0 := by omega
  rw [hk, this]; simp

/-- C21: (ra, dec) to equatorial vector and back, away from the poles. -/
theorem c21_vec_of_radec (ra dec : ℝ) (h1 : -(π / 2) < dec) (h2 : dec < π / 2) :
    (eq2radec (radec2eq (ra, dec))).2 = dec ∧ SameAngle (eq2radec (radec2eq (ra, dec))).1 ra ∧
    (0 ≤ ra → ra < 2 * π → eq2radec (radec2eq (ra, dec)) = (ra, dec)) := by
  obtain ⟨e1, ⟨k, e2⟩, _⟩ := c21_vec_of_thphi (π / 2 - dec) ra (by linarith) (by linarith)
  have hd : (eq2radec (radec2eq (ra, dec))).2 = dec := by
    show π / 2 - (xyz2thphi (thphi2xyz (π / 2 - dec, ra))).1 = dec
    rw [e1]; ring
  have hr : SameAngle (eq2radec (radec2eq (ra, dec))).1 ra := by
    unfold SameAngle eq2radec radec2eq
    simp only
    split
    · exact ⟨k + 1, by rw [e2]; push_cast; ring⟩
    · exact ⟨k, e2⟩
  refine ⟨hd, hr, ?_⟩
  intro h3 h4
  obtain ⟨_, ⟨r1, r2, _, _⟩, _⟩ := c21_ranges (radec2eq (ra, dec))
  exact Prod.ext (hr.eq_of_range r1 r2 h3 h4) hd

/-- C21: topocentric vector to (az, alt) and back. -/
theorem c21_azalt_of_vec (v : Vec) (hv : v ≠ 0) : azalt2top (top2azalt v) = (len v)⁻¹ • v := by
  rw [← c21_thphi_of_vec v hv]
  unfold azalt2top top2azalt
  simp only
  split
  · unfold thphi2xyz
    have : ∀ x : ℝ, π / 2 - (π / 2 - x + 2 * π) = x - 2 * π := by intro x; ring
    simp only [sub_sub_cancel, this, cos_sub_two_pi, sin_sub_two_pi]
  · unfold thphi2xyz; simp only [sub_sub_cancel]

/-- C21: (az, alt) to topocentric vector and back, away from zenith and nadir. -/
theorem c21_vec_of_azalt (az alt : ℝ) (h1 : -(π / 2) < alt) (h2 : alt < π / 2) :
    (top2azalt (azalt2top (az, alt))).2 = alt ∧ SameAngle (top2azalt (azalt2top (az, alt))).1 az ∧
    (0 ≤ az → az < 2 * π → top2azalt (azalt2top (az, alt)) = (az, alt)) := by
  obtain ⟨e1, ⟨k, e2⟩, _⟩ := c21_vec_of_thphi (π / 2 - alt) (π / 2 - az) (by linarith) (by linarith)
  have hd : (top2azalt (azalt2top (az, alt))).2 = alt := by
    show π / 2 - (xyz2thphi (thphi2xyz (π / 2 - alt, π / 2 - az))).1 = alt
    rw [e1]; ring
  have hr : SameAngle (top2azalt (azalt2top (az, alt))).1 az := by
    unfold SameAngle top2azalt azalt2top
    simp only
    split
    · exact ⟨-k + 1, by rw [e2]; push_cast; ring⟩
    · exact ⟨-k, by rw [e2]; push_cast; ring⟩
  refine ⟨hd, hr, ?_⟩
  intro h3 h4
  obtain ⟨_, _, ⟨r1, r2, _, _⟩⟩ := c21_ranges (azalt2top (az, alt))
  exact Prod.ext (hr.eq_of_range r1 r2 h3 h4) hd

/-- C21: the conventions: azimuth 0 is north (+y), 90 degrees is east (+x), altitude 90 degrees is up; ra 0 is +x,
declination 90 degrees is +z; latitude and longitude are declination and right ascension. -/
theorem c21_conventions :
    azalt2top (0, 0) = ![0, 1, 0] ∧ azalt2top (π / 2, 0) = ![1, 0, 0] ∧ (∀ az, azalt2top (az, π / 2) = ![0, 0, 1]) ∧
    radec2eq (0, 0) = ![1, 0, 0] ∧ radec2eq (π / 2, 0) = ![0, 1, 0] ∧ (∀ ra, radec2eq (ra, π / 2) = ![0, 0, 1]) ∧
    (∀ lat long, latlong2xyz (lat, long) = ![cos lat * cos long, cos lat * sin long, sin lat]) := by
  refine ⟨?_, ?_, ?_, ?_, ?_, ?_, ?_⟩
  all_goals
    try intro x
    try intro y
    apply vec3_ext <;>
      simp [azalt2top, radec2eq, latlong2xyz, thphi2xyz, sin_pi_div_two_sub, cos_pi_div_two_sub]

/-- C21 with C20: the zenith of `eq2top_m(-lst, lat)` is the direction `(ra, dec) = (lst, lat)`. -/
theorem c21_zenith (lst lat : ℝ) : Matrix.mulVec (eq2top_m (-lst) lat) (radec2eq (lst, lat)) = ![0, 0, 1] := by
  have : radec2eq (lst, lat) = atHourAngle (-lst) lat := by
    apply vec3_ext <;> simp [radec2eq, thphi2xyz, atHourAngle, sin_pi_div_two_sub, cos_pi_div_two_sub]
  rw [this]
  exact (c20_directions (-lst) lat).1

example : (![1, 2, 3] : Vec) ≠ 0 := by intro h; have := congrFun h 0; simp at this
example : (0 : ℝ) < 1 / 2 ∧ (1 / 2 : ℝ) < π ∧ -(π / 2) < (1 / 2 : ℝ) ∧ (1 / 2 : ℝ) < π / 2 := by
  have := two_le_pi
  refine ⟨?_, ?_, ?_, ?_⟩ <;> linarith

end Verif.Coord
