import Verif.Amp.Pointing
import Mathlib.Analysis.SpecialFunctions.Exp
import Mathlib.Analysis.SpecialFunctions.Trigonometric.Inverse
import Mathlib.Algebra.BigOperators.Fin
/-!
# Property C73 : the analytic beam patterns

Model of the `response` methods of `Beam`, `Beam2DGaussian` and `BeamPolynomial` in `/repo/aipy/amp.py`, for one direction
and one frequency (the code returns the table over active frequencies and directions), over exact real numbers.
`np.arcsin` of a number outside `[-1, 1]` and a division by a width of zero are not numbers in the code: the theorems
are about unit vectors and non-zero widths.
-/
namespace Verif.Amp
open Real Matrix Verif.Coord

/-- `Beam.response`, amp.py 119-122 -/
def flatResponse (_top : Vec) : ℝ := 1

/-- a width: `np.inf` (the default) or a number -/
inductive Width | inf | fin (w : ℝ)

/-- division of an angle by a width -/
noncomputable def Width.scale (a : ℝ) : Width → ℝ
  | .inf => 0
  | .fin w => a / w

/-- `Beam2DGaussian.response`, amp.py 132-139 -/
noncomputable def gaussResponse (xw yw : Width) (top : Vec) : ℝ :=
  let x := xw.scale (arcsin (top 0))
  let y := yw.scale (arcsin (top 1))
  sqrt (exp (-0.5 * (x ^ 2 + y ^ 2)))

/-- one row of `self.sigma` at one frequency: `np.dot(poly, f)` with `f[n] = freq**n`, amp.py 155-158 -/
noncomputable def sigmaRow (row : List ℝ) (f : ℝ) : ℝ :=
  ((List.range row.length).map (fun n => row.getD n 0 * f ^ n)).sum

/-- `s = np.dot(a, self.sigma)` with `a[k] = cos(az * 2k)` and `a[0] = 0.5`, amp.py 172-176 -/
noncomputable def polyWidth (poly : List (List ℝ)) (az f : ℝ) : ℝ :=
  ((List.range poly.length).map
    (fun k : ℕ => (if k = 0 then 0.5 else cos (az * (2 * (k : ℝ)))) * sigmaRow (poly.getD k []) f)).sum

/-- `BeamPolynomial.response`, amp.py 162-177 -/
noncomputable def polyResponse (poly : List (List ℝ)) (f : ℝ) (top : Vec) : ℝ :=
  let a := top2azalt top
  let zang := π / 2 - a.2
  sqrt (exp (-(zang / polyWidth poly a.1 f) ^ 2))

/-! ## What the patterns should be -/

/-- a polynomial with ascending coefficients -/
noncomputable def asc (c : List ℝ) (f : ℝ) : ℝ := c.foldr (fun a r => a + f * r) 0

/-- the width of a polynomial beam as the docstring has it: a series in `cos (2 k az)` whose coefficients are polynomials
of the frequency; the constant term counts half, as usual for a cosine series -/
noncomputable def seriesWidth (poly : List (List ℝ)) (az f : ℝ) : ℝ :=
  match poly with
  | [] => 0
  | r :: rs => asc r f / 2 + ∑ i : Fin rs.length, asc (rs.get i) f * cos (2 * ((i : ℕ) + 1) * az)

/-! ## Helper lemmas -/

theorem sqrt_exp (x : ℝ) : sqrt (exp x) = exp (x / 2) := by
  rw [Real.sqrt_eq_iff_mul_self_eq (exp_pos _).le (exp_pos _).le, ← exp_add]; ring_nf

theorem gauss_eq (xw yw : Width) (v : Vec) : gaussResponse xw yw v =
    exp (-((xw.scale (arcsin (v 0))) ^ 2 + (yw.scale (arcsin (v 1))) ^ 2) / 4) := by
  unfold gaussResponse
  simp only
  rw [sqrt_exp]; congr 1; ring

theorem poly_eq (poly : List (List ℝ)) (f : ℝ) (v : Vec) : polyResponse poly f v =
    exp (-((π / 2 - (top2azalt v).2) / polyWidth poly (top2azalt v).1 f) ^ 2 / 2) := by
  unfold polyResponse
  simp only
  rw [sqrt_exp]

theorem sigmaRow_eq (row : List ℝ) (f : ℝ) : sigmaRow row f = asc row f := by
  unfold sigmaRow asc
  induction row with
  | nil => rfl
  | cons a r ih =>
    rw [List.length_cons, List.range_succ_eq_map, List.map_cons, List.sum_cons, List.map_map, List.foldr_cons, ← ih]
    have e : ((fun n => (a :: r).getD n 0 * f ^ n) ∘ Nat.succ) = fun n => f * (r.getD n 0 * f ^ n) := by
      funext n
      show r.getD n 0 * f ^ (n + 1) = _
      ring
    rw [e, List.sum_map_mul_left]
    simp

theorem getD_get (l : List (List ℝ)) (i : Fin l.length) : l.getD i [] = l.get i := by simp

theorem polyWidth_eq (poly : List (List ℝ)) (az f : ℝ) : polyWidth poly az f = seriesWidth poly az f := by
  cases poly with
  | nil => rfl
  | cons r rs =>
    unfold polyWidth seriesWidth
    rw [List.length_cons, List.range_succ_eq_map, List.map_cons, List.sum_cons, List.map_map]
    congr 1
    · simp only [if_true, List.getD_cons_zero, sigmaRow_eq]; ring
    · rw [← List.sum_ofFn, List.ofFn_eq_map, ← List.map_coe_finRange_eq_range, List.map_map]
      congr 1
      apply List.map_congr_left
      intro i _
      show (if Nat.succ (i : ℕ) = 0 then (0.5 : ℝ) else cos (az * (2 * ((Nat.succ (i : ℕ) : ℕ) : ℝ)))) *
        sigmaRow ((r :: rs).getD (Nat.succ (i : ℕ)) []) f = _
      rw [if_neg (Nat.succ_ne_zero _), List.getD_cons_succ, sigmaRow_eq, getD_get, mul_comm]
      congr 2
      push_cast; ring

theorem seriesWidth_same (poly : List (List ℝ)) (f az az' : ℝ) (n : ℤ) (h : az' = az + n * π) :
    seriesWidth poly az' f = seriesWidth poly az f := by
  cases poly with
  | nil => rfl
  | cons r rs =>
    unfold seriesWidth
    simp only
    congr 1
    apply Finset.sum_congr rfl
    intro i _
    congr 1
    have : 2 * (((i : ℕ) : ℝ) + 1) * az' = 2 * (((i : ℕ) : ℝ) + 1) * az + ((n * ((i : ℕ) + 1) : ℤ) : ℝ) * (2 * π) := by
      rw [h]; push_cast; ring
    rw [this, cos_add_int_mul_two_pi]

theorem unit_third {x : ℝ} (h : (0 : ℝ) ^ 2 + 0 ^ 2 + x ^ 2 = 1) : x = 1 ∨ x = -1 := by
  have : (x - 1) * (x + 1) = 0 := by linear_combination h
  rcases mul_eq_zero.1 this with h | h
  · left; linarith
  · right; linarith

/-! ## C73: the Gaussian beam -/

/-- C73: the power pattern (the square of the response) in a direction `a` radians of arc towards +x and `b` towards +y
of the beam's own axes is the two-dimensional Gaussian whose standard deviations are the two widths. -/
theorem c73_gauss_power (wx wy : ℝ) (a b : ℝ) (ha : |a| ≤ π / 2) (hb : |b| ≤ π / 2) (z : ℝ) :
    gaussResponse (.fin wx) (.fin wy) ![sin a, sin b, z] ^ 2 =
      exp (-(a ^ 2 / (2 * wx ^ 2))) * exp (-(b ^ 2 / (2 * wy ^ 2))) := by
  obtain ⟨a1, a2⟩ := abs_le.1 ha
  obtain ⟨b1, b2⟩ := abs_le.1 hb
  rw [gauss_eq, ← exp_nat_mul, ← exp_add]
  congr 1
  show ((2 : ℕ) : ℝ) * (-((arcsin (sin a) / wx) ^ 2 + (arcsin (sin b) / wy) ^ 2) / 4) = _
  rw [arcsin_sin a1 a2, arcsin_sin b1 b2, div_pow, div_pow, mul_comm 2 (wx ^ 2), mul_comm 2 (wy ^ 2), ← div_div,
    ← div_div]
  push_cast; ring

/-- C73: without widths the beam is flat. -/
theorem c73_gauss_default (v : Vec) : gaussResponse .inf .inf v = flatResponse v := by
  rw [gauss_eq]; simp [Width.scale, flatResponse]

/-- C73: the response is positive and at most one. -/
theorem c73_gauss_range (xw yw : Width) (v : Vec) : 0 < gaussResponse xw yw v ∧ gaussResponse xw yw v ≤ 1 := by
  rw [gauss_eq]
  refine ⟨exp_pos _, exp_le_one_iff.2 ?_⟩
  have h1 := sq_nonneg (xw.scale (arcsin (v 0)))
  have h2 := sq_nonneg (yw.scale (arcsin (v 1)))
  linarith

/-- C73: with finite widths the response of one is reached on the axis of the beam and nowhere else. -/
theorem c73_gauss_peak (wx wy : ℝ) (hx : wx ≠ 0) (hy : wy ≠ 0) (v : Vec) (hv : IsUnitVec v) :
    gaussResponse (.fin wx) (.fin wy) v = 1 ↔ v = ![0, 0, 1] ∨ v = ![0, 0, -1] := by
  rw [gauss_eq, exp_eq_one_iff]
  constructor
  · intro h
    have h1 := sq_nonneg (arcsin (v 0) / wx)
    have h2 := sq_nonneg (arcsin (v 1) / wy)
    have h' : (arcsin (v 0) / wx) ^ 2 + (arcsin (v 1) / wy) ^ 2 = 0 := by
      have : -((arcsin (v 0) / wx) ^ 2 + (arcsin (v 1) / wy) ^ 2) / 4 = 0 := h
      linarith
    have e0 : arcsin (v 0) / wx = 0 := by
      have : (arcsin (v 0) / wx) ^ 2 = 0 := by linarith
      exact pow_eq_zero_iff two_ne_zero |>.1 this
    have e1 : arcsin (v 1) / wy = 0 := by
      have : (arcsin (v 1) / wy) ^ 2 = 0 := by linarith
      exact pow_eq_zero_iff two_ne_zero |>.1 this
    have z0 : v 0 = 0 := arcsin_eq_zero_iff.1 ((div_eq_zero_iff.1 e0).resolve_right hx)
    have z1 : v 1 = 0 := arcsin_eq_zero_iff.1 ((div_eq_zero_iff.1 e1).resolve_right hy)
    unfold IsUnitVec at hv
    rw [z0, z1] at hv
    have : v 2 = 1 ∨ v 2 = -1 := unit_third hv
    rcases this with h2 | h2
    · exact Or.inl (vec3_ext z0 z1 h2)
    · exact Or.inr (vec3_ext z0 z1 h2)
  · rintro (rfl | rfl) <;> simp [Width.scale]
/-- C73: the response falls with the distance from the axis along either of the beam's axes. -/
theorem c73_gauss_falls (xw yw : Width) (v w : Vec) (h0 : |v 0| ≤ |w 0|) (h1 : |v 1| ≤ |w 1|) :
    gaussResponse xw yw w ≤ gaussResponse xw yw v := by
  have key : ∀ (u : Width) (a b : ℝ), |a| ≤ |b| → (u.scale (arcsin a)) ^ 2 ≤ (u.scale (arcsin b)) ^ 2 := by
    intro u a b h
    have habs : ∀ x : ℝ, |arcsin x| = arcsin |x| := by
      intro x
      rcases le_total 0 x with hx | hx
      · rw [abs_of_nonneg hx, abs_of_nonneg (arcsin_nonneg.2 hx)]
      · rw [abs_of_nonpos hx, abs_of_nonpos (arcsin_nonpos.2 hx), arcsin_neg]
    have hab : |arcsin a| ≤ |arcsin b| := by rw [habs, habs]; exact monotone_arcsin h
    cases u with
    | inf => exact le_rfl
    | fin w =>
      show (arcsin a / w) ^ 2 ≤ (arcsin b / w) ^ 2
      rw [div_pow, div_pow]
      exact div_le_div_of_nonneg_right (sq_le_sq.2 hab) (sq_nonneg w)
  rw [gauss_eq, gauss_eq, exp_le_exp]
  have := key xw _ _ h0
  have := key yw _ _ h1
  linarith

/-- The response does not know front from back: seen from an antenna looking north at 30 degrees of height, a source in
the south at 30 degrees, 120 degrees off the axis, is seen with a greater response than one in the south at 60 degrees,
only 90 degrees off the axis. -/
theorem c73_gauss_backlobe_fails (xw yw : Width) (v : Vec) (wx : ℝ) (hw : wx ≠ 0) :
    gaussResponse xw yw ![v 0, v 1, -v 2] = gaussResponse xw yw v ∧
    ∃ r90 r120, bmResponse (gaussResponse (.fin wx) yw) 0 (π / 6) 0 'x' (azalt2top (π, π / 3)) = some r90 ∧
      bmResponse (gaussResponse (.fin wx) yw) 0 (π / 6) 0 'x' (azalt2top (π, π / 6)) = some r120 ∧ r90 < r120 := by
  refine ⟨rfl, _, _, rfl, rfl, ?_⟩
  have hs : ∀ alt, rotPolX 0 (π / 6) 0 *ᵥ azalt2top (π, alt) = ![-sin (alt + π / 6), 0, -cos (alt + π / 6)] := by
    intro alt
    apply vec3_ext <;>
      simp [rotPolX, rot_m, yAxis, zAxis, azalt2top, thphi2xyz, Matrix.vecHead, Matrix.vecTail, sin_pi_div_two_sub,
        cos_pi_div_two_sub, sin_sub_pi_div_two, cos_sub_pi_div_two, cos_add, sin_add]
    all_goals ring
  rw [gauss_eq, gauss_eq, hs, hs, exp_lt_exp]
  have e1 : π / 3 + π / 6 = π / 2 := by ring
  have e2 : π / 6 + π / 6 = π / 3 := by ring
  have hp := pi_pos
  show -((arcsin (-sin (π / 3 + π / 6)) / wx) ^ 2 + (yw.scale (arcsin 0)) ^ 2) / 4 <
    -((arcsin (-sin (π / 6 + π / 6)) / wx) ^ 2 + (yw.scale (arcsin 0)) ^ 2) / 4
  rw [e1, e2, arcsin_neg, arcsin_neg, arcsin_sin (by linarith) (by linarith), arcsin_sin (by linarith) (by linarith),
    div_pow, div_pow]
  have hw2 : 0 < wx ^ 2 := by positivity
  have : (-(π / 3)) ^ 2 / wx ^ 2 < (-(π / 2)) ^ 2 / wx ^ 2 := by
    apply div_lt_div_of_pos_right _ hw2
    nlinarith
  linarith

/-- The width documented as "angular width (radians) in EW direction" acts north and south: with an antenna left in its
default pointing, feed `x`, and no width in the other direction, nothing changes towards the east, while the response
falls towards the north. -/
theorem c73_gauss_ew_fails (wx a : ℝ) (ha : |a| ≤ π / 2) :
    bmResponse (gaussResponse (.fin wx) .inf) 0 (π / 2) 0 'x' ![sin a, 0, cos a] = some 1 ∧
    bmResponse (gaussResponse (.fin wx) .inf) 0 (π / 2) 0 'x' ![0, sin a, cos a] =
      some (exp (-(a / wx) ^ 2 / 4)) := by
  obtain ⟨a1, a2⟩ := abs_le.1 ha
  have h1 : rotPolX 0 (π / 2) 0 *ᵥ ![sin a, 0, cos a] = ![0, -sin a, cos a] := by
    apply vec3_ext <;> simp [rotPolX, rot_m, yAxis, zAxis, Matrix.vecHead, Matrix.vecTail]
  have h2 : rotPolX 0 (π / 2) 0 *ᵥ ![0, sin a, cos a] = ![sin a, 0, cos a] := by
    apply vec3_ext <;> simp [rotPolX, rot_m, yAxis, zAxis, Matrix.vecHead, Matrix.vecTail]
  constructor
  · show some _ = _
    rw [h1, gauss_eq]; simp [Width.scale]
  · show some _ = _
    rw [h2, gauss_eq]
    simp [Width.scale, arcsin_sin a1 a2]

/-! ## C73: the polynomial beam -/

/-- C73: in the direction `(az, alt)` the response is a Gaussian of the angle from the axis whose width is the series in
`cos (2 k az)` with coefficients polynomial in the frequency. -/
theorem c73_poly_form (poly : List (List ℝ)) (f az alt : ℝ) (h1 : -(π / 2) < alt) (h2 : alt ≤ π / 2) :
    polyResponse poly f (azalt2top (az, alt)) = exp (-((π / 2 - alt) / seriesWidth poly az f) ^ 2 / 2) := by
  rcases h2.lt_or_eq with h2 | rfl
  · obtain ⟨e1, ⟨k, e2⟩, _⟩ := c21_vec_of_azalt az alt h1 h2
    rw [poly_eq, e1, polyWidth_eq, seriesWidth_same poly f az _ (2 * k) (by rw [e2]; push_cast; ring)]
  · have e : azalt2top (az, π / 2) = thphi2xyz (0, 0) := by
      apply vec3_ext <;> simp [azalt2top, thphi2xyz]
    have e2 : (top2azalt (azalt2top (az, π / 2))).2 = π / 2 := by
      rw [e]
      show π / 2 - (xyz2thphi (thphi2xyz (0, 0))).1 = π / 2
      rw [(c21_poles 0).1]; ring
    rw [poly_eq, e2]; simp

/-- C73: every direction but the nadir is of that form -/
theorem dir_azalt (v : Vec) (hv : IsUnitVec v) (hn : v ≠ ![0, 0, -1]) :
    ∃ az alt, -(π / 2) < alt ∧ alt ≤ π / 2 ∧ v = azalt2top (az, alt) := by
  have h0 : v ≠ 0 := by
    rintro rfl
    unfold IsUnitVec at hv
    simp at hv
  have hl : len v = 1 := by unfold len; rw [hv, sqrt_one]
  have e : v = azalt2top (top2azalt v) := by rw [c21_azalt_of_vec v h0, hl, inv_one, one_smul]
  obtain ⟨_, _, ⟨_, _, r1, r2⟩⟩ := c21_ranges v
  refine ⟨_, _, r1.lt_of_ne ?_, r2, e⟩
  intro h
  apply hn
  rw [e]
  have : top2azalt v = ((top2azalt v).1, -(π / 2)) := Prod.ext rfl h.symm
  rw [this]
  have e3 : π / 2 + π / 2 = π := by ring
  apply vec3_ext <;> simp [azalt2top, thphi2xyz, e3]

/-- C73: the response is positive and at most one, and it is one on the axis; it is one nowhere else where the width
is not zero. -/
theorem c73_poly_range (poly : List (List ℝ)) (f : ℝ) (v : Vec) :
    0 < polyResponse poly f v ∧ polyResponse poly f v ≤ 1 ∧ polyResponse poly f ![0, 0, 1] = 1 := by
  refine ⟨?_, ?_, ?_⟩
  · rw [poly_eq]; exact exp_pos _
  · rw [poly_eq]
    apply exp_le_one_iff.2
    have := sq_nonneg ((π / 2 - (top2azalt v).2) / polyWidth poly (top2azalt v).1 f)
    linarith
  · have e : (![0, 0, 1] : Vec) = azalt2top (0, π / 2) := by
      apply vec3_ext <;> simp [azalt2top, thphi2xyz]
    rw [e, c73_poly_form poly f 0 (π / 2) (by linarith [pi_pos]) le_rfl]
    simp

theorem c73_poly_peak (poly : List (List ℝ)) (f az alt : ℝ) (h1 : -(π / 2) < alt) (h2 : alt ≤ π / 2)
    (hs : seriesWidth poly az f ≠ 0) : polyResponse poly f (azalt2top (az, alt)) = 1 ↔ alt = π / 2 := by
  rw [c73_poly_form poly f az alt h1 h2, exp_eq_one_iff]
  constructor
  · intro h
    have : ((π / 2 - alt) / seriesWidth poly az f) ^ 2 = 0 := by linarith
    have := (div_eq_zero_iff.1 (pow_eq_zero_iff two_ne_zero |>.1 this)).resolve_right hs
    linarith
  · rintro rfl; simp

/-- C73: along every azimuth the response falls with the angle from the axis. -/
theorem c73_poly_falls (poly : List (List ℝ)) (f az alt alt' : ℝ) (h1 : -(π / 2) < alt) (h : alt ≤ alt')
    (h2 : alt' ≤ π / 2) :
    polyResponse poly f (azalt2top (az, alt)) ≤ polyResponse poly f (azalt2top (az, alt')) := by
  rw [c73_poly_form poly f az alt h1 (h.trans h2), c73_poly_form poly f az alt' (h1.trans_le h) h2, exp_le_exp,
    div_pow, div_pow]
  have : (π / 2 - alt') ^ 2 / seriesWidth poly az f ^ 2 ≤ (π / 2 - alt) ^ 2 / seriesWidth poly az f ^ 2 := by
    apply div_le_div_of_nonneg_right _ (sq_nonneg _)
    nlinarith
  linarith

/-- C73: both patterns are symmetric under a half turn about the axis of the beam (for the polynomial beam, away from the
nadir), -/
theorem c73_half_turn (xw yw : Width) (poly : List (List ℝ)) (f : ℝ) (v : Vec) (hv : IsUnitVec v)
    (hn : v ≠ ![0, 0, -1]) :
    gaussResponse xw yw (rot_m π ![0, 0, 1] *ᵥ v) = gaussResponse xw yw v ∧
    polyResponse poly f (rot_m π ![0, 0, 1] *ᵥ v) = polyResponse poly f v := by
  have e : ∀ w : Vec, rot_m π ![0, 0, 1] *ᵥ w = ![-w 0, -w 1, w 2] := by
    intro w
    apply vec3_ext <;> simp [rot_m, mulVec, dotProduct, Fin.sum_univ_three]
  constructor
  · rw [e, gauss_eq, gauss_eq]
    have k : ∀ (u : Width) (a : ℝ), (u.scale (arcsin (-a))) ^ 2 = (u.scale (arcsin a)) ^ 2 := by
      intro u a
      cases u with
      | inf => rfl
      | fin w => show (arcsin (-a) / w) ^ 2 = (arcsin a / w) ^ 2; rw [arcsin_neg]; ring
    show exp (-((xw.scale (arcsin (-v 0))) ^ 2 + (yw.scale (arcsin (-v 1))) ^ 2) / 4) = _
    rw [k, k]
  · obtain ⟨az, alt, h1, h2, rfl⟩ := dir_azalt v hv hn
    have e2 : rot_m π ![0, 0, 1] *ᵥ azalt2top (az, alt) = azalt2top (az + π, alt) := by
      rw [e]
      have e3 : π / 2 - (az + π) = π / 2 - az - π := by ring
      apply vec3_ext <;> simp [azalt2top, thphi2xyz, e3, cos_sub_pi, sin_sub_pi]
    rw [e2, c73_poly_form poly f _ alt h1 h2, c73_poly_form poly f _ alt h1 h2,
      seriesWidth_same poly f az (az + π) 1 (by push_cast; ring)]

/-- C73: so that for these beams it does not matter in which sense the feeds are at right angles: the response of feed
`y` is that of feed `x` a quarter turn away about the direction the antenna points at, either way. -/
theorem c73_feeds_either_way (xw yw : Width) (poly : List (List ℝ)) (f az alt twist : ℝ) (v : Vec) (hv : IsUnitVec v)
    (hn : v ≠ -azalt2top (az, alt)) (s : ℝ) (hs : s = π / 2 ∨ s = -(π / 2)) :
    bmResponse (gaussResponse xw yw) az alt twist 'y' (rot_m s (azalt2top (az, alt)) *ᵥ v) =
      bmResponse (gaussResponse xw yw) az alt twist 'x' v ∧
    bmResponse (polyResponse poly f) az alt twist 'y' (rot_m s (azalt2top (az, alt)) *ᵥ v) =
      bmResponse (polyResponse poly f) az alt twist 'x' v := by
  have hr := rotX_rotation az alt twist
  set R := rotPolX az alt twist with hR
  have hu : IsUnitVec (R *ᵥ v) := by
    have h := rotation_dot hr v v
    unfold IsUnitVec at hv ⊢
    simp only [dotProduct, Fin.sum_univ_three] at h
    linarith
  have hn' : R *ᵥ v ≠ ![0, 0, -1] := by
    intro h
    apply hn
    apply rotation_inj hr
    rw [h, mulVec_neg, rotX_centre]
    apply vec3_ext <;> simp [zAxis]
  rcases hs with rfl | rfl
  · exact ⟨c72_feeds _ _ _ _ _, c72_feeds _ _ _ _ _⟩
  · have e : rotPolY az alt twist *ᵥ (rot_m (-(π / 2)) (azalt2top (az, alt)) *ᵥ v) =
        rot_m π ![0, 0, 1] *ᵥ (R *ᵥ v) := by
      have h2 : rot_m (-π) zAxis = rot_m π zAxis := by
        apply mat3_ext <;> simp [rot_m]
      show (rot_m (-(π / 2)) zAxis * R) *ᵥ _ = _
      rw [mulVec_mulVec, Matrix.mul_assoc, rot_conj hr, hR, rotX_centre, ← Matrix.mul_assoc,
        ← c19_additive _ _ _ unit_z, ← mulVec_mulVec]
      have : -(π / 2) + -(π / 2) = -π := by ring
      rw [this, h2]; rfl
    have h := c73_half_turn xw yw poly f (R *ᵥ v) hu hn'
    constructor
    · show some (gaussResponse xw yw (rotPolY az alt twist *ᵥ _)) = some (gaussResponse xw yw (R *ᵥ v))
      rw [e, h.1]
    · show some (polyResponse poly f (rotPolY az alt twist *ᵥ _)) = some (polyResponse poly f (R *ᵥ v))
      rw [e, h.2]

/-- a polynomial beam with a width that depends on azimuth and frequency and is not zero -/
example : seriesWidth [[1, 2], [0, 1]] (π / 2) 1 = 1 / 2 := by
  have e : 2 * (π / 2) = π := by ring
  simp [seriesWidth, asc, e]
  norm_num

example : IsUnitVec ![0, 3/5, 4/5] ∧ (![0, 3/5, 4/5] : Vec) ≠ -azalt2top (0, π / 2) := by
  constructor
  · show (0 : ℝ) ^ 2 + (3 / 5) ^ 2 + (4 / 5) ^ 2 = 1; norm_num
  · intro h
    have := congrFun h 1
    simp [azalt2top, thphi2xyz] at this

example : |(1 : ℝ)| ≤ π / 2 := by rw [abs_one]; exact one_le_pi_div_two

end Verif.Amp
