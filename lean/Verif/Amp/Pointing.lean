import Verif.Coord.Angles
/-!
# Property C72 : where an antenna looks

Model of `Antenna.set_pointing` and `Antenna.bm_response` of `/repo/aipy/amp.py`, over exact real numbers, one direction
at a time (the code takes arrays of directions along the second axis and treats them column by column).
-/
namespace Verif.Amp
open Real Matrix Verif.Coord

/-- the `y` of amp.py 251 -/
def yAxis : Vec := ![0, 1, 0]

/-- the `z` of amp.py 251 -/
def zAxis : Vec := ![0, 0, 1]

/-- `rot_pol_x` of `set_pointing`, amp.py 247-258 -/
noncomputable def rotPolX (az alt twist : ℝ) : Mat :=
  let rot := rot_m (-twist) zAxis
  let rot := rot * rot_m (alt - π / 2) yAxis
  rot * rot_m (-(π / 2 - az)) zAxis

/-- `rot_pol_y`, amp.py 259 -/
noncomputable def rotPolY (az alt twist : ℝ) : Mat := rot_m (-(π / 2)) zAxis * rotPolX az alt twist

/-- `bm_response`, amp.py 260-266; `beam` is `beam.response` and any feed other than `'x'` and `'y'` is a `KeyError` -/
noncomputable def bmResponse {α : Type} (beam : Vec → α) (az alt twist : ℝ) (pol : Char) (top : Vec) : Option α :=
  match pol with
  | 'x' => some (beam (rotPolX az alt twist *ᵥ top))
  | 'y' => some (beam (rotPolY az alt twist *ᵥ top))
  | _ => none

/-! ## Helper lemmas -/

theorem unit_y : IsUnitVec yAxis := by show (0 : ℝ) ^ 2 + 1 ^ 2 + 0 ^ 2 = 1; norm_num
theorem unit_z : IsUnitVec zAxis := by show (0 : ℝ) ^ 2 + 0 ^ 2 + 1 ^ 2 = 1; norm_num

theorem rotation_mul {a b : Mat} (ha : IsRotation a) (hb : IsRotation b) : IsRotation (a * b) := by
  refine ⟨?_, ?_⟩
  · rw [transpose_mul, Matrix.mul_assoc, ← Matrix.mul_assoc b, hb.1, Matrix.one_mul, ha.1]
  · rw [det_mul, ha.2, hb.2, one_mul]

theorem rotation_left {a : Mat} (ha : IsRotation a) : aᵀ * a = 1 := mul_eq_one_comm.1 ha.1

theorem rotation_dot {a : Mat} (ha : IsRotation a) (v w : Vec) : (a *ᵥ v) ⬝ᵥ (a *ᵥ w) = v ⬝ᵥ w := by
  rw [dotProduct_mulVec, vecMul_mulVec, ← dotProduct_mulVec, rotation_left ha, one_mulVec]

theorem rotation_inj {a : Mat} (ha : IsRotation a) {v w : Vec} (h : a *ᵥ v = a *ᵥ w) : v = w := by
  have := congrArg (aᵀ *ᵥ ·) h
  simpa [mulVec_mulVec, rotation_left ha] using this

/-- a rotation is its own matrix of cofactors -/
theorem rotation_cof {a : Mat} (ha : IsRotation a) : a.adjugate = aᵀ := by
  have h := adjugate_mul a
  rw [ha.2, one_smul] at h
  calc a.adjugate = a.adjugate * (a * aᵀ) := by rw [ha.1, Matrix.mul_one]
    _ = aᵀ := by rw [← Matrix.mul_assoc, h, Matrix.one_mul]

theorem rotation_cross {a : Mat} (ha : IsRotation a) (v w : Vec) : a *ᵥ (v ⨯₃ w) = (a *ᵥ v) ⨯₃ (a *ᵥ w) := by
  have h := rotation_cof ha
  rw [adjugate_fin_three] at h
  have c : ∀ i j, aᵀ i j = a j i := fun _ _ => rfl
  have h00 := congrFun (congrFun h 0) 0
  have h01 := congrFun (congrFun h 0) 1
  have h02 := congrFun (congrFun h 0) 2
  have h10 := congrFun (congrFun h 1) 0
  have h11 := congrFun (congrFun h 1) 1
  have h12 := congrFun (congrFun h 1) 2
  have h20 := congrFun (congrFun h 2) 0
  have h21 := congrFun (congrFun h 2) 1
  have h22 := congrFun (congrFun h 2) 2
  rw [c] at h00 h01 h02 h10 h11 h12 h20 h21 h22
  simp at h00 h01 h02 h10 h11 h12 h20 h21 h22
  apply vec3_ext <;> simp [mulVec, dotProduct, Fin.sum_univ_three, cross_apply]
  · rw [← h00, ← h10, ← h20]; ring
  · rw [← h01, ← h11, ← h21]; ring
  · rw [← h02, ← h12, ← h22]; ring

/-- turning the axis along -/
theorem rot_conj {a : Mat} (ha : IsRotation a) (t : ℝ) (v : Vec) : a * rot_m t v = rot_m t (a *ᵥ v) * a := by
  apply Matrix.ext_of_mulVec_single
  intro i
  rw [← mulVec_mulVec, ← mulVec_mulVec, c19_rodrigues, c19_rodrigues, ← rotation_cross ha, rotation_dot ha]
  simp only [mulVec_add, mulVec_smul]

theorem rotX_rotation (az alt twist : ℝ) : IsRotation (rotPolX az alt twist) :=
  rotation_mul (rotation_mul (c19_rotation _ _ unit_z) (c19_rotation _ _ unit_y)) (c19_rotation _ _ unit_z)

theorem rotY_rotation (az alt twist : ℝ) : IsRotation (rotPolY az alt twist) :=
  rotation_mul (c19_rotation _ _ unit_z) (rotX_rotation az alt twist)

theorem rotX_centre (az alt twist : ℝ) : rotPolX az alt twist *ᵥ azalt2top (az, alt) = zAxis := by
  have h1 : rot_m (-(π / 2 - az)) zAxis *ᵥ azalt2top (az, alt) = ![cos alt, 0, sin alt] := by
    have h := sin_sq_add_cos_sq az
    apply vec3_ext <;>
      simp [rot_m, zAxis, mulVec, dotProduct, Fin.sum_univ_three, azalt2top, thphi2xyz, sin_pi_div_two_sub,
        cos_pi_div_two_sub, sin_sub_pi_div_two, cos_sub_pi_div_two]
    · linear_combination cos alt * h
    · ring
  have h2 : rot_m (alt - π / 2) yAxis *ᵥ ![cos alt, 0, sin alt] = zAxis := by
    have h := sin_sq_add_cos_sq alt
    apply vec3_ext <;>
      simp [rot_m, zAxis, yAxis, mulVec, dotProduct, Fin.sum_univ_three, sin_sub_pi_div_two, cos_sub_pi_div_two]
    · ring
    · linear_combination h
  show (rot_m (-twist) zAxis * rot_m (alt - π / 2) yAxis * rot_m (-(π / 2 - az)) zAxis) *ᵥ _ = _
  rw [← mulVec_mulVec, h1, ← mulVec_mulVec, h2]
  exact c19_axis _ _ unit_z

theorem rotY_centre (az alt twist : ℝ) : rotPolY az alt twist *ᵥ azalt2top (az, alt) = zAxis := by
  rw [rotPolY, ← mulVec_mulVec, rotX_centre]
  exact c19_axis _ _ unit_z

/-! ## C72 -/

/-- C72: towards the direction the antenna points at, either feed has the response the beam has at its centre
(straight up), whatever the twist. -/
theorem c72_centre {α : Type} (beam : Vec → α) (az alt twist : ℝ) (p : Char) (hp : p = 'x' ∨ p = 'y') :
    bmResponse beam az alt twist p (azalt2top (az, alt)) = some (beam ![0, 0, 1]) := by
  rcases hp with rfl | rfl
  · show some _ = _; rw [rotX_centre]; rfl
  · show some _ = _; rw [rotY_centre]; rfl

/-- C72: a pointed antenna sees the sky undistorted: some rotation of space turns directions into the coordinates the
beam is evaluated at, so angles between directions, and their handedness, are those of the beam. -/
theorem c72_rigid (az alt twist : ℝ) (p : Char) (hp : p = 'x' ∨ p = 'y') :
    ∃ m : Mat, IsRotation m ∧ (∀ v w, (m *ᵥ v) ⬝ᵥ (m *ᵥ w) = v ⬝ᵥ w) ∧
      ∀ (α : Type) (beam : Vec → α) (top : Vec), bmResponse beam az alt twist p top = some (beam (m *ᵥ top)) := by
  rcases hp with rfl | rfl
  · exact ⟨_, rotX_rotation az alt twist, rotation_dot (rotX_rotation az alt twist), fun _ _ _ => rfl⟩
  · exact ⟨_, rotY_rotation az alt twist, rotation_dot (rotY_rotation az alt twist), fun _ _ _ => rfl⟩

theorem response_of_rot {α : Type} (beam : Vec → α) {az alt twist az' alt' twist' : ℝ} {m : Mat}
    (h : rotPolX az' alt' twist' * m = rotPolX az alt twist) (p : Char) (v : Vec) :
    bmResponse beam az' alt' twist' p (m *ᵥ v) = bmResponse beam az alt twist p v := by
  have hx : rotPolX az' alt' twist' *ᵥ (m *ᵥ v) = rotPolX az alt twist *ᵥ v := by rw [mulVec_mulVec, h]
  have hy : rotPolY az' alt' twist' *ᵥ (m *ᵥ v) = rotPolY az alt twist *ᵥ v := by
    rw [rotPolY, rotPolY, mulVec_mulVec, Matrix.mul_assoc, h]
  unfold bmResponse
  rw [hx, hy]

/-- C72: twisting by `t` turns the pattern of either feed by the angle `t` about the direction the antenna points at,
according to the right-hand rule: what was seen in direction `v` is then seen in the turned direction. -/
theorem c72_twist {α : Type} (beam : Vec → α) (az alt twist t : ℝ) (p : Char) (v : Vec) :
    bmResponse beam az alt (twist + t) p (rot_m t (azalt2top (az, alt)) *ᵥ v) = bmResponse beam az alt twist p v := by
  apply response_of_rot
  rw [rot_conj (rotX_rotation _ _ _), rotX_centre]
  show rot_m t zAxis * (rot_m (-(twist + t)) zAxis * _ * _) = rot_m (-twist) zAxis * _ * _
  rw [← Matrix.mul_assoc, ← Matrix.mul_assoc, ← c19_additive _ _ _ unit_z]
  congr 3; ring

/-- C72: adding to the azimuth turns the pattern about the vertical, clockwise seen from above. -/
theorem c72_azimuth {α : Type} (beam : Vec → α) (az alt twist d : ℝ) (p : Char) (v : Vec) :
    bmResponse beam (az + d) alt twist p (rot_m (-d) ![0, 0, 1] *ᵥ v) = bmResponse beam az alt twist p v := by
  apply response_of_rot
  show rot_m (-twist) zAxis * _ * rot_m (-(π / 2 - (az + d))) zAxis * rot_m (-d) zAxis = _
  rw [Matrix.mul_assoc, ← c19_additive _ _ _ unit_z]
  show _ = rot_m (-twist) zAxis * _ * rot_m (-(π / 2 - az)) zAxis
  congr 2; ring

/-- C72: adding to the altitude raises the pattern: it turns by that much about the horizontal axis to the left of the
pointing, against the right-hand rule. -/
theorem c72_altitude {α : Type} (beam : Vec → α) (az alt twist d : ℝ) (p : Char) (v : Vec) :
    bmResponse beam az (alt + d) twist p (rot_m (-d) ![-cos az, sin az, 0] *ᵥ v) =
      bmResponse beam az alt twist p v := by
  apply response_of_rot
  have hz : rot_m (-(π / 2 - az)) zAxis *ᵥ ![-cos az, sin az, 0] = yAxis := by
    have h := sin_sq_add_cos_sq az
    apply vec3_ext <;>
      simp [rot_m, zAxis, yAxis, mulVec, dotProduct, Fin.sum_univ_three, sin_sub_pi_div_two, cos_sub_pi_div_two]
    · ring
    · linear_combination h
  show rot_m (-twist) zAxis * rot_m (alt + d - π / 2) yAxis * rot_m (-(π / 2 - az)) zAxis * _ =
    rot_m (-twist) zAxis * rot_m (alt - π / 2) yAxis * rot_m (-(π / 2 - az)) zAxis
  rw [Matrix.mul_assoc, rot_conj (c19_rotation (-(π / 2 - az)) _ unit_z), hz, ← Matrix.mul_assoc, Matrix.mul_assoc (rot_m _ _),
    ← c19_additive _ _ _ unit_y]
  congr 3; ring

/-- C72: the pattern of feed `y` is that of feed `x` turned by a quarter turn about the direction the antenna points
at, according to the right-hand rule. -/
theorem c72_feeds {α : Type} (beam : Vec → α) (az alt twist : ℝ) (v : Vec) :
    bmResponse beam az alt twist 'y' (rot_m (π / 2) (azalt2top (az, alt)) *ᵥ v) =
      bmResponse beam az alt twist 'x' v := by
  show some (beam ((rot_m (-(π / 2)) zAxis * rotPolX az alt twist) *ᵥ (rot_m (π / 2) _ *ᵥ v))) = some (beam _)
  rw [mulVec_mulVec, Matrix.mul_assoc, rot_conj (rotX_rotation _ _ _), rotX_centre, ← Matrix.mul_assoc,
    (c19_inverse _ _ unit_z).2.1, Matrix.one_mul]

/-- The docstring says that "polarization y is assumed to be +pi/2 azimuth from pol x".  It is at *minus* a quarter turn
of azimuth: for an antenna looking straight up untwisted, the axis of feed `x` (the direction whose beam coordinates are
`(1, 0, 0)`) is north, azimuth 0, and that of feed `y` is west, azimuth `3π/2`, not east, azimuth `π/2`. -/
theorem c72_y_azimuth_fails (v : Vec) :
    (rotPolX 0 (π / 2) 0 *ᵥ v = ![1, 0, 0] ↔ v = azalt2top (0, 0)) ∧
    (rotPolY 0 (π / 2) 0 *ᵥ v = ![1, 0, 0] ↔ v = azalt2top (3 * π / 2, 0)) ∧
    azalt2top (3 * π / 2, 0) ≠ azalt2top (π / 2, 0) := by
  have hn : azalt2top (0, 0) = ![0, 1, 0] := by
    apply vec3_ext <;> simp [azalt2top, thphi2xyz]
  have hw : azalt2top (3 * π / 2, 0) = ![-1, 0, 0] := by
    have e : π / 2 - 3 * π / 2 = -π := by ring
    apply vec3_ext <;> simp [azalt2top, thphi2xyz, e]
  have hx : rotPolX 0 (π / 2) 0 *ᵥ ![0, 1, 0] = ![1, 0, 0] := by
    apply vec3_ext <;> simp [rotPolX, rot_m, yAxis, zAxis, Matrix.vecHead, Matrix.vecTail]
  have hy : rotPolY 0 (π / 2) 0 *ᵥ ![-1, 0, 0] = ![1, 0, 0] := by
    apply vec3_ext <;> simp [rotPolY, rotPolX, rot_m, yAxis, zAxis, Matrix.vecHead, Matrix.vecTail]
  refine ⟨⟨fun h => ?_, fun h => ?_⟩, ⟨fun h => ?_, fun h => ?_⟩, fun h => ?_⟩
  · rw [hn]; exact rotation_inj (rotX_rotation 0 (π / 2) 0) (h.trans hx.symm)
  · rw [h, hn, hx]
  · rw [hw]; exact rotation_inj (rotY_rotation 0 (π / 2) 0) (h.trans hy.symm)
  · rw [h, hw, hy]
  · rw [hw] at h
    have h0 := congrFun h 0
    simp [azalt2top, thphi2xyz] at h0
    norm_num at h0

/-- a case of `c72_centre`: an antenna looking south at half height, twisted -/
example : bmResponse (fun v => v 2) π (π / 4) 1 'y' (azalt2top (π, π / 4)) = some 1 :=
  c72_centre _ _ _ _ _ (Or.inr rfl)

/-- and away from there the response does depend on the direction -/
example : bmResponse (fun v => v 2) 0 (π / 2) 0 'x' ![0, 1, 0] = some 0 := by
  show some ((rotPolX 0 (π / 2) 0 *ᵥ ![0, 1, 0]) 2) = some 0
  simp [rotPolX, rot_m, yAxis, zAxis, Matrix.vecHead, Matrix.vecTail]

end Verif.Amp
