import Verif.Phs.Props
/-!
# Property C68 : the phase is the delay
-/
namespace Verif.Phs
open Verif.Coord Real

variable (J1 : ℝ → ℝ)

/-- the delay added by the ionosphere at frequency `f`: the source appears shifted by `ion` radians at `mfreq`, and
the shift falls with the square of the frequency -/
noncomputable def ionDelay (mfreq : ℝ) (b : Vec) (f : ℝ) : Option (ℝ × ℝ) → ℝ
  | none => 0
  | some ion => (mfreq / f) ^ 2 * (ion.1 * b 0 + ion.2 * b 1)

/-- C68: in every channel `gen_phs` is `exp(-2πi(f τ + offset))`, where `τ` is the third component of the projected
baseline (a delay in ns) plus the delay of the ionosphere, and the offset is the difference of the antennas' phase
polynomials. -/
theorem c68_phase (a : Arr) (src : Src) (i j : Nat) (mfreq : ℝ) (ion : Option (ℝ × ℝ))
    (sh : Option (ℝ × ℝ × ℝ)) (p : List ℂ) (h : genPhs J1 a src i j mfreq ion sh false = .ok p) :
    ∃ ai aj b, a.ants[i]? = some ai ∧ a.ants[j]? = some aj ∧ getBaseline a i j src = .ok b ∧
      p = a.afreqs.map (fun f => Complex.exp (((-2 * π * (f * (b 2 + ionDelay mfreq b f (ion.or src.ionref)) +
        (polyval aj.phsoff f - polyval ai.phsoff f)) : ℝ) : ℂ) * Complex.I)) := by
  obtain ⟨ai, aj, pr, h1, h2, h3, h4, rfl⟩ := genPhs_ok.1 h
  refine ⟨ai, aj, _, h1, h2, getBaseline_ok.2 ⟨ai, aj, pr, h1, h2, h3, rfl⟩, ?_⟩
  apply List.map_congr_left
  intro f hf
  generalize applyProj pr (aj.pos - ai.pos) = b
  have hw : wAt b f mfreq (ion.or src.ionref) = f * (b 2 + ionDelay mfreq b f (ion.or src.ionref)) := by
    cases hi : ion.or src.ionref with
    | none => simp only [wAt, uvwAt, ionDelay]; ring
    | some io =>
      have hf0 : f ≠ 0 := by
        intro h0
        apply h4
        rw [hi]
        exact ⟨rfl, h0 ▸ hf⟩
      simp only [wAt, uvwAt, ionDelay, refractAt]
      field_simp
  simp only [Bool.false_eq_true, if_false, ampAt, Complex.ofReal_one, mul_one]
  rw [hw]
  unfold expPhs
  congr 1
  push_cast
  ring

/-- C68: for a source given as an equatorial vector the delay is the component of the baseline, in the zenith frame,
along the direction in which the source stands. -/
theorem c68_geometric_delay (a : Arr) (i j : Nat) (v : Vec) (hv : v ≠ 0) (b z : Vec)
    (hb : getBaseline a i j (.vec v) = .ok b) (hz : getBaseline a i j (.str "z") = .ok z) :
    b 2 = z ⬝ᵥ ((len v)⁻¹ • skyToZenith a v) := by
  have := c14_w_is_delay a i j v hv b z hb hz
  have hl := len_pos hv
  rw [dotProduct_smul, smul_eq_mul, ← this]
  field_simp

/-- C68: a `RadioBody` computed for the current time and the vector of its right ascension and declination give the
same baseline, as long as the body is up. -/
theorem c68_body_is_vector (a : Arr) (i j : Nat) (alt ra dec : ℝ) (ion : ℝ × ℝ) (sh : ℝ × ℝ × ℝ)
    (h1 : -(π / 2) < dec) (h2 : dec < π / 2) (halt : 0 ≤ alt) (b : Vec)
    (hb : getBaseline a i j (.body alt (bodyMap a.lst ra dec) ion sh) = .ok b) :
    getBaseline a i j (.vec (radec2eq (ra, dec))) = .ok b := by
  obtain ⟨ai, aj, p, e1, e2, e3, rfl⟩ := getBaseline_ok.1 hb
  have e3 : bodyProj alt (bodyMap a.lst ra dec) = .ok p := e3
  unfold bodyProj at e3
  rw [if_neg (not_lt.mpr halt)] at e3
  cases e3
  obtain ⟨g1, ⟨k, g2⟩, _⟩ := c21_vec_of_radec ra dec h1 h2
  refine getBaseline_ok.2 ⟨ai, aj, _, e1, e2, rfl, ?_⟩
  rw [g1, g2]
  unfold bodyMap
  have hm : eq2top_m (a.lst - (ra + k * (2 * π))) dec = eq2top_m (a.lst - ra) dec := by
    have e : a.lst - (ra + k * (2 * π)) = a.lst - ra - k * (2 * π) := by ring
    rw [e]
    unfold eq2top_m
    rw [sin_sub_int_mul_two_pi, cos_sub_int_mul_two_pi]
  rw [hm]

/-- C68: `gen_uvw` returns the baseline in wavelengths: its length is the frequency times the separation of the
antennas. -/
theorem c68_uvw_length (a : Arr) (i j : Nat) (src : Src) (b : Vec) (hc : Computed src)
    (h : getBaseline a i j src = .ok b) (f : ℝ) :
    ∃ ai aj, a.ants[i]? = some ai ∧ a.ants[j]? = some aj ∧
      len ![(uvwAt b f).1, (uvwAt b f).2.1, (uvwAt b f).2.2] = |f| * len (aj.pos - ai.pos) ∧
      (0 < f → (uvwAt b f).1 = f * b 0 ∧ (uvwAt b f).2.1 = f * b 1 ∧ (uvwAt b f).2.2 = f * b 2) := by
  obtain ⟨ai, aj, h1, h2, h3⟩ := c14_length a i j src b hc h
  refine ⟨ai, aj, h1, h2, ?_, fun _ => ⟨mul_comm _ _, mul_comm _ _, mul_comm _ _⟩⟩
  rw [← h3]
  unfold len
  rw [← sqrt_sq_eq_abs, ← sqrt_mul (sq_nonneg f)]
  congr 1
  simp [uvwAt]
  ring

/-- the east-west pair of antennas: delay -1 ns towards a source setting in the west -/
example : ∃ p, genPhs J1 twoAnts (.vec ![1, 0, 0]) 0 1 (3 / 20) (some (1, 1)) none false = .ok p :=
  ⟨_, genPhs_ok.2 ⟨_, _, _, rfl, rfl, rfl, by simp [twoAnts], rfl⟩⟩

example : ∃ b, getBaseline twoAnts 0 1 (.body 1 (bodyMap (π / 2) 0 0) (0, 0) (0, 0, 0)) = .ok b :=
  ⟨_, getBaseline_ok.2 ⟨_, _, some (bodyMap (π / 2) 0 0), rfl, rfl, by
    show bodyProj 1 _ = _
    unfold bodyProj; rw [if_neg (by norm_num)], rfl⟩⟩

end Verif.Phs
