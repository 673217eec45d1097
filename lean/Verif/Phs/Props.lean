import Verif.Phs.Model
import Verif.Coord.Angles
import Mathlib.Tactic.Abel
/-!
# Properties C14, C15, C16 : baselines and phases
-/
namespace Verif.Phs
open Verif.Coord Real

/-! ## Reading the model -/

theorem getAnt_ok {a : Arr} {i : Nat} {x : Ant} : getAnt a i = .ok x ↔ a.ants[i]? = some x := by
  unfold getAnt
  cases a.ants[i]? <;> simp

theorem getBaseline_ok {a : Arr} {i j : Nat} {src : Src} {b : Vec} :
    getBaseline a i j src = .ok b ↔ ∃ ai aj p, a.ants[i]? = some ai ∧ a.ants[j]? = some aj ∧
      projection a src = .ok p ∧ b = applyProj p (aj.pos - ai.pos) := by
  unfold getBaseline
  cases hj : getAnt a j with
  | error e =>
    constructor
    · intro h; cases h
    · rintro ⟨ai, aj, p, _, h2, _⟩
      rw [← getAnt_ok, hj] at h2; cases h2
  | ok aj =>
    cases hi : getAnt a i with
    | error e =>
      constructor
      · intro h; cases h
      · rintro ⟨ai, aj, p, h1, _⟩
        rw [← getAnt_ok, hi] at h1; cases h1
    | ok ai =>
      cases hp : projection a src with
      | error e =>
        constructor
        · intro h; cases h
        · rintro ⟨_, _, p, _, _, h, _⟩; cases h
      | ok p =>
        rw [getAnt_ok] at hi hj
        constructor
        · intro h
          cases h
          exact ⟨ai, aj, p, hi, hj, rfl, rfl⟩
        · rintro ⟨_, _, _, h1, h2, h3, rfl⟩
          rw [hi] at h1; rw [hj] at h2; cases h1; cases h2; cases h3; rfl

theorem getPhsOffset_ok {a : Arr} {i j : Nat} {ai aj : Ant} (hi : a.ants[i]? = some ai) (hj : a.ants[j]? = some aj) :
    getPhsOffset a i j = .ok (a.afreqs.map (fun f => polyval aj.phsoff f - polyval ai.phsoff f)) := by
  unfold getPhsOffset
  rw [getAnt_ok.2 hi, getAnt_ok.2 hj]; rfl

theorem zipWith_map_self {α β γ : Type} (g : α → β → γ) (h : α → β) (l : List α) :
    List.zipWith g l (l.map h) = l.map (fun x => g x (h x)) := by
  induction l with
  | nil => rfl
  | cons x l ih => simp [ih]

theorem genPhs_ok {J1 : ℝ → ℝ} {a : Arr} {src : Src} {i j : Nat} {mfreq : ℝ} {ionref : Option (ℝ × ℝ)}
    {sh : Option (ℝ × ℝ × ℝ)} {res : Bool} {p : List ℂ} :
    genPhs J1 a src i j mfreq ionref sh res = .ok p ↔ ∃ ai aj pr, a.ants[i]? = some ai ∧ a.ants[j]? = some aj ∧
      projection a src = .ok pr ∧ ¬ ((ionref.or src.ionref).isSome ∧ (0 : ℝ) ∈ a.afreqs) ∧
      p = a.afreqs.map (fun f => expPhs (wAt (applyProj pr (aj.pos - ai.pos)) f mfreq (ionref.or src.ionref))
        (polyval aj.phsoff f - polyval ai.phsoff f) *
        (ampAt J1 (applyProj pr (aj.pos - ai.pos)) f (if res then sh.or src.shape else none) : ℂ)) := by
  unfold genPhs genPhsWith
  cases hb : getBaseline a i j src with
  | error e =>
    constructor
    · intro h; cases h
    · rintro ⟨ai, aj, pr, h1, h2, h3, _⟩
      have := getBaseline_ok.2 ⟨ai, aj, pr, h1, h2, h3, rfl⟩
      rw [hb] at this; cases this
  | ok b =>
    obtain ⟨ai, aj, pr, h1, h2, h3, rfl⟩ := getBaseline_ok.1 hb
    rw [getPhsOffset_ok h1 h2]
    constructor
    · intro h
      have h : (if (ionref.or src.ionref).isSome ∧ (0 : ℝ) ∈ a.afreqs then (Except.error Err.nonfinite : Except Err (List ℂ))
          else Except.ok _) = Except.ok p := h
      split at h
      · cases h
      · rename_i hn
        cases h
        refine ⟨ai, aj, pr, h1, h2, h3, hn, ?_⟩
        rw [zipWith_map_self]
    · rintro ⟨ai', aj', pr', h1', h2', h3', hn, rfl⟩
      rw [h1] at h1'; rw [h2] at h2'; rw [h3] at h3'
      cases h1'; cases h2'; cases h3'
      show (if (ionref.or src.ionref).isSome ∧ (0 : ℝ) ∈ a.afreqs then (Except.error Err.nonfinite : Except Err (List ℂ))
          else Except.ok _) = _
      rw [if_neg hn, zipWith_map_self]

theorem applyProj_add (p : Option Mat) (x y : Vec) : applyProj p (x + y) = applyProj p x + applyProj p y := by
  cases p with
  | none => rfl
  | some m => exact Matrix.mulVec_add _ _ _

theorem applyProj_neg (p : Option Mat) (x : Vec) : applyProj p (-x) = -applyProj p x := by
  cases p with
  | none => rfl
  | some m => exact Matrix.mulVec_neg _ _

/-! ## C14 -/

/-- C14: the baseline is antisymmetric in every projection. -/
theorem c14_antisymmetric (a : Arr) (i j : Nat) (src : Src) (b : Vec) (h : getBaseline a i j src = .ok b) :
    getBaseline a j i src = .ok (-b) := by
  obtain ⟨ai, aj, p, h1, h2, h3, rfl⟩ := getBaseline_ok.1 h
  refine getBaseline_ok.2 ⟨aj, ai, p, h2, h1, h3, ?_⟩
  rw [← applyProj_neg, neg_sub]

/-- C14: an antenna has no baseline with itself. -/
theorem c14_zero (a : Arr) (i : Nat) (src : Src) (b : Vec) (h : getBaseline a i i src = .ok b) : b = 0 := by
  obtain ⟨ai, aj, p, h1, h2, h3, rfl⟩ := getBaseline_ok.1 h
  rw [h1] at h2; cases h2
  rw [sub_self]
  cases p with
  | none => rfl
  | some m => exact Matrix.mulVec_zero _

/-- C14: baselines close around triangles. -/
theorem c14_closure (a : Arr) (i j k : Nat) (src : Src) (b c : Vec) (h1 : getBaseline a i j src = .ok b)
    (h2 : getBaseline a j k src = .ok c) : getBaseline a i k src = .ok (b + c) := by
  obtain ⟨ai, aj, p, e1, e2, e3, rfl⟩ := getBaseline_ok.1 h1
  obtain ⟨aj', ak, p', f1, f2, f3, rfl⟩ := getBaseline_ok.1 h2
  rw [e2] at f1; rw [e3] at f3
  cases f1; cases f3
  refine getBaseline_ok.2 ⟨ai, ak, p, e1, f2, e3, ?_⟩
  rw [← applyProj_add]
  congr 1
  abel

/-- the projection held by a source is one computed by `RadioBody.compute` at some time -/
def Computed : Src → Prop
  | .body _ m _ _ => ∃ lst ra dec, m = bodyMap lst ra dec
  | _ => True

theorem len_of_rotation {m : Mat} (h : m * m.transpose = 1) (v : Vec) : len (m.mulVec v) = len v := by
  have h' : m.transpose * m = 1 := by
    have := mul_eq_one_comm.1 h; exact this
  have hd : ∀ w : Vec, w 0 ^ 2 + w 1 ^ 2 + w 2 ^ 2 = w ⬝ᵥ w := by
    intro w; rw [dotProduct, Fin.sum_univ_three]; ring
  unfold len
  rw [hd, hd, Matrix.dotProduct_mulVec, Matrix.vecMul_mulVec, ← Matrix.dotProduct_mulVec, h']
  simp

theorem projection_len {a : Arr} {src : Src} {p : Option Mat} (hc : Computed src) (h : projection a src = .ok p)
    (v : Vec) : len (applyProj p v) = len v := by
  cases p with
  | none => rfl
  | some m =>
    apply len_of_rotation
    cases src with
    | str s =>
      have h : strProj a s = .ok (some m) := h
      unfold strProj at h
      split at h
      · split at h
        · cases h
          exact (c19_rotation _ _ (by show (0:ℝ)^2 + 0^2 + 1^2 = 1; norm_num)).1
        · cases h
      · split at h
        · cases h; exact (c20_rotation _ _).1
        · split at h <;> cases h
    | body alt m' ion sh =>
      have h : bodyProj alt m' = .ok (some m) := h
      unfold bodyProj at h
      split at h
      · cases h
      · cases h
        obtain ⟨lst, ra, dec, rfl⟩ := hc
        exact (c20_rotation _ _).1
    | vec v' =>
      cases h
      exact (c20_rotation _ _).1

/-- C14: the length of a baseline is the distance of the antennas, whatever the frame. -/
theorem c14_length (a : Arr) (i j : Nat) (src : Src) (b : Vec) (hc : Computed src)
    (h : getBaseline a i j src = .ok b) :
    ∃ ai aj, a.ants[i]? = some ai ∧ a.ants[j]? = some aj ∧ len b = len (aj.pos - ai.pos) := by
  obtain ⟨ai, aj, p, h1, h2, h3, rfl⟩ := getBaseline_ok.1 h
  exact ⟨ai, aj, h1, h2, projection_len hc h3 _⟩

/-- the direction of a source above the array, in zenith coordinates: `sim_cache` uses this matrix (amp.py 294, 326) -/
noncomputable def skyToZenith (a : Arr) (v : Vec) : Vec := (eq2top_m (-a.lst) a.lat).mulVec v

/-- C14: towards a source given as an equatorial vector, the third component of the projected baseline is the
component along the source of the zenith-frame baseline: the geometric delay does not depend on the frame. -/
theorem c14_w_is_delay (a : Arr) (i j : Nat) (v : Vec) (hv : v ≠ 0) (b z : Vec)
    (hb : getBaseline a i j (.vec v) = .ok b) (hz : getBaseline a i j (.str "z") = .ok z) :
    b 2 * len v = z ⬝ᵥ skyToZenith a v := by
  obtain ⟨ai, aj, p, h1, h2, h3, rfl⟩ := getBaseline_ok.1 hb
  obtain ⟨ai', aj', p', h1', h2', h3', rfl⟩ := getBaseline_ok.1 hz
  rw [h1] at h1'; rw [h2] at h2'; cases h1'; cases h2'
  cases h3
  have : p' = some (eq2zen a) := by
    have h : strProj a "z" = .ok p' := h3'
    unfold strProj at h
    rw [if_neg (by decide), if_pos rfl] at h
    cases h; rfl
  subst this
  have hl := len_pos hv
  have hvv : v = len v • radec2eq (eq2radec v) := by
    rw [c21_radec_of_vec v hv, smul_smul, mul_inv_cancel₀ hl.ne', one_smul]
  set ra := (eq2radec v).1
  set dec := (eq2radec v).2
  have e0 : v 0 = len v * (cos dec * cos ra) := by
    rw [hvv]
    simp only [Pi.smul_apply, smul_eq_mul]
    rw [← hvv]
    simp [radec2eq, thphi2xyz, sin_pi_div_two_sub, ra, dec]
  have e1 : v 1 = len v * (cos dec * sin ra) := by
    rw [hvv]
    simp only [Pi.smul_apply, smul_eq_mul]
    rw [← hvv]
    simp [radec2eq, thphi2xyz, sin_pi_div_two_sub, ra, dec]
  have e2 : v 2 = len v * sin dec := by
    rw [hvv]
    simp only [Pi.smul_apply, smul_eq_mul]
    rw [← hvv]
    simp [radec2eq, thphi2xyz, cos_pi_div_two_sub, dec]
  have hs := sin_sq_add_cos_sq a.lat
  simp [applyProj, skyToZenith, eq2zen, eq2top_m, Matrix.mulVec, dotProduct, Fin.sum_univ_three, cos_sub, sin_sub, e0, e1, e2]
  generalize len v = L
  generalize aj.pos 0 - ai.pos 0 = x; generalize aj.pos 1 - ai.pos 1 = y; generalize aj.pos 2 - ai.pos 2 = zz
  generalize sin a.lat = s at *; generalize cos a.lat = c at *
  linear_combination -(x * L * (cos dec * (cos a.lst * cos ra + sin a.lst * sin ra)) + zz * L * sin dec) * hs

/-- an array of two antennas 1 ns apart along the east-west axis, at sidereal time 6h -/
noncomputable def twoAnts : Arr := ⟨[⟨![0, 0, 0], [0, 0]⟩, ⟨![0, 1, 0], [1, 0]⟩], [1], 0, π / 2, true⟩

/-- The frame `'e'`, documented as current equatorial, is rotated the wrong way: the component of the `'e'` baseline
along an equatorial source direction is not the delay towards that source (here it has the opposite sign). -/
theorem c14_equatorial_frame_violated : ∃ b e : Vec, getBaseline twoAnts 0 1 (.vec ![1, 0, 0]) = .ok b ∧
    getBaseline twoAnts 0 1 (.str "e") = .ok e ∧ b 2 = -1 ∧ e ⬝ᵥ ![1, 0, 0] = 1 := by
  have hrd : eq2radec ![1, 0, 0] = (0, 0) := by
    have := (c21_vec_of_radec 0 0 (by linarith [pi_pos]) (by linarith [pi_pos])).2.2 le_rfl (by linarith [pi_pos])
    rwa [c21_conventions.2.2.2.1] at this
  refine ⟨_, _, getBaseline_ok.2 ⟨_, _, _, rfl, rfl, rfl, rfl⟩, 
    getBaseline_ok.2 ⟨_, _, some (eq2now twoAnts), rfl, rfl, ?_, rfl⟩, ?_, ?_⟩
  · show strProj twoAnts "e" = _
    unfold strProj; rw [if_pos rfl]; rfl
  · rw [hrd]
    simp [applyProj, eq2top_m, Matrix.mulVec, dotProduct, Fin.sum_univ_three, twoAnts]
  · simp [applyProj, eq2now, rot_m, Matrix.mulVec, dotProduct, Fin.sum_univ_three, twoAnts]

/-! ## C15, C16 -/

theorem expPhs_add (w o w' o' : ℝ) : expPhs (w + w') (o + o') = expPhs w o * expPhs w' o' := by
  unfold expPhs
  rw [← Complex.exp_add]
  congr 1
  push_cast
  ring

theorem expPhs_zero : expPhs 0 0 = 1 := by unfold expPhs; simp

theorem expPhs_norm (w o : ℝ) : ‖expPhs w o‖ = 1 := by
  unfold expPhs
  have : -Complex.I * 2 * π * (w + o) = ((-2 * π * (w + o) : ℝ) : ℂ) * Complex.I := by push_cast; ring
  rw [this, Complex.norm_exp_ofReal_mul_I]

theorem expPhs_conj (w o : ℝ) : expPhs (-w) (-o) = (starRingEnd ℂ) (expPhs w o) := by
  have h1 : expPhs w o * expPhs (-w) (-o) = 1 := by
    rw [← expPhs_add, add_neg_cancel, add_neg_cancel, expPhs_zero]
  have h2 : expPhs w o * (starRingEnd ℂ) (expPhs w o) = 1 := by
    rw [Complex.mul_conj, Complex.normSq_eq_norm_sq, expPhs_norm]; simp
  have hne : expPhs w o ≠ 0 := by
    intro h; rw [h, zero_mul] at h1; exact zero_ne_one h1
  exact mul_left_cancel₀ hne (h1.trans h2.symm)

theorem wAt_add (b c : Vec) (f mfreq : ℝ) (ion : Option (ℝ × ℝ)) :
    wAt (b + c) f mfreq ion = wAt b f mfreq ion + wAt c f mfreq ion := by
  cases ion with
  | none => simp [wAt, uvwAt]; ring
  | some ion => simp [wAt, uvwAt, refractAt]; ring

theorem wAt_neg (b : Vec) (f mfreq : ℝ) (ion : Option (ℝ × ℝ)) : wAt (-b) f mfreq ion = -wAt b f mfreq ion := by
  cases ion with
  | none => simp [wAt, uvwAt]
  | some ion => simp [wAt, uvwAt, refractAt]; ring

theorem ampAt_neg (J1 : ℝ → ℝ) (b : Vec) (f : ℝ) (sh : Option (ℝ × ℝ × ℝ)) : ampAt J1 (-b) f sh = ampAt J1 b f sh := by
  cases sh with
  | none => rfl
  | some sh =>
    obtain ⟨a1, a2, th⟩ := sh
    have e1 : ∀ u v : ℝ, (a1 * (-u * cos th - -v * sin th)) ^ 2 + (a2 * (-u * sin th + -v * cos th)) ^ 2 =
        (a1 * (u * cos th - v * sin th)) ^ 2 + (a2 * (u * sin th + v * cos th)) ^ 2 := by intro u v; ring
    simp only [ampAt, uvwAt, resolveAt, Pi.neg_apply, neg_mul] at e1 ⊢
    simp only [e1]

variable (J1 : ℝ → ℝ)

/-- C15: the phase applied has unit modulus. -/
theorem c15_unit_modulus (a : Arr) (src : Src) (i j : Nat) (mfreq : ℝ) (ion : Option (ℝ × ℝ))
    (sh : Option (ℝ × ℝ × ℝ)) (p : List ℂ) (h : genPhs J1 a src i j mfreq ion sh false = .ok p) :
    p.length = a.afreqs.length ∧ ∀ c ∈ p, ‖c‖ = 1 := by
  obtain ⟨ai, aj, pr, _, _, _, _, rfl⟩ := genPhs_ok.1 h
  refine ⟨by simp, ?_⟩
  intro c hc
  rw [List.mem_map] at hc
  obtain ⟨f, _, rfl⟩ := hc
  simp [ampAt, expPhs_norm]

theorem bcast_inverse {x p : List ℂ} (hp : ∀ c ∈ p, c ≠ 0) (hl : x.length = p.length ∨ p.length = 1) :
    ∃ y, bcast (· * ·) x p = .ok y ∧ y.length = x.length ∧ bcast (· / ·) y p = .ok x := by
  have hz : ∀ x p : List ℂ, x.length = p.length → (∀ c ∈ p, c ≠ 0) →
      List.zipWith (· / ·) (List.zipWith (· * ·) x p) p = x := by
    intro x
    induction x with
    | nil => intros; simp
    | cons d x ih =>
      intro p hlen hne
      cases p with
      | nil => cases hlen
      | cons c p =>
        simp only [List.zipWith_cons_cons]
        rw [ih p (by simpa using hlen) (fun c hc => hne c (by simp [hc]))]
        rw [mul_div_cancel_right₀ _ (hne c (by simp))]
  by_cases hlen : x.length = p.length
  · refine ⟨List.zipWith (· * ·) x p, ?_, ?_, ?_⟩
    · unfold bcast; rw [if_pos hlen]
    · simp [hlen]
    · unfold bcast
      rw [if_pos (by simp [hlen]), hz x p hlen hp]
  · have h1 : p.length = 1 := hl.resolve_left hlen
    obtain ⟨c, rfl⟩ := List.length_eq_one_iff.1 h1
    refine ⟨x.map (fun d => d * c), ?_, by simp, ?_⟩
    · unfold bcast; rw [if_neg hlen]
    · unfold bcast
      rw [if_neg (by simpa using hlen)]
      simp only [List.map_map, Except.ok.injEq]
      conv => rhs; rw [← List.map_id x]
      apply List.map_congr_left
      intro d _
      exact mul_div_cancel_right₀ _ (hp c (by simp))

/-- C15: unphasing undoes phasing, for data with one value per active channel (or any data if only one channel is
active). -/
theorem c15_inverse (a : Arr) (data : List ℂ) (src : Src) (i j : Nat) (mfreq : ℝ) (ion : Option (ℝ × ℝ))
    (sh : Option (ℝ × ℝ × ℝ)) (d : List ℂ) (h : phs2src J1 a data src i j mfreq ion sh = .ok d)
    (hl : data.length = a.afreqs.length ∨ a.afreqs.length = 1) :
    unphs2src J1 a d src i j mfreq ion sh = .ok data := by
  unfold phs2src at h
  unfold unphs2src
  cases hp : genPhs J1 a src i j mfreq ion sh false with
  | error e => rw [hp] at h; cases h
  | ok p =>
    rw [hp] at h
    obtain ⟨h1, h2⟩ := c15_unit_modulus J1 a src i j mfreq ion sh p hp
    have hne : ∀ c ∈ p, c ≠ 0 := by
      intro c hc he; have := h2 c hc; rw [he] at this; simp at this
    rw [← h1] at hl
    obtain ⟨y, e1, _, e3⟩ := bcast_inverse hne hl
    have h : bcast (· * ·) data p = .ok d := h
    rw [e1] at h; cases h
    exact e3

/-- C15: phasing never fails where the phase is defined, and keeps the length. -/
theorem c15_total (a : Arr) (data : List ℂ) (src : Src) (i j : Nat) (mfreq : ℝ) (ion : Option (ℝ × ℝ))
    (sh : Option (ℝ × ℝ × ℝ)) (p : List ℂ) (h : genPhs J1 a src i j mfreq ion sh false = .ok p)
    (hl : data.length = a.afreqs.length) :
    ∃ d, phs2src J1 a data src i j mfreq ion sh = .ok d ∧ d.length = data.length := by
  obtain ⟨h1, h2⟩ := c15_unit_modulus J1 a src i j mfreq ion sh p h
  refine ⟨List.zipWith (· * ·) data p, ?_, by simp [h1, hl]⟩
  unfold phs2src
  rw [h]
  show bcast _ _ _ = _
  unfold bcast
  rw [if_pos (by rw [hl, h1])]

/-- C15: exchanging the antennas conjugates the phase (also with refraction and resolved sources). -/
theorem c15_conjugate (a : Arr) (src : Src) (i j : Nat) (mfreq : ℝ) (ion : Option (ℝ × ℝ))
    (sh : Option (ℝ × ℝ × ℝ)) (res : Bool) (p : List ℂ) (h : genPhs J1 a src i j mfreq ion sh res = .ok p) :
    genPhs J1 a src j i mfreq ion sh res = .ok (p.map (starRingEnd ℂ)) := by
  obtain ⟨ai, aj, pr, h1, h2, h3, h4, rfl⟩ := genPhs_ok.1 h
  refine genPhs_ok.2 ⟨aj, ai, pr, h2, h1, h3, h4, ?_⟩
  rw [List.map_map]
  apply List.map_congr_left
  intro f _
  have e : applyProj pr (ai.pos - aj.pos) = -applyProj pr (aj.pos - ai.pos) := by
    rw [← applyProj_neg, neg_sub]
  have eo : polyval ai.phsoff f - polyval aj.phsoff f = -(polyval aj.phsoff f - polyval ai.phsoff f) := by ring
  rw [Function.comp, map_mul, Complex.conj_ofReal, ← expPhs_conj, e, wAt_neg, ampAt_neg, eo]

/-- C15: an antenna with itself has phase one. -/
theorem c15_auto (a : Arr) (src : Src) (i : Nat) (mfreq : ℝ) (ion : Option (ℝ × ℝ))
    (sh : Option (ℝ × ℝ × ℝ)) (p : List ℂ) (h : genPhs J1 a src i i mfreq ion sh false = .ok p) :
    ∀ c ∈ p, c = 1 := by
  obtain ⟨ai, aj, pr, h1, h2, h3, h4, rfl⟩ := genPhs_ok.1 h
  rw [h1] at h2; cases h2
  intro c hc
  rw [List.mem_map] at hc
  obtain ⟨f, _, rfl⟩ := hc
  have e0 : applyProj pr (ai.pos - ai.pos) = 0 := by
    rw [sub_self]; cases pr with
    | none => rfl
    | some m => exact Matrix.mulVec_zero _
  have e1 : wAt 0 f mfreq (ion.or src.ionref) = 0 := by
    cases ion.or src.ionref with
    | none => simp [wAt, uvwAt]
    | some _ => simp [wAt, uvwAt, refractAt]
  rw [e0, e1, sub_self, expPhs_zero]
  simp [ampAt]

/-- C16: phase closure: around any triangle the phases multiply to one in every channel, whatever the antenna delays
and offsets, the direction and the refraction. -/
theorem c16_closure (a : Arr) (src : Src) (i j k : Nat) (mfreq : ℝ) (ion : Option (ℝ × ℝ))
    (sh : Option (ℝ × ℝ × ℝ)) (p q r : List ℂ) (h1 : genPhs J1 a src i j mfreq ion sh false = .ok p)
    (h2 : genPhs J1 a src j k mfreq ion sh false = .ok q) (h3 : genPhs J1 a src k i mfreq ion sh false = .ok r) :
    List.zipWith (· * ·) (List.zipWith (· * ·) p q) r = List.replicate a.afreqs.length 1 := by
  obtain ⟨ai, aj, pr, e1, e2, e3, _, rfl⟩ := genPhs_ok.1 h1
  obtain ⟨aj', ak, pr', f1, f2, f3, _, rfl⟩ := genPhs_ok.1 h2
  obtain ⟨ak', ai', pr'', g1, g2, g3, _, rfl⟩ := genPhs_ok.1 h3
  rw [e2] at f1; rw [e3] at f3 g3; rw [f2] at g1; rw [e1] at g2
  cases f1; cases f3; cases g1; cases g2; cases g3
  have hz : ∀ (l : List ℝ) (A B C : ℝ → ℂ), (∀ f ∈ l, A f * B f * C f = 1) →
      List.zipWith (· * ·) (List.zipWith (· * ·) (l.map A) (l.map B)) (l.map C) = List.replicate l.length 1 := by
    intro l A B C
    induction l with
    | nil => intro; rfl
    | cons f l ih =>
      intro h
      simp only [List.map_cons, List.zipWith_cons_cons, List.length_cons, List.replicate_succ]
      rw [h f (by simp), ih (fun g hg => h g (by simp [hg]))]
  apply hz
  intro f _
  simp only [Bool.false_eq_true, if_false, ampAt, Complex.ofReal_one, mul_one]
  rw [← expPhs_add, ← expPhs_add, ← wAt_add, ← wAt_add, ← applyProj_add, ← applyProj_add]
  have hv : aj.pos - ai.pos + (ak.pos - aj.pos) + (ai.pos - ak.pos) = 0 := by abel
  have ho : polyval aj.phsoff f - polyval ai.phsoff f + (polyval ak.phsoff f - polyval aj.phsoff f) +
      (polyval ai.phsoff f - polyval ak.phsoff f) = 0 := by ring
  have e0 : applyProj pr 0 = 0 := by
    cases pr with
    | none => rfl
    | some m => exact Matrix.mulVec_zero _
  have ew : wAt 0 f mfreq (ion.or src.ionref) = 0 := by
    cases ion.or src.ionref with
    | none => simp [wAt, uvwAt]
    | some _ => simp [wAt, uvwAt, refractAt]
  rw [hv, ho, e0, ew, expPhs_zero]

/-- a case where everything is defined -/
example : ∃ p, genPhs J1 twoAnts (.vec ![1, 0, 0]) 0 1 (3 / 20) (some (1, 1)) none false = .ok p :=
  ⟨_, genPhs_ok.2 ⟨_, _, _, rfl, rfl, rfl, by simp [twoAnts], rfl⟩⟩

/-- below the horizon `gen_phs` raises instead of giving a phase -/
theorem c15_below_horizon (a : Arr) (alt : ℝ) (m : Mat) (io : ℝ × ℝ) (s : ℝ × ℝ × ℝ) (i j : Nat) (mfreq : ℝ)
    (ion : Option (ℝ × ℝ)) (sh : Option (ℝ × ℝ × ℝ)) (res : Bool) (p : List ℂ) (h : alt < 0) :
    genPhs J1 a (.body alt m io s) i j mfreq ion sh res ≠ .ok p := by
  intro hp
  obtain ⟨_, _, pr, _, _, h3, _⟩ := genPhs_ok.1 hp
  have : bodyProj alt m = .ok pr := h3
  unfold bodyProj at this
  rw [if_pos h] at this
  cases this

end Verif.Phs
