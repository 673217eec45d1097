import Verif.Amp.Model
import Verif.Amp.Pointing
import Mathlib.Analysis.Real.Sqrt
/-!
# Property C98 : Stokes parameters in a polarised array

Model of what `/repo/aipy/pol.py` does with the eight polarisations it accepts, for one frequency and one direction, over exact real and
complex numbers.
-/
namespace Verif.Amp
open Real Verif.Coord Verif.Phs

/-! ## Model -/

/-- `pol.Antenna`: dictionaries with the feeds as keys, pol.py 64-66; `beam` is `beam.response` at one frequency -/
structure PAnt where
  phsoff : List (Char × List ℝ)
  bp_r : List (Char × List ℝ)
  bp_i : List (Char × List ℝ)
  amp : List (Char × ℝ)
  beam : Vec → ℝ
  az : ℝ
  alt : ℝ
  twist : ℝ

/-- `phsoff[pol]` after `_update_phsoff`, pol.py 67-70; `none` is the KeyError -/
noncomputable def PAnt.off (a : PAnt) (f : ℝ) (p : Char) : Option ℝ := (a.phsoff.lookup p).map fun c => polyval c f

/-- `_gain[pol]` after `_update_gain`, pol.py 71-76 -/
noncomputable def PAnt.gain (a : PAnt) (f : ℝ) (p : Char) : Option ℂ := do
  let r ← a.bp_r.lookup p
  let i ← a.bp_i.lookup p
  let m ← a.amp.lookup p
  return (m : ℂ) * ((polyval r f : ℂ) + Complex.I * (polyval i f : ℂ))

/-- `passband(conj, pol)`, pol.py 77-79 -/
noncomputable def PAnt.passband (a : PAnt) (f : ℝ) (conj : Bool) (p : Char) : Option ℂ :=
  if conj then (a.gain f p).map (starRingEnd ℂ) else a.gain f p

/-- `fit.Antenna.bm_response`, the one of `amp` -/
noncomputable def PAnt.feed (a : PAnt) (p : Char) (top : Vec) : Option ℝ := bmResponse a.beam a.az a.alt a.twist p top

/-- `bm_response`, pol.py 80-87; `none` is the AssertionError -/
noncomputable def PAnt.bm (a : PAnt) (p : Char) (top : Vec) : Option ℝ :=
  if p ∈ ['x', 'y'] then a.feed p top
  else if p ∈ ['I', 'Q', 'U', 'V'] then do
    let x ← a.feed 'x' top
    let y ← a.feed 'y' top
    if p ∈ ['I', 'Q'] then return sqrt (0.5 * x ^ 2 + 0.5 * y ^ 2) else return sqrt (x * y)
  else none

/-- the polarisations `set_active_pol` accepts, pol.py 141-143: their first and last character -/
def activePol (s : String) : Option (Char × Char) :=
  match s with
  | "xx" => some ('x', 'x')
  | "yy" => some ('y', 'y')
  | "xy" => some ('x', 'y')
  | "yx" => some ('y', 'x')
  | "I" => some ('I', 'I')
  | "Q" => some ('Q', 'Q')
  | "U" => some ('U', 'U')
  | "V" => some ('V', 'V')
  | _ => none

/-- `get_phs_offset`, pol.py 144-156 -/
noncomputable def phsOffset (pol : Char × Char) (ai aj : PAnt) (f : ℝ) : Option ℝ :=
  if pol.1 ∈ ['x', 'y'] then do return (← aj.off f pol.2) - (← ai.off f pol.1)
  else if pol.1 = 'I' then do return ((← aj.off f 'y') - (← ai.off f 'y')) + ((← aj.off f 'x') - (← ai.off f 'x'))
  else if pol.1 = 'Q' then do return ((← aj.off f 'y') - (← ai.off f 'y')) - ((← aj.off f 'x') - (← ai.off f 'x'))
  else if pol.1 = 'U' then do return ((← aj.off f 'y') - (← ai.off f 'x')) + ((← aj.off f 'x') - (← ai.off f 'y'))
  else do return ((← aj.off f 'y') - (← ai.off f 'x')) - ((← aj.off f 'x') - (← ai.off f 'y'))

/-- `AntennaArray.passband`, pol.py 157-159 -/
noncomputable def polPassband (pol : Char × Char) (ai aj : PAnt) (f : ℝ) : Option ℂ := do
  return (← aj.passband f false pol.2) * (← ai.passband f true pol.1)

/-- `AntennaArray.bm_response`, amp.py 299-311, for real beams -/
noncomputable def polBeam (pol : Char × Char) (ai aj : PAnt) (top : Vec) : Option ℝ := do
  let bi ← ai.bm pol.1 top
  let bj ← aj.bm pol.2 top
  return bj * bi

/-- the branch of `sim` with one source of flux `jy` in the direction `top`, amp.py 366-381; `w` is the third coordinate of the baseline towards it -/
noncomputable def polSim (pol : Char × Char) (ai aj : PAnt) (f : ℝ) (top : Vec) (w jy : ℝ) : Option ℂ := do
  let g ← polPassband pol ai aj f
  let b ← polBeam pol ai aj top
  let o ← phsOffset pol ai aj f
  return g * (b : ℂ) * (jy : ℂ) * (starRingEnd ℂ) (expPhs w o)

/-! ## Specification -/

/-- a polynomial in the frequency, its coefficients from the highest power down to the constant -/
noncomputable def poly (c : List ℝ) (f : ℝ) : ℝ := ∑ k ∈ Finset.range c.length, c.getD (c.length - 1 - k) 0 * f ^ k

/-- the offset of the feed: the polynomial given for it -/
def PAnt.Offset (a : PAnt) (f : ℝ) (p : Char) (o : ℝ) : Prop := ∃ c, a.phsoff.lookup p = some c ∧ o = poly c f

/-- the gain of the feed: amplitude times a complex polynomial, all three given for it -/
def PAnt.Gain (a : PAnt) (f : ℝ) (p : Char) (g : ℂ) : Prop :=
  ∃ r i m, a.bp_r.lookup p = some r ∧ a.bp_i.lookup p = some i ∧ a.amp.lookup p = some m ∧ g = ⟨m * poly r f, m * poly i f⟩

/-- an antenna with two feeds: offsets and gains of both are known, and of nothing else -/
structure PAnt.TwoFeeds (a : PAnt) (f : ℝ) (ox oy : ℝ) (gx gy : ℂ) : Prop where
  ox : a.Offset f 'x' ox
  oy : a.Offset f 'y' oy
  gx : a.Gain f 'x' gx
  gy : a.Gain f 'y' gy
  keys : ∀ p, p ∉ ['x', 'y'] → a.bp_r.lookup p = none

/-- the four linear polarisations -/
def linear : List String := ["xx", "yy", "xy", "yx"]

/-- the four Stokes parameters -/
def stokes : List String := ["I", "Q", "U", "V"]

/-! ## Lemmas -/

theorem feeds {p : Char} (hp : p ∈ ['x', 'y']) : p = 'x' ∨ p = 'y' := by simpa using hp

theorem polyval_poly (c : List ℝ) (f : ℝ) : polyval c f = poly c f := by
  have key : ∀ (c : List ℝ) (a : ℝ), c.foldl (fun acc x => acc * f + x) a = a * f ^ c.length + poly c f := by
    intro c
    induction c with
    | nil => intro a; simp [poly]
    | cons x c ih =>
      intro a
      rw [List.foldl_cons, ih]
      have h : poly (x :: c) f = x * f ^ c.length + poly c f := by
        unfold poly
        rw [List.length_cons, Finset.sum_range_succ, add_comm]
        congr 1
        · simp
        · refine Finset.sum_congr rfl fun k hk => ?_
          have hk := Finset.mem_range.1 hk
          rw [show c.length + 1 - 1 - k = (c.length - 1 - k) + 1 by omega]
          rfl
      rw [h, List.length_cons, pow_succ]
      ring
  unfold polyval
  rw [key c 0, zero_mul, zero_add]

theorem offset_off {a : PAnt} {f : ℝ} {p : Char} {o : ℝ} (h : a.Offset f p o) : a.off f p = some o := by
  obtain ⟨c, h1, h2⟩ := h
  rw [PAnt.off, h1, h2, ← polyval_poly]
  rfl

theorem gain_gain {a : PAnt} {f : ℝ} {p : Char} {g : ℂ} (h : a.Gain f p g) : a.gain f p = some g := by
  obtain ⟨r, i, m, h1, h2, h3, h4⟩ := h
  simp only [PAnt.gain, h1, h2, h3, h4, ← polyval_poly]
  refine congrArg some ?_
  apply Complex.ext <;> simp

section
variable {a : PAnt} {f ox oy : ℝ} {gx gy : ℂ} (h : a.TwoFeeds f ox oy gx gy)
include h
theorem PAnt.TwoFeeds.offx : a.off f 'x' = some ox := offset_off h.ox
theorem PAnt.TwoFeeds.offy : a.off f 'y' = some oy := offset_off h.oy
theorem PAnt.TwoFeeds.gainx : a.gain f 'x' = some gx := gain_gain h.gx
theorem PAnt.TwoFeeds.gainy : a.gain f 'y' = some gy := gain_gain h.gy
end

theorem TwoFeeds.off {a : PAnt} {f : ℝ} {o : Char → ℝ} {g : Char → ℂ} (h : a.TwoFeeds f (o 'x') (o 'y') (g 'x') (g 'y')) {p : Char} (hp : p ∈ ['x', 'y']) :
    a.off f p = some (o p) := by
  rcases feeds hp with rfl | rfl
  · exact h.offx
  · exact h.offy

theorem TwoFeeds.gain {a : PAnt} {f : ℝ} {o : Char → ℝ} {g : Char → ℂ} (h : a.TwoFeeds f (o 'x') (o 'y') (g 'x') (g 'y')) {p : Char} (hp : p ∈ ['x', 'y']) :
    a.gain f p = some (g p) := by
  rcases feeds hp with rfl | rfl
  · exact h.gainx
  · exact h.gainy

/-- the response of a feed -/
noncomputable def resp (a : PAnt) (p : Char) (top : Vec) : ℝ :=
  if p = 'x' then a.beam ((rotPolX a.az a.alt a.twist).mulVec top) else a.beam ((rotPolY a.az a.alt a.twist).mulVec top)

theorem feed_eq (a : PAnt) {p : Char} (hp : p ∈ ['x', 'y']) (top : Vec) : a.feed p top = some (resp a p top) := by
  rcases feeds hp with rfl | rfl <;> simp [PAnt.feed, bmResponse, resp]

theorem bm_feed (a : PAnt) {p : Char} (hp : p ∈ ['x', 'y']) (top : Vec) : a.bm p top = some (resp a p top) := by
  unfold PAnt.bm
  rw [if_pos hp, feed_eq a hp]

theorem polBeam_feeds (ai aj : PAnt) {p q : Char} (hp : p ∈ ['x', 'y']) (hq : q ∈ ['x', 'y']) (top : Vec) :
    polBeam (p, q) ai aj top = some (resp aj q top * resp ai p top) := by
  unfold polBeam
  simp only [bm_feed ai hp, bm_feed aj hq]
  rfl

theorem bm_IQ (a : PAnt) {p : Char} (hp : p = 'I' ∨ p = 'Q') (top : Vec) :
    a.bm p top = some (sqrt (0.5 * resp a 'x' top ^ 2 + 0.5 * resp a 'y' top ^ 2)) := by
  unfold PAnt.bm
  rcases hp with rfl | rfl <;> simp [feed_eq a (p := 'x') (by simp), feed_eq a (p := 'y') (by simp)]

theorem bm_UV (a : PAnt) {p : Char} (hp : p = 'U' ∨ p = 'V') (top : Vec) : a.bm p top = some (sqrt (resp a 'x' top * resp a 'y' top)) := by
  unfold PAnt.bm
  rcases hp with rfl | rfl <;> simp [feed_eq a (p := 'x') (by simp), feed_eq a (p := 'y') (by simp)]

theorem conj_expPhs (w o : ℝ) : (starRingEnd ℂ) (expPhs w o) = expPhs (-w) (-o) := by
  unfold expPhs
  rw [← Complex.exp_conj]
  congr 1
  have h2 : (starRingEnd ℂ) 2 = 2 := map_ofNat (starRingEnd ℂ) 2
  simp [h2]
  ring

/-! ## The claims -/

/-- C98: the polarisations that can be set are the linear ones and the Stokes parameters. -/
theorem c98_active (s : String) : (activePol s).isSome ↔ s ∈ linear ∨ s ∈ stokes := by
  unfold activePol linear stokes
  split <;> simp_all

/-- C98: offset, passband, beam and simulated visibility of a baseline in a linear polarisation are those of the two feeds; turned round, and with the polarisation turned round, offsets are
opposite, passbands and visibilities conjugate. -/
theorem c98_linear {ai aj : PAnt} {f : ℝ} {o o' : Char → ℝ} {g g' : Char → ℂ} (hi : ai.TwoFeeds f (o 'x') (o 'y') (g 'x') (g 'y'))
    (hj : aj.TwoFeeds f (o' 'x') (o' 'y') (g' 'x') (g' 'y')) (p q : Char) (hp : p ∈ ['x', 'y']) (hq : q ∈ ['x', 'y']) (top : Vec) (w jy : ℝ) :
    activePol (String.ofList [p, q]) = some (p, q) ∧
    phsOffset (p, q) ai aj f = some (o' q - o p) ∧ polPassband (p, q) ai aj f = some (g' q * (starRingEnd ℂ) (g p)) ∧
    ∃ bi bj v, bmResponse ai.beam ai.az ai.alt ai.twist p top = some bi ∧ bmResponse aj.beam aj.az aj.alt aj.twist q top = some bj ∧
      polBeam (p, q) ai aj top = some (bj * bi) ∧
      v = g' q * (starRingEnd ℂ) (g p) * (bj * bi : ℝ) * jy * Complex.exp (2 * π * (w + (o' q - o p) : ℝ) * Complex.I) ∧
      polSim (p, q) ai aj f top w jy = some v ∧ polSim (q, p) aj ai f top (-w) jy = some ((starRingEnd ℂ) v) := by
  have ho : phsOffset (p, q) ai aj f = some (o' q - o p) := by
    unfold phsOffset
    simp only [if_pos hp, TwoFeeds.off hi hp, TwoFeeds.off hj hq]
    rfl
  have ho' : phsOffset (q, p) aj ai f = some (o p - o' q) := by
    unfold phsOffset
    simp only [if_pos hq, TwoFeeds.off hi hp, TwoFeeds.off hj hq]
    rfl
  have hg : polPassband (p, q) ai aj f = some (g' q * (starRingEnd ℂ) (g p)) := by
    unfold polPassband PAnt.passband
    simp only [TwoFeeds.gain hi hp, TwoFeeds.gain hj hq]
    rfl
  have hg' : polPassband (q, p) aj ai f = some (g p * (starRingEnd ℂ) (g' q)) := by
    unfold polPassband PAnt.passband
    simp only [TwoFeeds.gain hi hp, TwoFeeds.gain hj hq]
    rfl
  refine ⟨?_, ho, hg, resp ai p top, resp aj q top, g' q * (starRingEnd ℂ) (g p) * ((resp aj q top * resp ai p top : ℝ) : ℂ) * (jy : ℂ) * (starRingEnd ℂ) (expPhs w (o' q - o p)),
    feed_eq ai hp top, feed_eq aj hq top, polBeam_feeds ai aj hp hq top, ?_, ?_, ?_⟩
  · rcases feeds hp with rfl | rfl <;> rcases feeds hq with rfl | rfl <;> rfl
  · congr 1
    rw [conj_expPhs]
    unfold expPhs
    congr 1
    push_cast
    ring
  · unfold polSim
    simp only [hg, polBeam_feeds ai aj hp hq, ho]
    rfl
  · unfold polSim
    simp only [hg', polBeam_feeds aj ai hq hp, ho']
    show some _ = some _
    congr 1
    rw [conj_expPhs]
    simp only [map_mul, Complex.conj_conj, Complex.conj_ofReal, conj_expPhs, neg_sub, neg_neg]
    push_cast
    ring

/-- C98: the beam of a baseline between two antennas of the same kind, in Stokes I and Q, is the mean of those in xx and yy; in U and V it is that in xy (and yx), for beams
that are nowhere negative.  Between any two antennas it is at least that mean. -/
theorem c98_beam (ai aj : PAnt) (top : Vec) (s : Char) (hpos : ∀ a ∈ [ai, aj], ∀ v, 0 ≤ a.beam v) :
    ∃ bxx byy bxy byx, polBeam ('x', 'x') ai aj top = some bxx ∧ polBeam ('y', 'y') ai aj top = some byy ∧
      polBeam ('x', 'y') ai aj top = some bxy ∧ polBeam ('y', 'x') ai aj top = some byx ∧
      (s = 'I' ∨ s = 'Q' → ∃ b, polBeam (s, s) ai aj top = some b ∧ (bxx + byy) / 2 ≤ b ∧ (ai = aj → b = (bxx + byy) / 2)) ∧
      (s = 'U' ∨ s = 'V' → ∃ b, polBeam (s, s) ai aj top = some b ∧ b ^ 2 = bxy * byx ∧ (ai = aj → b = bxy)) := by
  have hx : 'x' ∈ ['x', 'y'] := by simp
  have hy : 'y' ∈ ['x', 'y'] := by simp
  have pi : ∀ p, 0 ≤ resp ai p top := by
    intro p
    unfold resp
    split <;> exact hpos ai (by simp) _
  have pj : ∀ p, 0 ≤ resp aj p top := by
    intro p
    unfold resp
    split <;> exact hpos aj (by simp) _
  refine ⟨_, _, _, _, polBeam_feeds ai aj hx hx top, polBeam_feeds ai aj hy hy top, polBeam_feeds ai aj hx hy top, polBeam_feeds ai aj hy hx top, ?_, ?_⟩
  · intro hs
    refine ⟨sqrt (0.5 * resp aj 'x' top ^ 2 + 0.5 * resp aj 'y' top ^ 2) * sqrt (0.5 * resp ai 'x' top ^ 2 + 0.5 * resp ai 'y' top ^ 2), ?_, ?_, ?_⟩
    · unfold polBeam
      simp only [bm_IQ ai hs, bm_IQ aj hs]
      rfl
    · rw [← sqrt_mul (by positivity)]
      apply le_sqrt_of_sq_le
      nlinarith [sq_nonneg (resp aj 'x' top * resp ai 'y' top - resp aj 'y' top * resp ai 'x' top)]
    · rintro rfl
      rw [mul_self_sqrt (by positivity)]
      ring
  · intro hs
    refine ⟨sqrt (resp aj 'x' top * resp aj 'y' top) * sqrt (resp ai 'x' top * resp ai 'y' top), ?_, ?_, ?_⟩
    · unfold polBeam
      simp only [bm_UV ai hs, bm_UV aj hs]
      rfl
    · rw [mul_pow, sq_sqrt (mul_nonneg (pj _) (pj _)), sq_sqrt (mul_nonneg (pi _) (pi _))]
      ring
    · rintro rfl
      rw [mul_self_sqrt (mul_nonneg (pi _) (pi _))]
      ring

/-- **C98 is false for the offsets**: where both feeds of each antenna have the same offset, all linear polarisations have the offset `o' - o`, but Stokes I and U have twice that and Q and V none;
so the phase that is multiplied to Stokes I data to point at a source is off by the offset. -/
theorem c98_offsets_violated {ai aj : PAnt} {f o o' : ℝ} {gx gy gx' gy' : ℂ} (hi : ai.TwoFeeds f o o gx gy) (hj : aj.TwoFeeds f o' o' gx' gy') :
    (∀ p ∈ ['x', 'y'], ∀ q ∈ ['x', 'y'], phsOffset (p, q) ai aj f = some (o' - o)) ∧
    phsOffset ('I', 'I') ai aj f = some (2 * (o' - o)) ∧ phsOffset ('U', 'U') ai aj f = some (2 * (o' - o)) ∧
    phsOffset ('Q', 'Q') ai aj f = some 0 ∧ phsOffset ('V', 'V') ai aj f = some 0 := by
  have e : ∀ x y : ℝ, x = y → (some x : Option ℝ) = some y := fun x y h => by rw [h]
  refine ⟨?_, ?_, ?_, ?_, ?_⟩
  · intro p hp q hq
    rcases feeds hp with rfl | rfl <;> rcases feeds hq with rfl | rfl <;> simp [phsOffset, hi.offx, hi.offy, hj.offx, hj.offy]
  all_goals
    simp only [phsOffset, hi.offx, hi.offy, hj.offx, hj.offy]
    exact e _ _ (by ring)

/-- **C98 is false for Stokes V**: the offset of the baseline turned round is not the opposite one but the same. -/
theorem c98_V_violated {ai aj : PAnt} {f ox oy ox' oy' : ℝ} {gx gy gx' gy' : ℂ} (hi : ai.TwoFeeds f ox oy gx gy) (hj : aj.TwoFeeds f ox' oy' gx' gy') :
    phsOffset ('V', 'V') ai aj f = some (oy' + oy - ox' - ox) ∧ phsOffset ('V', 'V') aj ai f = phsOffset ('V', 'V') ai aj f ∧
    ∀ s ∈ ['I', 'Q', 'U'], ∃ x, phsOffset (s, s) ai aj f = some x ∧ phsOffset (s, s) aj ai f = some (-x) := by
  have e : ∀ x y : ℝ, x = y → (some x : Option ℝ) = some y := fun x y h => by rw [h]
  refine ⟨?_, ?_, ?_⟩
  · simp only [phsOffset, hi.offx, hi.offy, hj.offx, hj.offy]
    exact e _ _ (by ring)
  · simp only [phsOffset, hi.offx, hi.offy, hj.offx, hj.offy]
    exact e _ _ (by ring)
  · intro s hs
    have : s = 'I' ∨ s = 'Q' ∨ s = 'U' := by simpa using hs
    rcases this with rfl | rfl | rfl
    all_goals
      simp only [phsOffset, hi.offx, hi.offy, hj.offx, hj.offy]
      exact ⟨_, rfl, e _ _ (by ring)⟩

/-- **C98 is false for simulated Stokes parameters**: `sim` raises, since the gains have no key for them. -/
theorem c98_sim_violated {ai aj : PAnt} {f ox oy ox' oy' : ℝ} {gx gy gx' gy' : ℂ} (_hi : ai.TwoFeeds f ox oy gx gy) (hj : aj.TwoFeeds f ox' oy' gx' gy')
    (s : String) (hs : s ∈ stokes) (top : Vec) (w jy : ℝ) : ∃ pol, activePol s = some pol ∧ polPassband pol ai aj f = none ∧ polSim pol ai aj f top w jy = none := by
  have key : ∀ c : Char, c ∉ ['x', 'y'] → polPassband (c, c) ai aj f = none := by
    intro c hc
    have : aj.gain f c = none := by
      unfold PAnt.gain
      rw [hj.keys c hc]
      rfl
    unfold polPassband PAnt.passband
    simp only [this]
    rfl
  have sim : ∀ c : Char, c ∉ ['x', 'y'] → polSim (c, c) ai aj f top w jy = none := by
    intro c hc
    unfold polSim
    rw [key c hc]
    rfl
  have : s = "I" ∨ s = "Q" ∨ s = "U" ∨ s = "V" := by simpa [stokes] using hs
  rcases this with rfl | rfl | rfl | rfl
  · exact ⟨_, rfl, key 'I' (by decide), sim 'I' (by decide)⟩
  · exact ⟨_, rfl, key 'Q' (by decide), sim 'Q' (by decide)⟩
  · exact ⟨_, rfl, key 'U' (by decide), sim 'U' (by decide)⟩
  · exact ⟨_, rfl, key 'V' (by decide), sim 'V' (by decide)⟩

/-- an antenna with two feeds -/
def demoPAnt : PAnt := ⟨[('x', [3]), ('y', [4])], [('x', [1]), ('y', [2])], [('x', [0]), ('y', [0])], [('x', 1), ('y', 1)], fun _ => 1, 0, 0, 0⟩

example : demoPAnt.TwoFeeds 1 3 4 1 2 ∧ ∀ v, 0 ≤ demoPAnt.beam v := by
  refine ⟨⟨?_, ?_, ?_, ?_, ?_⟩, fun _ => zero_le_one⟩
  · exact ⟨[3], rfl, by simp [poly]⟩
  · exact ⟨[4], rfl, by simp [poly]⟩
  · exact ⟨[1], [0], 1, rfl, rfl, rfl, by apply Complex.ext <;> simp [poly]⟩
  · exact ⟨[2], [0], 1, rfl, rfl, rfl, by apply Complex.ext <;> simp [poly]⟩
  · intro p hp
    simp only [List.mem_cons, List.not_mem_nil, or_false, not_or] at hp
    have h1 : (p == 'x') = false := by simpa using hp.1
    have h2 : (p == 'y') = false := by simpa using hp.2
    simp [demoPAnt, List.lookup, h1, h2]

end Verif.Amp
