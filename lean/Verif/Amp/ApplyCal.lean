import Verif.Amp.Mdlvis
import Verif.Coord.Angles
/-!
# Property C86 : the script `apply_cal.py`

`/repo/scripts/apply_cal.py` divides the data of each record by the passband of the calibration and phases them to the zenith,
with the phase offsets of the calibration.
-/
noncomputable section
namespace Verif.Amp
open Verif.Coord Verif.Phs Real

/-! ## Model -/

/-- the array as `gen_phs` sees it -/
def phsView (a : SArr) (lst : ℝ) : Phs.Arr := ⟨a.ants.map (fun s => ⟨s.pos, []⟩), a.afreqs, a.lat, lst, true⟩

/-- `d /= aa.passband(i, j)`, apply_cal.py 26; a passband of zero gives infinities or `nan`, which are not modelled (an error), as
is the stretching of one channel -/
def divGain (a : SArr) (ai aj : SAnt) (pol : Char × Char) (d : List ℂ) : Except SErr (List ℂ) :=
  if d.length = a.afreqs.length then
    if ∃ f ∈ a.afreqs, passbandAt ai aj pol f = 0 then .error (.phs .nonfinite)
    else .ok (List.zipWith (fun x f => x / passbandAt ai aj pol f) d a.afreqs)
  else .error (.phs .broadcast)

/-- `aa.phs2src(d, 'z', i, j)`, apply_cal.py 27, with the offsets of the polarisation (pol.py 144-147) -/
def toZenith (a : SArr) (lst : ℝ) (ai aj : SAnt) (i j : Nat) (pol : Char × Char) (d : List ℂ) : Except SErr (List ℂ) :=
  match genPhsWith a.J1 (.ok (a.afreqs.map (offsetAt ai aj pol))) (phsView a lst) (.str "z") i j 0.15 none none false with
  | .error e => .error (.phs e)
  | .ok p => match bcast (· * ·) d p with
    | .error e => .error (.phs e)
    | .ok x => .ok x

/-- `mfunc`, apply_cal.py 22-28; the time of the array is never set, `lst` is what it happens to be -/
def applyCal (a : SArr) (lst : ℝ) (noGain noPhs : Bool) (r : Rec) : Except SErr Rec := do
  let aj ← getSAnt a r.j
  let ai ← getSAnt a r.i
  let d1 ← if noGain then .ok r.data else divGain a ai aj r.pol r.data
  let d2 ← if noPhs then .ok d1 else toZenith a lst ai aj r.i r.j r.pol d1
  .ok { r with data := d2 }

/-- the script on all records -/
def applyAll (a : SArr) (lst : ℝ) (noGain noPhs : Bool) : List Rec → Except SErr (List Rec)
  | [] => .ok []
  | r :: rs => do
    let r' ← applyCal a lst noGain noPhs r
    let rs' ← applyAll a lst noGain noPhs rs
    .ok (r' :: rs')

/-! ## What is expected -/

/-- an antenna with the same place and beam, gain one and no phase offset -/
def SAnt.plain (x : SAnt) : SAnt := { x with phsoff := fun _ => [], bp_r := fun _ => [1], bp_i := fun _ => [0], amp := fun _ => 1 }

def SArr.plain (a : SArr) : SArr := { a with ants := a.ants.map SAnt.plain }

/-- the component of a vector along the vertical of a place -/
def height (lat : ℝ) (b : Vec) : ℝ := Real.cos lat * b 0 + Real.sin lat * b 2

/-- gains are not zero -/
def Gainful (a : SArr) (pol : Char × Char) : Prop :=
  ∀ x ∈ a.ants, ∀ f ∈ a.afreqs, x.gain pol.1 f ≠ 0 ∧ x.gain pol.2 f ≠ 0

/-! ## Lemmas -/

theorem height_eq (lat : ℝ) (b : Vec) : ((eq2top_m 0 lat).mulVec b) 2 = height lat b := by
  unfold eq2top_m height
  simp [Matrix.mulVec, dotProduct, Fin.sum_univ_three]

theorem applyCal_ok {a : SArr} {lst : ℝ} {r : Rec} {ai aj : SAnt} (hi : a.ants[r.i]? = some ai) (hj : a.ants[r.j]? = some aj)
    (hg : Gainful a r.pol) (hd : r.data.length = a.afreqs.length) :
    ∃ r', applyCal a lst false false r = .ok r' ∧ r'.time = r.time ∧ r'.i = r.i ∧ r'.j = r.j ∧ r'.pol = r.pol ∧ r'.flags = r.flags ∧
      r'.data.length = a.afreqs.length ∧
      ∀ c, c < a.afreqs.length → r'.data.getD c 0 = r.data.getD c 0 / passbandAt ai aj r.pol (a.afreqs.getD c 0) *
        expPhs (height a.lat (aj.pos - ai.pos) * a.afreqs.getD c 0) (offsetAt ai aj r.pol (a.afreqs.getD c 0)) := by
  have hb : getBaseline (phsView a lst) r.i r.j (.str "z") = .ok ((eq2top_m 0 a.lat).mulVec (aj.pos - ai.pos)) := by
    refine getBaseline_ok.2 ⟨⟨ai.pos, []⟩, ⟨aj.pos, []⟩, some (eq2top_m 0 a.lat), ?_, ?_, ?_, rfl⟩
    · simp [phsView, hi]
    · simp [phsView, hj]
    · show strProj _ _ = _
      unfold strProj
      rw [if_neg (by decide), if_pos rfl]
      rfl
  have hp : genPhsWith a.J1 (.ok (a.afreqs.map (offsetAt ai aj r.pol))) (phsView a lst) (.str "z") r.i r.j 0.15 none none false =
      .ok (a.afreqs.map fun f => expPhs (height a.lat (aj.pos - ai.pos) * f) (offsetAt ai aj r.pol f)) := by
    unfold genPhsWith
    rw [hb]
    simp only [bind, Except.bind, Src.ionref, Option.or, Option.isSome_none, Bool.false_eq_true, false_and, if_false, pure, Except.pure,
      Except.ok.injEq]
    show List.zipWith _ a.afreqs (a.afreqs.map _) = _
    rw [List.zipWith_map_right, List.zipWith_self]
    apply List.map_congr_left
    intro f _
    simp only [wAt, uvwAt, ampAt, height_eq, Complex.ofReal_one, mul_one]
  have hz : ¬ ∃ f ∈ a.afreqs, passbandAt ai aj r.pol f = 0 := by
    rintro ⟨f, hf, h⟩
    unfold passbandAt at h
    rcases mul_eq_zero.1 h with h | h
    · exact (hg aj (List.mem_of_getElem? hj) f hf).2 h
    · exact (hg ai (List.mem_of_getElem? hi) f hf).1 ((map_eq_zero _).1 h)
  set d1 := List.zipWith (fun x f => x / passbandAt ai aj r.pol f) r.data a.afreqs with hd1
  have h1 : divGain a ai aj r.pol r.data = .ok d1 := by
    unfold divGain
    rw [if_pos hd, if_neg hz]
  have hl1 : d1.length = a.afreqs.length := by simp [hd1, hd]
  have h2 : toZenith a lst ai aj r.i r.j r.pol d1 = .ok (List.zipWith (· * ·) d1
      (a.afreqs.map fun f => expPhs (height a.lat (aj.pos - ai.pos) * f) (offsetAt ai aj r.pol f))) := by
    unfold toZenith
    rw [hp]
    simp only [bcast]
    rw [if_pos (by simp [hl1])]
  refine ⟨⟨r.time, r.i, r.j, r.pol, List.zipWith (· * ·) d1
      (a.afreqs.map fun f => expPhs (height a.lat (aj.pos - ai.pos) * f) (offsetAt ai aj r.pol f)), r.flags⟩,
    ?_, rfl, rfl, rfl, rfl, rfl, ?_, ?_⟩
  · unfold applyCal
    simp only [bind, Except.bind, getSAnt_ok.2 hi, getSAnt_ok.2 hj, h1, h2, Bool.false_eq_true, if_false]
  · simp [hl1]
  · intro c hc
    simp only
    rw [zipWith_getD _ _ _ 0 0 0 (by omega) (by simpa using hc), hd1, zipWith_getD _ _ _ 0 0 0 (by omega) hc]
    congr 1
    rw [List.getD_eq_getElem?_getD, List.getElem?_map, List.getD_eq_getElem?_getD, List.getElem?_eq_getElem hc]
    rfl

theorem expPhs_split (w o : ℝ) : expPhs w o = expPhs w 0 * expPhs 0 o := by
  unfold expPhs
  rw [← Complex.exp_add]
  congr 1
  push_cast
  ring

theorem expPhs_unit (o : ℝ) : (starRingEnd ℂ) (expPhs 0 o) * expPhs 0 o = 1 := by
  unfold expPhs
  rw [← Complex.exp_conj, ← Complex.exp_add, ← Complex.exp_zero]
  congr 1
  simp only [map_mul, map_neg, Complex.conj_I, Complex.conj_ofReal, map_add, map_ofNat]
  ring

theorem gain_plain (x : SAnt) (p : Char) (f : ℝ) : x.plain.gain p f = 1 := by
  simp [SAnt.gain, SAnt.plain, polyval]

theorem offset_plain (ai aj : SAnt) (pol : Char × Char) (f : ℝ) : offsetAt ai.plain aj.plain pol f = 0 := by
  simp [offsetAt, SAnt.plain, polyval]

/-- gains and offsets factor out of a visibility -/
theorem vis1_plain (a : SArr) (lst : ℝ) (ai aj : SAnt) (pol : Char × Char) (f : ℝ) (r : Row) :
    vis1 a lst ai aj pol f r = passbandAt ai aj pol f * (starRingEnd ℂ) (expPhs 0 (offsetAt ai aj pol f)) *
      vis1 a.plain lst ai.plain aj.plain pol f r := by
  unfold vis1 phsAt
  simp only [gain_plain, offset_plain]
  rw [expPhs_split _ (offsetAt ai aj pol f)]
  simp only [map_mul, map_one, one_mul]
  show _ = passbandAt ai aj pol f * _ * (aj.beam pol.2 _ f * _ * _ * _)
  unfold passbandAt
  have : a.plain.lat = a.lat ∧ a.plain.J1 = a.J1 ∧ aj.plain.pos = aj.pos ∧ ai.plain.pos = ai.pos ∧ ai.plain.beam = ai.beam := ⟨rfl, rfl, rfl, rfl, rfl⟩
  obtain ⟨h1, h2, h3, h4, h5⟩ := this
  rw [h1, h2, h3, h4, h5]
  ring

theorem plain_get {a : SArr} {i : Nat} {x : SAnt} (h : a.ants[i]? = some x) : a.plain.ants[i]? = some x.plain := by
  simp [SArr.plain, h]

theorem sum_mul_left (c : ℂ) (F : Row → ℂ) (rows : List Row) : (rows.map fun r => c * F r).sum = c * (rows.map F).sum := by
  induction rows with
  | nil => simp
  | cons r rs ih => simp only [List.map_cons, List.sum_cons, ih, mul_add]

/-- a channel of the model -/
theorem model_getD {a : SArr} {k : Sky} {r : Rec} {ai aj : SAnt} (hi : a.ants[r.i]? = some ai) (hj : a.ants[r.j]? = some aj) {c : Nat}
    (hc : c < a.afreqs.length) : (model a k r).getD c 0 =
      ((upRows a (k.lst r.time) (k.rows r.time)).map (vis1 a (k.lst r.time) ai aj r.pol (a.afreqs.getD c 0))).sum := by
  unfold model vis
  rw [hi, hj]
  simp only [List.getD_eq_getElem?_getD, List.getElem?_map, List.getElem?_eq_getElem hc]
  rfl

theorem model_plain {a : SArr} {k : Sky} {r : Rec} {ai aj : SAnt} (hi : a.ants[r.i]? = some ai) (hj : a.ants[r.j]? = some aj) {c : Nat}
    (hc : c < a.afreqs.length) : (model a k r).getD c 0 =
      passbandAt ai aj r.pol (a.afreqs.getD c 0) * (starRingEnd ℂ) (expPhs 0 (offsetAt ai aj r.pol (a.afreqs.getD c 0))) *
        (model a.plain k r).getD c 0 := by
  rw [model_getD hi hj hc, model_getD (a := a.plain) (plain_get hi) (plain_get hj) hc, ← sum_mul_left]
  congr 1
  apply List.map_congr_left
  intro s _
  exact vis1_plain a _ ai aj r.pol _ s

/-! ## The property -/

/-- what the script makes of a record whose data are the visibilities of a sky: those of the same array with gains one and no
offsets, phased to the zenith; flagged channels, which are zero, stay zero -/
structure IsCalibrated (a : SArr) (k : Sky) (r r' : Rec) : Prop where
  time : r'.time = r.time
  ants : r'.i = r.i ∧ r'.j = r.j
  pol : r'.pol = r.pol
  flags : r'.flags = r.flags
  len : r'.data.length = a.afreqs.length
  data : ∀ ai aj, a.ants[r.i]? = some ai → a.ants[r.j]? = some aj → ∀ c, c < a.afreqs.length →
    r'.data.getD c 0 = if r.flags.getD c false then 0 else
      (model a.plain k r).getD c 0 * expPhs (height a.lat (aj.pos - ai.pos) * a.afreqs.getD c 0) 0

/-- C86: data that an array with any non-zero gains and any phase offsets would measure, calibrated by `apply_cal.py` with these
gains and offsets, are the data of the same array with unit gains and no offsets, phased to the zenith. -/
theorem c86_record (a : SArr) (k : Sky) (lst : ℝ) (r : Rec) (hi : r.i < a.ants.length) (hj : r.j < a.ants.length)
    (hg : Gainful a r.pol) (hl : r.data.length = a.afreqs.length)
    (hd : ∀ c, c < a.afreqs.length → r.data.getD c 0 = if r.flags.getD c false then 0 else (model a k r).getD c 0) :
    ∃ r', applyCal a lst false false r = .ok r' ∧ IsCalibrated a k r r' := by
  have hi' := List.getElem?_eq_getElem hi
  have hj' := List.getElem?_eq_getElem hj
  obtain ⟨r', e, h1, h2, h3, h4, h5, h6, h7⟩ := applyCal_ok (lst := lst) hi' hj' hg hl
  refine ⟨r', e, ⟨h1, ⟨h2, h3⟩, h4, h5, h6, ?_⟩⟩
  intro ai aj ei ej c hc
  rw [hi'] at ei; rw [hj'] at ej
  cases ei; cases ej
  rw [h7 c hc, hd c hc]
  split
  · simp
  · have hp : passbandAt (a.ants[r.i]'hi) (a.ants[r.j]'hj) r.pol (a.afreqs.getD c 0) ≠ 0 := by
      have hm : a.afreqs.getD c 0 ∈ a.afreqs := by
        rw [List.getD_eq_getElem?_getD, List.getElem?_eq_getElem hc]
        exact List.getElem_mem hc
      exact mul_ne_zero (hg _ (List.getElem_mem hj) _ hm).2 (by rw [ne_eq, map_eq_zero]; exact (hg _ (List.getElem_mem hi) _ hm).1)
    rw [model_plain hi' hj' hc, expPhs_split (height a.lat ((a.ants[r.j]'hj).pos - (a.ants[r.i]'hi).pos) * a.afreqs.getD c 0)]
    have hu := expPhs_unit (offsetAt (a.ants[r.i]'hi) (a.ants[r.j]'hj) r.pol (a.afreqs.getD c 0))
    generalize expPhs 0 (offsetAt _ _ _ _) = E at hu ⊢
    generalize expPhs (height _ _ * _) 0 = Z
    generalize (model a.plain k r).getD c 0 = V
    rw [mul_assoc (passbandAt _ _ _ _), mul_div_cancel_left₀ _ hp]
    calc (starRingEnd ℂ) E * V * (Z * E) = ((starRingEnd ℂ) E * E) * (V * Z) := by ring
      _ = V * Z := by rw [hu, one_mul]

/-- C86: in particular the calibrated data do not tell which gains and offsets the array had: two arrays that differ only in
these give the same records. -/
theorem c86_same (a b : SArr) (hab : a.plain = b.plain) (k : Sky) (lst lst' : ℝ) (r s : Rec) (hi : r.i < a.ants.length) (hj : r.j < a.ants.length)
    (hs : s.i = r.i ∧ s.j = r.j ∧ s.time = r.time ∧ s.pol = r.pol ∧ s.flags = r.flags)
    (hga : Gainful a r.pol) (hgb : Gainful b r.pol) (hl : r.data.length = a.afreqs.length) (hl' : s.data.length = a.afreqs.length)
    (hr : ∀ c, c < a.afreqs.length → r.data.getD c 0 = if r.flags.getD c false then 0 else (model a k r).getD c 0)
    (hr' : ∀ c, c < a.afreqs.length → s.data.getD c 0 = if r.flags.getD c false then 0 else (model b k s).getD c 0) :
    ∃ o, applyCal a lst false false r = .ok o ∧ applyCal b lst' false false s = .ok o := by
  have hants : a.ants.map SAnt.plain = b.ants.map SAnt.plain := congrArg SArr.ants hab
  have hf : a.afreqs = b.afreqs := by
    show a.plain.afreqs = b.plain.afreqs
    rw [hab]
  have hlat : a.lat = b.lat := by
    show a.plain.lat = b.plain.lat
    rw [hab]
  have hlen : a.ants.length = b.ants.length := by simpa using congrArg List.length hants
  obtain ⟨s1, s2, s3, s4, s5⟩ := hs
  obtain ⟨o, e, h⟩ := c86_record a k lst r hi hj hga hl hr
  obtain ⟨o', e', h'⟩ := c86_record b k lst' s (by omega) (by omega) (by rw [s4]; exact hgb) (by rw [hl', hf])
    (by intro c hc; rw [← hf] at hc; rw [hr' c hc, s5])
  have hmod : model a.plain k r = model b.plain k s := by
    unfold model
    rw [hab, s1, s2, s3, s4]
  have hpos : ∀ i (h1 : i < a.ants.length) (h2 : i < b.ants.length), (a.ants[i]'h1).pos = (b.ants[i]'h2).pos := by
    intro i h1 h2
    have : (a.ants.map SAnt.plain)[i]? = (b.ants.map SAnt.plain)[i]? := by rw [hants]
    rw [List.getElem?_map, List.getElem?_map, List.getElem?_eq_getElem h1, List.getElem?_eq_getElem h2] at this
    simp only [Option.map_some, Option.some.injEq] at this
    show (a.ants[i]).plain.pos = (b.ants[i]).plain.pos
    rw [this]
  have heq : o = o' := by
    obtain ⟨t1, i1, j1, p1, d1, f1⟩ := o
    obtain ⟨t2, i2, j2, p2, d2, f2⟩ := o'
    have hd : d1 = d2 := by
      have l1 : d1.length = a.afreqs.length := h.len
      have l2 : d2.length = b.afreqs.length := h'.len
      refine List.ext_getElem (by rw [l1, l2, hf]) ?_
      intro c c1 c2
      have q1 := h.data _ _ (List.getElem?_eq_getElem hi) (List.getElem?_eq_getElem hj) c (by omega)
      have q2 := h'.data _ _ (List.getElem?_eq_getElem (by omega)) (List.getElem?_eq_getElem (by omega)) c (by omega)
      simp only [List.getD_eq_getElem?_getD, List.getElem?_eq_getElem c1, Option.getD_some] at q1
      simp only [List.getD_eq_getElem?_getD, List.getElem?_eq_getElem c2, Option.getD_some] at q2
      rw [q1, q2, s5, hmod, hlat, hf, hpos r.i hi (by omega), hpos r.j hj (by omega)]
      simp only [s1, s2]
    have a1 := h.time; have a2 := h'.time; have a3 := h.ants; have a4 := h'.ants; have a5 := h.pol; have a6 := h'.pol
    have a7 := h.flags; have a8 := h'.flags
    simp only at a1 a2 a3 a4 a5 a6 a7 a8
    rw [a1, a2, a3.1, a3.2, a4.1, a4.2, a5, a6, a7, a8, hd, s1, s2, s3, s4, s5]
  exact ⟨o, e, by rw [heq]; exact e'⟩

/-- C86: between antennas of equal height the result is the visibility of the array with unit gains and no offsets; between
others it is turned by the phase of the difference in height. -/
theorem c86_level (a : SArr) (k : Sky) (r r' : Rec) (h : IsCalibrated a k r r') (ai aj : SAnt) (hi : a.ants[r.i]? = some ai)
    (hj : a.ants[r.j]? = some aj) (hz : height a.lat ai.pos = height a.lat aj.pos) (c : Nat) (hc : c < a.afreqs.length)
    (hf : r.flags.getD c false = false) : r'.data.getD c 0 = (model a.plain k r).getD c 0 := by
  rw [h.data ai aj hi hj c hc, if_neg (by rw [hf]; simp)]
  have : height a.lat (aj.pos - ai.pos) = 0 := by
    unfold height at hz ⊢
    simp only [Pi.sub_apply]
    linarith
  rw [this]
  simp [expPhs]

theorem applyAll_ok {a : SArr} {k : Sky} {lst : ℝ} : ∀ {recs : List Rec},
    (∀ r ∈ recs, ∃ r', applyCal a lst false false r = .ok r' ∧ (r.i ≠ r.j → IsCalibrated a k r r')) →
    ∃ out, applyAll a lst false false recs = .ok out ∧ List.Forall₂ (fun r r' => r.i ≠ r.j → IsCalibrated a k r r') recs out := by
  intro recs
  induction recs with
  | nil => intro _; exact ⟨[], rfl, .nil⟩
  | cons r rs ih =>
    intro h
    obtain ⟨r', e, h1⟩ := h r (by simp)
    obtain ⟨out, e', h2⟩ := ih fun x hx => h x (by simp [hx])
    exact ⟨r' :: out, by unfold applyAll; simp only [bind, Except.bind, e, e'], .cons h1 h2⟩

theorem forall2_mem_right {α β : Type} {R : α → β → Prop} {l : List α} {m : List β} (h : List.Forall₂ R l m) :
    ∀ y ∈ m, ∃ x ∈ l, R x y := by
  induction h with
  | nil => intro y hy; simp at hy
  | cons h _ ih =>
    intro y hy
    rcases List.mem_cons.1 hy with rfl | hy
    · exact ⟨_, by simp, h⟩
    · obtain ⟨x, hx, hR⟩ := ih y hy
      exact ⟨x, by simp [hx], hR⟩

/-- C86: whole files: data simulated with `mdlvis.py` for an array with any non-zero gains and any offsets and calibrated with
`apply_cal.py`. -/
theorem c86_files_partial (a : SArr) (k : Sky) (mimic : Bool) (lst0 lst : ℝ) (recs : List Rec) (hne : k.cat ≠ [])
    (hf : (0 : ℝ) ∉ a.afreqs) (hr : ∀ r ∈ recs, Fits a k r) (hg : ∀ r ∈ recs, Gainful a r.pol) :
    ∃ mid out, mdlvis a k .sim mimic lst0 recs = .ok mid ∧ applyAll a lst false false mid = .ok out ∧
      List.Forall₂ (fun r r' => r.i ≠ r.j → IsCalibrated a k r r') mid out := by
  obtain ⟨mid, e1, h1⟩ := c85_records_partial a k .sim mimic lst0 recs hne hf hr
  obtain ⟨out, e2, h2⟩ := applyAll_ok (a := a) (k := k) (lst := lst) (recs := mid) (by
    intro m hm
    have hfm := all_fit h1 hr m hm
    obtain ⟨r, hrr, h⟩ := forall2_mem_right h1 m hm
    have hgm : Gainful a m.pol := by rw [h.pol]; exact hg r hrr
    by_cases hij : r.i = r.j
    · obtain ⟨m', e, _⟩ := applyCal_ok (lst := lst) (List.getElem?_eq_getElem hfm.i) (List.getElem?_eq_getElem hfm.j) hgm hfm.data
      exact ⟨m', e, fun hn => absurd (by rw [h.ants.1, h.ants.2]; exact hij) hn⟩
    · obtain ⟨m', e, hc⟩ := c86_record a k lst m hfm.i hfm.j hgm hfm.data (by
        intro c hc
        rw [h.data hij c hc, modelled_model h]
        rfl)
      exact ⟨m', e, fun _ => hc⟩)
  exact ⟨mid, out, e1, e2, h2⟩

/-! ## The options -/

theorem expPhs_norm (w o : ℝ) : ‖expPhs w o‖ = 1 := by
  unfold expPhs
  rw [Complex.norm_exp]
  simp

theorem toZenith_ok {a : SArr} {lst : ℝ} {i j : Nat} {ai aj : SAnt} (hi : a.ants[i]? = some ai) (hj : a.ants[j]? = some aj)
    (pol : Char × Char) {d : List ℂ} (hd : d.length = a.afreqs.length) :
    toZenith a lst ai aj i j pol d = .ok (List.zipWith (· * ·) d
      (a.afreqs.map fun f => expPhs (height a.lat (aj.pos - ai.pos) * f) (offsetAt ai aj pol f))) := by
  have hb : getBaseline (phsView a lst) i j (.str "z") = .ok ((eq2top_m 0 a.lat).mulVec (aj.pos - ai.pos)) := by
    refine getBaseline_ok.2 ⟨⟨ai.pos, []⟩, ⟨aj.pos, []⟩, some (eq2top_m 0 a.lat), ?_, ?_, ?_, rfl⟩
    · simp [phsView, hi]
    · simp [phsView, hj]
    · show strProj _ _ = _
      unfold strProj
      rw [if_neg (by decide), if_pos rfl]
      rfl
  have hp : genPhsWith a.J1 (.ok (a.afreqs.map (offsetAt ai aj pol))) (phsView a lst) (.str "z") i j 0.15 none none false =
      .ok (a.afreqs.map fun f => expPhs (height a.lat (aj.pos - ai.pos) * f) (offsetAt ai aj pol f)) := by
    unfold genPhsWith
    rw [hb]
    simp only [bind, Except.bind, Src.ionref, Option.or, Option.isSome_none, Bool.false_eq_true, false_and, if_false, pure, Except.pure,
      Except.ok.injEq]
    show List.zipWith _ a.afreqs (a.afreqs.map _) = _
    rw [List.zipWith_map_right, List.zipWith_self]
    apply List.map_congr_left
    intro f _
    simp only [wAt, uvwAt, ampAt, height_eq, Complex.ofReal_one, mul_one]
  unfold toZenith
  rw [hp]
  simp only [bcast]
  rw [if_pos (by simp [hd])]

theorem divGain_ok {a : SArr} {ai aj : SAnt} {pol : Char × Char} (hi : ai ∈ a.ants) (hj : aj ∈ a.ants) (hg : Gainful a pol) {d : List ℂ}
    (hd : d.length = a.afreqs.length) :
    divGain a ai aj pol d = .ok (List.zipWith (fun x f => x / passbandAt ai aj pol f) d a.afreqs) := by
  have hz : ¬ ∃ f ∈ a.afreqs, passbandAt ai aj pol f = 0 := by
    rintro ⟨f, hf, h⟩
    unfold passbandAt at h
    rcases mul_eq_zero.1 h with h | h
    · exact (hg aj hj f hf).2 h
    · exact (hg ai hi f hf).1 ((map_eq_zero _).1 h)
  unfold divGain
  rw [if_pos hd, if_neg hz]

/-- C86: with `--no_gain` only the phases change; with `--no_phs` the data are divided by the gains, so that the measured data
are the result times the gains; one after the other, in either order, is the same as both at once; with both options nothing is
changed. -/
theorem c86_options (a : SArr) (lst lst' lst'' : ℝ) (r : Rec) (hi : r.i < a.ants.length) (hj : r.j < a.ants.length)
    (hg : Gainful a r.pol) (hl : r.data.length = a.afreqs.length) :
    ∃ g p b, applyCal a lst false true r = .ok g ∧ applyCal a lst true false r = .ok p ∧ applyCal a lst false false r = .ok b ∧
      applyCal a lst' true false g = .ok b ∧ applyCal a lst'' false true p = .ok b ∧ applyCal a lst true true r = .ok r ∧
      (∀ x ∈ [g, p, b], x.time = r.time ∧ x.i = r.i ∧ x.j = r.j ∧ x.pol = r.pol ∧ x.flags = r.flags ∧ x.data.length = r.data.length) ∧
      (∀ c, c < a.afreqs.length → ‖p.data.getD c 0‖ = ‖r.data.getD c 0‖) ∧
      ∀ c, c < a.afreqs.length → ∀ ai aj, a.ants[r.i]? = some ai → a.ants[r.j]? = some aj →
        aj.gain r.pol.2 (a.afreqs.getD c 0) * (starRingEnd ℂ) (ai.gain r.pol.1 (a.afreqs.getD c 0)) * g.data.getD c 0 = r.data.getD c 0 := by
  have hi' := List.getElem?_eq_getElem hi
  have hj' := List.getElem?_eq_getElem hj
  obtain ⟨ti, ii, ji, pi, di, fi⟩ := r
  simp only at hi hj hg hl hi' hj' ⊢
  generalize hai : a.ants[ii] = ai at hi'
  generalize haj : a.ants[ji] = aj at hj'
  have mi : ai ∈ a.ants := List.mem_of_getElem? hi'
  have mj : aj ∈ a.ants := List.mem_of_getElem? hj'
  set Q : ℝ → ℂ := fun f => passbandAt ai aj pi f
  set Z : ℝ → ℂ := fun f => expPhs (height a.lat (aj.pos - ai.pos) * f) (offsetAt ai aj pi f)
  have ed : ∀ d : List ℂ, d.length = a.afreqs.length → divGain a ai aj pi d = .ok (List.zipWith (fun x f => x / Q f) d a.afreqs) :=
    fun d hd => divGain_ok mi mj hg hd
  have ez : ∀ l (d : List ℂ), d.length = a.afreqs.length → toZenith a l ai aj ii ji pi d = .ok (List.zipWith (· * ·) d (a.afreqs.map Z)) :=
    fun l d hd => toZenith_ok hi' hj' pi hd
  have l1 : (List.zipWith (fun x f => x / Q f) di a.afreqs).length = a.afreqs.length := by simp [hl]
  have l2 : (List.zipWith (· * ·) di (a.afreqs.map Z)).length = a.afreqs.length := by simp [hl]
  have hcomm : List.zipWith (fun x f => x / Q f) (List.zipWith (· * ·) di (a.afreqs.map Z)) a.afreqs =
      List.zipWith (· * ·) (List.zipWith (fun x f => x / Q f) di a.afreqs) (a.afreqs.map Z) := by
    refine List.ext_getElem (by simp) ?_
    intro c h1 h2
    simp only [List.getElem_zipWith, List.getElem_map]
    ring
  have hQ : ∀ f ∈ a.afreqs, Q f ≠ 0 := fun f hf => mul_ne_zero (hg aj mj f hf).2 (by rw [ne_eq, map_eq_zero]; exact (hg ai mi f hf).1)
  refine ⟨⟨ti, ii, ji, pi, List.zipWith (fun x f => x / Q f) di a.afreqs, fi⟩,
    ⟨ti, ii, ji, pi, List.zipWith (· * ·) di (a.afreqs.map Z), fi⟩,
    ⟨ti, ii, ji, pi, List.zipWith (· * ·) (List.zipWith (fun x f => x / Q f) di a.afreqs) (a.afreqs.map Z), fi⟩,
    ?_, ?_, ?_, ?_, ?_, ?_, ?_, ?_, ?_⟩
  · unfold applyCal
    simp only [bind, Except.bind, getSAnt_ok.2 hi', getSAnt_ok.2 hj', ed di hl, Bool.false_eq_true, if_false, if_true]
  · unfold applyCal
    simp only [bind, Except.bind, getSAnt_ok.2 hi', getSAnt_ok.2 hj', ez _ di hl, Bool.false_eq_true, if_false, if_true]
  · unfold applyCal
    simp only [bind, Except.bind, getSAnt_ok.2 hi', getSAnt_ok.2 hj', ed di hl, ez _ _ l1, Bool.false_eq_true, if_false]
  · unfold applyCal
    simp only [bind, Except.bind, getSAnt_ok.2 hi', getSAnt_ok.2 hj', ez _ _ l1, Bool.false_eq_true, if_false, if_true]
  · unfold applyCal
    simp only [bind, Except.bind, getSAnt_ok.2 hi', getSAnt_ok.2 hj', ed _ l2, hcomm, Bool.false_eq_true, if_false, if_true]
  · unfold applyCal
    simp only [bind, Except.bind, getSAnt_ok.2 hi', getSAnt_ok.2 hj', if_true]
  · intro x hx
    simp only [List.mem_cons, List.not_mem_nil, or_false] at hx
    rcases hx with rfl | rfl | rfl <;> simp [hl]
  · intro c hc
    simp only
    rw [zipWith_getD _ _ _ 0 0 0 (by omega) (by simpa using hc), norm_mul]
    have : (a.afreqs.map Z).getD c 0 = Z (a.afreqs.getD c 0) := by
      rw [List.getD_eq_getElem?_getD, List.getElem?_map, List.getD_eq_getElem?_getD, List.getElem?_eq_getElem hc]
      rfl
    rw [this, expPhs_norm, mul_one]
  · intro c hc bi bj ei ej
    rw [hi'] at ei; rw [hj'] at ej
    cases ei; cases ej
    simp only
    rw [zipWith_getD _ _ _ 0 0 0 (by omega) hc]
    have hm : a.afreqs.getD c 0 ∈ a.afreqs := by
      rw [List.getD_eq_getElem?_getD, List.getElem?_eq_getElem hc]
      exact List.getElem_mem hc
    exact mul_div_cancel₀ _ (hQ _ hm)

/-! ## A source at the zenith -/

theorem eq2top_turn (ra dec : ℝ) (k : ℤ) : eq2top_m (ra + k * (2 * π)) dec = eq2top_m ra dec := by
  unfold eq2top_m
  simp only [Real.sin_add_int_mul_two_pi, Real.cos_add_int_mul_two_pi]

/-- the direction of the zenith -/
theorem skyTop_zenith (lat lst : ℝ) : skyTop lat lst (radec2eq (lst, lat)) = ![0, 0, 1] := by
  have h1 := Real.sin_sq_add_cos_sq lst
  have h2 := Real.sin_sq_add_cos_sq lat
  ext i
  fin_cases i <;>
    simp only [skyTop, eq2top_m, radec2eq, thphi2xyz, Matrix.mulVec, dotProduct, Fin.sum_univ_three, Real.sin_neg, Real.cos_neg,
      Real.sin_pi_div_two_sub, Real.cos_pi_div_two_sub] <;> simp
  · ring
  · linear_combination (-Real.sin lat * Real.cos lat) * h1
  · linear_combination (Real.cos lat ^ 2) * h1 + h2

/-- C86: a point source at the zenith has, after calibration, the phase zero on every baseline and in every channel: its
visibility is flux times the beams at the zenith. -/
theorem c86_zenith (a : SArr) (k : Sky) (r r' : Rec) (h : IsCalibrated a k r r') (ai aj : SAnt) (hi : a.ants[r.i]? = some ai)
    (hj : a.ants[r.j]? = some aj) (s : Row) (hs : k.rows r.time = [s]) (hlat : -(π / 2) < a.lat ∧ a.lat < π / 2)
    (hz : s.eq = radec2eq (k.lst r.time, a.lat)) (hion : s.ion = (0, 0)) (hsh : s.shape = (0, 0, 0))
    (c : Nat) (hc : c < a.afreqs.length) (hf : r.flags.getD c false = false) :
    r'.data.getD c 0 = aj.beam r.pol.2 ![0, 0, 1] (a.afreqs.getD c 0) *
      (starRingEnd ℂ) (ai.beam r.pol.1 ![0, 0, 1] (a.afreqs.getD c 0)) * (s.jys (a.afreqs.getD c 0) : ℂ) := by
  have hT : skyTop a.lat (k.lst r.time) s.eq = ![0, 0, 1] := by rw [hz, skyTop_zenith]
  have hup : 0 < skyTop a.lat (k.lst r.time) s.eq 2 := by rw [hT]; simp
  rw [h.data ai aj hi hj c hc, if_neg (by rw [hf]; simp), model_getD (a := a.plain) (plain_get hi) (plain_get hj) hc, hs]
  have hu : upRows a.plain (k.lst r.time) [s] = [s] := by
    unfold upRows
    rw [List.filter_cons, if_pos (by show decide (0 < skyTop a.lat _ _ 2) = true; simpa using hup), List.filter_nil]
  rw [hu]
  simp only [List.map_cons, List.map_nil, List.sum_cons, List.sum_nil, add_zero]
  obtain ⟨q1, ⟨n, q2⟩, _⟩ := c21_vec_of_radec (k.lst r.time) a.lat hlat.1 hlat.2
  have hb : eq2top_m (k.lst r.time - (eq2radec s.eq).1) (eq2radec s.eq).2 = eq2top_m 0 a.lat := by
    rw [hz, q1, q2]
    have : k.lst r.time - (k.lst r.time + (n : ℝ) * (2 * π)) = 0 + ((-n : ℤ) : ℝ) * (2 * π) := by push_cast; ring
    rw [this, eq2top_turn]
  unfold vis1 phsAt
  simp only [gain_plain, offset_plain, hb, hion, hsh, ampAt, resolveAt, wAt, uvwAt, refractAt, airy, zero_mul, add_zero, zero_div, ne_eq,
    OfNat.ofNat_ne_zero, not_false_eq_true, zero_pow, Real.sqrt_zero, mul_zero, if_true, Complex.ofReal_one, mul_one, map_one, one_mul]
  have e1 : ((eq2top_m 0 a.lat).mulVec (aj.plain.pos - ai.plain.pos)) 2 = height a.lat (aj.pos - ai.pos) := height_eq ..
  rw [e1]
  have e2 : (starRingEnd ℂ) (expPhs (height a.lat (aj.pos - ai.pos) * a.afreqs.getD c 0) 0) *
      expPhs (height a.lat (aj.pos - ai.pos) * a.afreqs.getD c 0) 0 = 1 := by
    unfold expPhs
    rw [← Complex.exp_conj, ← Complex.exp_add, ← Complex.exp_zero]
    congr 1
    simp only [map_mul, map_neg, Complex.conj_I, Complex.conj_ofReal, map_add, map_ofNat]
    ring
  have e3 : a.plain.afreqs = a.afreqs := rfl
  rw [mul_assoc _ (starRingEnd ℂ (expPhs _ 0)), e3, e2, mul_one, ← hT]
  rfl

/-! ## Example -/

/-- an array with gains and offsets, two channels -/
def arrGain : SArr :=
  ⟨[⟨![0, 0, 0], fun _ => [3, 0.5], fun _ => [2], fun _ => [1], fun _ => 3, fun _ _ _ => 1⟩,
    ⟨![1, 0, 0], fun _ => [0, 0.1], fun _ => [1], fun _ => [0], fun _ => 5, fun _ _ _ => 1⟩], [1, 2], 0, fun _ => 0, false⟩

theorem arrGain_gainful (p : Char × Char) : Gainful arrGain p := by
  intro x hx f _
  simp only [arrGain, List.mem_cons, List.not_mem_nil, or_false] at hx
  rcases hx with rfl | rfl
  · simp only [SAnt.gain, polyval, List.foldl_cons, List.foldl_nil]
    have : ((3 : ℝ) : ℂ) * (((0 * f + 2 : ℝ) : ℂ) + Complex.I * ((0 * f + 1 : ℝ) : ℂ)) ≠ 0 := by
      intro h
      have := congrArg Complex.re h
      simp at this
    exact ⟨this, this⟩
  · simp [SAnt.gain, polyval]

example (mimic : Bool) : ∃ mid out, mdlvis arrGain skyDemo .sim mimic 0 recsDemo = .ok mid ∧ applyAll arrGain 7 false false mid = .ok out ∧
    List.Forall₂ (fun r r' => r.i ≠ r.j → IsCalibrated arrGain skyDemo r r') mid out :=
  c86_files_partial arrGain skyDemo mimic 0 7 recsDemo (by simp [skyDemo]) (by simp [arrGain]) (by
    intro r hr
    simp only [recsDemo, List.mem_cons, List.not_mem_nil, or_false] at hr
    rcases hr with rfl | rfl | rfl | rfl <;> exact ⟨by decide, by decide, rfl, rfl, Or.inl (by decide)⟩)
    (fun r _ => arrGain_gainful r.pol)

example : ∃ g p b, applyCal arrGain 0 false true ⟨0, 0, 1, ('x', 'x'), [1, 2], [false, false]⟩ = .ok g ∧
    applyCal arrGain 0 true false ⟨0, 0, 1, ('x', 'x'), [1, 2], [false, false]⟩ = .ok p ∧ applyCal arrGain 1 true false g = .ok b ∧
    applyCal arrGain 2 false true p = .ok b := by
  obtain ⟨g, p, b, h1, h2, _, h4, h5, _⟩ := c86_options arrGain 0 1 2 ⟨0, 0, 1, ('x', 'x'), [1, 2], [false, false]⟩ (by decide) (by decide)
    (arrGain_gainful _) rfl
  exact ⟨g, p, b, h1, h2, h4, h5⟩

/-- the source of `skyDemo` at time 0 is at the zenith of `arrGain`, whose antennas have different heights; the flux at 2 is
half that at 1 -/
example (r' : Rec) (h : IsCalibrated arrGain skyDemo ⟨0, 0, 1, ('x', 'x'), [1, 2], [false, false]⟩ r') : r'.data.getD 1 0 = 1 / 2 := by
  have := c86_zenith arrGain skyDemo _ r' h _ _ rfl rfl _ rfl (by
    show -(π / 2) < 0 ∧ 0 < π / 2
    have := Real.pi_pos
    constructor <;> linarith) (radec2eq_row _).symm rfl rfl 1 (by decide) rfl
  rw [this]
  simp [arrGain, CatSrc.row, Real.rpow_neg_one]

end Verif.Amp
