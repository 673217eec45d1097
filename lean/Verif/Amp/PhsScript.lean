import Verif.Amp.ApplyCal
/-!
# Property C89 : the script `phs2src.py`

`/repo/scripts/phs2src.py` turns the phases of the cross-correlations to the zenith, or gives them the phases of a source there
(`--setphs`), or, without a source, is meant to take off the phase offsets of the calibration.
-/
noncomputable section
namespace Verif.Amp
open Verif.Coord Verif.Phs Real

/-! ## Model -/

/-- the option `-s`: none, `zen...`, or the name of a source -/
inductive SrcOpt | none | zen | named
deriving DecidableEq

/-- phs2src.py 26-30: with a name, `get_catalog(...).values()[0]` raises TypeError in Python 3 -/
def parseSrc : SrcOpt → Except SErr (Option Unit)
  | .none => .ok Option.none
  | .zen => .ok (some ())
  | .named => .error .runtime

/-- `aa.unphs2src(d, 'z', i, j)`, phs.py 397-400, with the offsets of the polarisation (see `toZenith`) -/
def fromZenith (a : SArr) (lst : ℝ) (ai aj : SAnt) (i j : Nat) (pol : Char × Char) (d : List ℂ) : Except SErr (List ℂ) :=
  match genPhsWith a.J1 (.ok (a.afreqs.map (offsetAt ai aj pol))) (phsView a lst) (.str "z") i j 0.15 none none false with
  | .error e => .error (.phs e)
  | .ok p => match bcast (· / ·) d p with
    | .error e => .error (.phs e)
    | .ok x => .ok x

/-- `d *= np.exp(-1j*np.pi*aa.get_phs_offset(i,j))`, phs2src.py 47; an array of one channel would be stretched, here it raises -/
def halfOffset (a : SArr) (ai aj : SAnt) (pol : Char × Char) (d : List ℂ) : Except SErr (List ℂ) :=
  if d.length = a.afreqs.length then
    .ok (List.zipWith (fun x f => x * Complex.exp (-Complex.I * π * offsetAt ai aj pol f)) d a.afreqs)
  else .error (.phs .broadcast)

/-- the new data, phs2src.py 46-48; `unphs2src` without a source raises TypeError -/
def newData (a : SArr) (lst : ℝ) (src : Option Unit) (setphs : Bool) (ai aj : SAnt) (r : Rec) : Except SErr (List ℂ) :=
  match setphs, src with
  | true, none => .error .runtime
  | true, some _ => fromZenith a lst ai aj r.i r.j r.pol (r.data.map fun x => ((‖x‖ : ℝ) : ℂ))
  | false, none => halfOffset a ai aj r.pol r.data
  | false, some _ => toZenith a lst ai aj r.i r.j r.pol r.data

/-- `phs`, phs2src.py 35-53.  With `--rot_uvw` the new `uvw` has one value per channel, which `UV.write` refuses
(miriad_wrap.cpp 154; without a source `gen_uvw` raises already).  `lst` is the time of the record; towards the zenith it does
not matter. -/
def phsRec (a : SArr) (lst : ℝ) (src : Option Unit) (setphs rot : Bool) (r : Rec) : Except SErr Rec :=
  if r.i = r.j then .ok r
  else do
    let aj ← getSAnt a r.j
    let ai ← getSAnt a r.i
    let d ← newData a lst src setphs ai aj r
    if rot then .error (.phs .value) else .ok { r with data := d }

/-- the loop of `pipe` over the records -/
def phsLoop (a : SArr) (lst : ℝ → ℝ) (src : Option Unit) (setphs rot : Bool) : List Rec → Except SErr (List Rec)
  | [] => .ok []
  | r :: rs => do
    let r' ← phsRec a (lst r.time) src setphs rot r
    let rs' ← phsLoop a lst src setphs rot rs
    .ok (r' :: rs')

/-- the script on one file -/
def phsFile (a : SArr) (lst : ℝ → ℝ) (opt : SrcOpt) (setphs rot : Bool) (recs : List Rec) : Except SErr (List Rec) := do
  let src ← parseSrc opt
  phsLoop a lst src setphs rot recs

/-! ## What should happen -/

/-- everything but the data is kept -/
structure SameRec (r r' : Rec) : Prop where
  time : r'.time = r.time
  ants : r'.i = r.i ∧ r'.j = r.j
  pol : r'.pol = r.pol
  flags : r'.flags = r.flags
  len : r'.data.length = r.data.length

/-- a record of the array -/
structure FitsArr (a : SArr) (r : Rec) : Prop where
  i : r.i < a.ants.length
  j : r.j < a.ants.length
  len : r.data.length = a.afreqs.length

/-- the data of a cross-correlation channel by channel multiplied with `F ai aj f`; auto-correlations as they were -/
def Times (a : SArr) (F : SAnt → SAnt → Char × Char → ℝ → ℂ) (r r' : Rec) : Prop :=
  (r.i = r.j → r' = r) ∧ (r.i ≠ r.j → ∀ ai aj, a.ants[r.i]? = some ai → a.ants[r.j]? = some aj → ∀ c, c < a.afreqs.length →
    r'.data.getD c 0 = r.data.getD c 0 * F ai aj r.pol (a.afreqs.getD c 0))

/-! ## Lemmas -/

theorem fromZenith_ok {a : SArr} {lst : ℝ} {i j : Nat} {ai aj : SAnt} (hi : a.ants[i]? = some ai) (hj : a.ants[j]? = some aj)
    (pol : Char × Char) {d : List ℂ} (hd : d.length = a.afreqs.length) :
    fromZenith a lst ai aj i j pol d = .ok (List.zipWith (· / ·) d
      (a.afreqs.map fun f => expPhs (height a.lat (aj.pos - ai.pos) * f) (offsetAt ai aj pol f))) := by
  have hb : getBaseline (phsView a lst) i j (.str "z") = .ok ((eq2top_m 0 a.lat).mulVec (aj.pos - ai.pos)) := by
    refine getBaseline_ok.2 ⟨⟨ai.pos, []⟩, ⟨aj.pos, []⟩, some (eq2top_m 0 a.lat), ?_, ?_, ?_, rfl⟩
    · simp [phsView, hi]
    · simp [phsView, hj]
    · show strProj _ _ = _
      unfold strProj
      rw [if_neg (by decide), if_pos rfl]
      rfl
  have hp : genPhsWith a.J1 (.ok (a.afreqs.map (offsetAt ai aj pol))) (phsView a lst) (.str "z") i j 0.15 none none false =
      .ok (a.afreqs.map fun f => expPhs (height a.lat (aj.pos - ai.pos) * f) (offsetAt ai aj pol f)) := by
    unfold genPhsWith
    rw [hb]
    simp only [bind, Except.bind, Src.ionref, Option.or, Option.isSome_none, Bool.false_eq_true, false_and, if_false, pure, Except.pure,
      Except.ok.injEq]
    show List.zipWith _ a.afreqs (a.afreqs.map _) = _
    rw [List.zipWith_map_right, List.zipWith_self]
    apply List.map_congr_left
    intro f _
    simp only [wAt, uvwAt, ampAt, height_eq, Complex.ofReal_one, mul_one]
  unfold fromZenith
  rw [hp]
  simp only [bcast]
  rw [if_pos (by simp [hd])]

theorem zip_getD (F : ℂ → ℝ → ℂ) {d : List ℂ} {l : List ℝ} (h : d.length = l.length) {c : Nat} (hc : c < l.length) :
    (List.zipWith F d l).getD c 0 = F (d.getD c 0) (l.getD c 0) := by
  have h2 : c < d.length := by omega
  simp [List.getD_eq_getElem?_getD, h2, hc]

theorem exists_ant {a : SArr} {i : Nat} (h : i < a.ants.length) : ∃ x, a.ants[i]? = some x := ⟨_, List.getElem?_eq_getElem h⟩

/-- one record: the data become `zipWith F data afreqs` -/
theorem phsRec_ok {a : SArr} {lst : ℝ} {src : Option Unit} {setphs : Bool} (F : SAnt → SAnt → Char × Char → ℂ → ℝ → ℂ)
    (hF : ∀ r : Rec, FitsArr a r → ∀ ai aj, a.ants[r.i]? = some ai → a.ants[r.j]? = some aj →
      newData a lst src setphs ai aj r = .ok (List.zipWith (F ai aj r.pol) r.data a.afreqs)) {r : Rec} (hr : FitsArr a r) :
    ∃ r', phsRec a lst src setphs false r = .ok r' ∧ SameRec r r' ∧ (r.i = r.j → r' = r) ∧
      (r.i ≠ r.j → ∀ ai aj, a.ants[r.i]? = some ai → a.ants[r.j]? = some aj → ∀ c, c < a.afreqs.length →
        r'.data.getD c 0 = F ai aj r.pol (r.data.getD c 0) (a.afreqs.getD c 0)) := by
  by_cases hij : r.i = r.j
  · exact ⟨r, by unfold phsRec; rw [if_pos hij], ⟨rfl, ⟨rfl, rfl⟩, rfl, rfl, rfl⟩, fun _ => rfl, fun h => absurd hij h⟩
  · obtain ⟨ai, hi⟩ := exists_ant hr.i
    obtain ⟨aj, hj⟩ := exists_ant hr.j
    refine ⟨{ r with data := List.zipWith (F ai aj r.pol) r.data a.afreqs }, ?_,
      ⟨rfl, ⟨rfl, rfl⟩, rfl, rfl, by simp [hr.len]⟩, fun h => absurd h hij, ?_⟩
    · unfold phsRec getSAnt
      rw [if_neg hij, hi, hj]
      simp only [bind, Except.bind, hF r hr ai aj hi hj, Bool.false_eq_true, if_false]
    · intro _ bi bj hbi hbj c hc
      rw [hi] at hbi
      rw [hj] at hbj
      cases hbi
      cases hbj
      exact zip_getD _ hr.len hc

/-- the factor of `phs2src(..., 'z')` -/
def zenithPhs (a : SArr) (ai aj : SAnt) (pol : Char × Char) (f : ℝ) : ℂ :=
  expPhs (height a.lat (aj.pos - ai.pos) * f) (offsetAt ai aj pol f)

theorem zip_map_right (F : ℂ → ℂ → ℂ) (g : ℝ → ℂ) (d : List ℂ) (l : List ℝ) :
    List.zipWith F d (l.map g) = List.zipWith (fun x f => F x (g f)) d l := by
  rw [List.zipWith_map_right]

theorem rec_zenith {a : SArr} {lst : ℝ} {r : Rec} (hr : FitsArr a r) :
    ∃ r', phsRec a lst (some ()) false false r = .ok r' ∧ SameRec r r' ∧ Times a (zenithPhs a) r r' := by
  obtain ⟨r', h1, h2, h3, h4⟩ := phsRec_ok (lst := lst) (src := some ()) (setphs := false)
    (fun ai aj pol x f => x * zenithPhs a ai aj pol f) (by
      intro r hr ai aj hi hj
      show toZenith a lst ai aj r.i r.j r.pol r.data = _
      rw [toZenith_ok hi hj r.pol hr.len, zip_map_right]
      rfl) hr
  exact ⟨r', h1, h2, h3, h4⟩

theorem rec_offset {a : SArr} {lst : ℝ} {r : Rec} (hr : FitsArr a r) :
    ∃ r', phsRec a lst none false false r = .ok r' ∧ SameRec r r' ∧
      Times a (fun ai aj pol f => Complex.exp (-Complex.I * π * offsetAt ai aj pol f)) r r' := by
  obtain ⟨r', h1, h2, h3, h4⟩ := phsRec_ok (lst := lst) (src := none) (setphs := false)
    (fun ai aj pol x f => x * Complex.exp (-Complex.I * π * offsetAt ai aj pol f)) (by
      intro r hr ai aj hi hj
      show halfOffset a ai aj r.pol r.data = _
      unfold halfOffset
      rw [if_pos hr.len]) hr
  exact ⟨r', h1, h2, h3, h4⟩

theorem rec_setphs {a : SArr} {lst : ℝ} {r : Rec} (hr : FitsArr a r) :
    ∃ r', phsRec a lst (some ()) true false r = .ok r' ∧ SameRec r r' ∧ (r.i = r.j → r' = r) ∧
      (r.i ≠ r.j → ∀ ai aj, a.ants[r.i]? = some ai → a.ants[r.j]? = some aj → ∀ c, c < a.afreqs.length →
        r'.data.getD c 0 = ((‖r.data.getD c 0‖ : ℝ) : ℂ) / zenithPhs a ai aj r.pol (a.afreqs.getD c 0)) := by
  obtain ⟨r', h1, h2, h3, h4⟩ := phsRec_ok (lst := lst) (src := some ()) (setphs := true)
    (fun ai aj pol x f => ((‖x‖ : ℝ) : ℂ) / zenithPhs a ai aj pol f) (by
      intro r hr ai aj hi hj
      show fromZenith a lst ai aj r.i r.j r.pol _ = _
      rw [fromZenith_ok hi hj r.pol (by simpa using hr.len), zip_map_right, List.zipWith_map_left]
      rfl) hr
  exact ⟨r', h1, h2, h3, h4⟩

theorem SameRec.fits {a : SArr} {r r' : Rec} (h : SameRec r r') (hr : FitsArr a r) : FitsArr a r' :=
  ⟨by rw [h.ants.1]; exact hr.i, by rw [h.ants.2]; exact hr.j, by rw [h.len]; exact hr.len⟩

theorem loop_ok {a : SArr} {lst : ℝ → ℝ} {src : Option Unit} {setphs : Bool} {R : Rec → Rec → Prop} : ∀ {recs : List Rec},
    (∀ r ∈ recs, ∃ r', phsRec a (lst r.time) src setphs false r = .ok r' ∧ R r r') →
    ∃ out, phsLoop a lst src setphs false recs = .ok out ∧ List.Forall₂ R recs out
  | [], _ => ⟨[], rfl, .nil⟩
  | r :: rs, h => by
    obtain ⟨r', h1, h2⟩ := h r (by simp)
    obtain ⟨out, h3, h4⟩ := loop_ok (recs := rs) fun x hx => h x (by simp [hx])
    exact ⟨r' :: out, by simp only [phsLoop, h1, h3, bind, Except.bind], .cons h2 h4⟩

/-! ## C89 -/

/-- C89: with `-s zen` every record is kept, with its flags, and the cross-correlations are turned by the delay of the
baseline towards the zenith and by the offsets of the antennas. -/
theorem c89_zenith (a : SArr) (lst : ℝ → ℝ) (recs : List Rec) (h : ∀ r ∈ recs, FitsArr a r) :
    ∃ out, phsFile a lst .zen false false recs = .ok out ∧ List.Forall₂ (fun r r' => SameRec r r' ∧ Times a (fun ai aj pol f =>
      Complex.exp (-2 * π * Complex.I * (height a.lat (aj.pos - ai.pos) * f + offsetAt ai aj pol f))) r r') recs out := by
  obtain ⟨out, h1, h2⟩ := loop_ok (lst := lst) (src := some ()) (setphs := false) fun r hr => rec_zenith (h r hr)
  refine ⟨out, h1, h2.imp fun r r' hr => ⟨hr.1, hr.2.1, fun hij ai aj hi hj c hc => ?_⟩⟩
  rw [hr.2.2 hij ai aj hi hj c hc]
  unfold zenithPhs expPhs
  congr 2
  push_cast
  ring

theorem forall2_comp {α β γ : Type} {R : α → β → Prop} {S : β → γ → Prop} {T : α → γ → Prop}
    (h : ∀ x y z, R x y → S y z → T x z) : ∀ {l : List α} {m : List β} {n : List γ}, List.Forall₂ R l m → List.Forall₂ S m n →
    List.Forall₂ T l n
  | _, _, _, .nil, .nil => .nil
  | _, _, _, .cons h1 h2, .cons h3 h4 => .cons (h _ _ _ h1 h3) (forall2_comp h h2 h4)

theorem zenithPhs_ne (a : SArr) (ai aj : SAnt) (pol : Char × Char) (f : ℝ) : zenithPhs a ai aj pol f ≠ 0 := by
  unfold zenithPhs expPhs
  exact Complex.exp_ne_zero _

/-- C89: with `--setphs` the amplitudes are kept, and what was assigned are the phases of something at the zenith: phasing to
the zenith then gives the amplitudes as real numbers. -/
theorem c89_setphs (a : SArr) (lst lst' : ℝ → ℝ) (recs : List Rec) (h : ∀ r ∈ recs, FitsArr a r) :
    ∃ mid out, phsFile a lst .zen true false recs = .ok mid ∧ phsFile a lst' .zen false false mid = .ok out ∧
      List.Forall₂ (fun r m => SameRec r m ∧ (r.i = r.j → m = r) ∧ ∀ c, c < a.afreqs.length → ‖m.data.getD c 0‖ = ‖r.data.getD c 0‖) recs mid ∧
      List.Forall₂ (fun r r' => SameRec r r' ∧ (r.i = r.j → r' = r) ∧ (r.i ≠ r.j → ∀ c, c < a.afreqs.length →
        r'.data.getD c 0 = ((‖r.data.getD c 0‖ : ℝ) : ℂ))) recs out := by
  obtain ⟨mid, m1, m2⟩ := loop_ok (lst := lst) (src := some ()) (setphs := true) (R := fun r r' => FitsArr a r ∧ SameRec r r' ∧ (r.i = r.j → r' = r) ∧
      (r.i ≠ r.j → ∀ ai aj, a.ants[r.i]? = some ai → a.ants[r.j]? = some aj → ∀ c, c < a.afreqs.length →
        r'.data.getD c 0 = ((‖r.data.getD c 0‖ : ℝ) : ℂ) / zenithPhs a ai aj r.pol (a.afreqs.getD c 0))) (recs := recs) (by
    intro r hr
    obtain ⟨r', q1, q2⟩ := rec_setphs (lst := lst r.time) (h r hr)
    exact ⟨r', q1, h r hr, q2⟩)
  have hf : ∀ m ∈ mid, FitsArr a m := by
    intro m hm
    obtain ⟨r, hr, hrm⟩ := forall2_mem_right m2 m hm
    exact hrm.2.1.fits (h r hr)
  obtain ⟨out, o1, o2⟩ := loop_ok (lst := lst') (src := some ()) (setphs := false) fun r hr => rec_zenith (hf r hr)
  refine ⟨mid, out, m1, o1, m2.imp ?_, forall2_comp ?_ m2 o2⟩
  · rintro r m ⟨q0, q1, q2, q3⟩
    refine ⟨q1, q2, fun c hc => ?_⟩
    by_cases hij : r.i = r.j
    · rw [q2 hij]
    · obtain ⟨ai, hi⟩ := exists_ant q0.i
      obtain ⟨aj, hj⟩ := exists_ant q0.j
      rw [q3 hij ai aj hi hj c hc, norm_div, zenithPhs, expPhs_norm, div_one, Complex.norm_real, norm_norm]
  · rintro r m r' ⟨q0, q1, q2, q3⟩ ⟨w1, w2, w3⟩
    refine ⟨⟨by rw [w1.time, q1.time], ⟨by rw [w1.ants.1, q1.ants.1], by rw [w1.ants.2, q1.ants.2]⟩, by rw [w1.pol, q1.pol],
      by rw [w1.flags, q1.flags], by rw [w1.len, q1.len]⟩, fun hij => ?_, fun hij c hc => ?_⟩
    · rw [w2 (by rw [q1.ants.1, q1.ants.2, hij]), q2 hij]
    · obtain ⟨ai, hi⟩ := exists_ant q0.i
      obtain ⟨aj, hj⟩ := exists_ant q0.j
      rw [w3 (by rw [q1.ants.1, q1.ants.2]; exact hij) ai aj (by rw [q1.ants.1]; exact hi) (by rw [q1.ants.2]; exact hj) c hc,
        q3 hij ai aj hi hj c hc, q1.pol, div_mul_cancel₀ _ (zenithPhs_ne _ _ _ _ _)]

/-- two antennas of which the second has an offset of half a turn; one channel -/
def arrHalf : SArr :=
  ⟨[⟨![0, 0, 0], fun _ => [0], fun _ => [1], fun _ => [0], fun _ => 1, fun _ _ _ => 1⟩,
    ⟨![1, 0, 0], fun _ => [1 / 2], fun _ => [1], fun _ => [0], fun _ => 1, fun _ _ _ => 1⟩], [1], 0, fun _ => 0, false⟩

/-- C89 is false without a source: of the phase offsets (here half a turn) only half is taken off. -/
theorem c89_offsets_violated : ∃ (a : SArr) (r r' : Rec), FitsArr a r ∧ phsFile a id .none false false [r] = .ok [r'] ∧
    (∀ ai aj, a.ants[r.i]? = some ai → a.ants[r.j]? = some aj →
      r.data = [Complex.exp (2 * π * Complex.I * offsetAt ai aj r.pol 1)]) ∧ r'.data ≠ [1] := by
  have hfit : FitsArr arrHalf ⟨0, 0, 1, ('x', 'x'), [-1], [false]⟩ := ⟨by decide, by decide, rfl⟩
  obtain ⟨r', h1, h2, h3⟩ := rec_offset (lst := id 0) hfit
  refine ⟨arrHalf, ⟨0, 0, 1, ('x', 'x'), [-1], [false]⟩, r', hfit, ?_, ?_, ?_⟩
  · simp only [phsFile, parseSrc, phsLoop, bind, Except.bind, h1]
  · intro ai aj hi hj
    have e1 : ai = ⟨![0, 0, 0], fun _ => [0], fun _ => [1], fun _ => [0], fun _ => 1, fun _ _ _ => 1⟩ := (Option.some.inj hi).symm
    have e2 : aj = ⟨![1, 0, 0], fun _ => [1 / 2], fun _ => [1], fun _ => [0], fun _ => 1, fun _ _ _ => 1⟩ := (Option.some.inj hj).symm
    rw [e1, e2]
    simp only [offsetAt, polyval, List.foldl_cons, List.foldl_nil]
    have : (2 * π * Complex.I * ((0 * 1 + 1 / 2 - (0 * 1 + 0) : ℝ) : ℂ)) = π * Complex.I := by
      push_cast; ring
    rw [this, Complex.exp_pi_mul_I]
  · intro hd
    have := h3.2 (by decide) _ _ rfl rfl 0 (by decide)
    rw [hd] at this
    simp only [offsetAt, polyval, List.foldl_cons, List.foldl_nil] at this
    have e : (-Complex.I * π * ((0 * ([1] : List ℝ).getD 0 0 + 1 / 2 - (0 * ([1] : List ℝ).getD 0 0 + 0) : ℝ) : ℂ)) = -(π / 2 * Complex.I) := by
      push_cast; ring
    have e2 : arrHalf.afreqs = [1] := rfl
    rw [e2, e, Complex.exp_neg, Complex.exp_pi_div_two_mul_I] at this
    simp [Complex.ext_iff] at this

/-- C89: without a source, the script must be run twice to take off the phase offsets. -/
theorem c89_offsets_partial (a : SArr) (lst lst' : ℝ → ℝ) (recs : List Rec) (h : ∀ r ∈ recs, FitsArr a r) :
    ∃ mid out, phsFile a lst .none false false recs = .ok mid ∧ phsFile a lst' .none false false mid = .ok out ∧
      List.Forall₂ (fun r r' => SameRec r r' ∧ Times a (fun ai aj pol f =>
        Complex.exp (-2 * π * Complex.I * offsetAt ai aj pol f)) r r') recs out := by
  obtain ⟨mid, m1, m2⟩ := loop_ok (lst := lst) (src := none) (setphs := false) fun r hr => rec_offset (h r hr)
  have hf : ∀ m ∈ mid, FitsArr a m := by
    intro m hm
    obtain ⟨r, hr, hrm⟩ := forall2_mem_right m2 m hm
    exact hrm.1.fits (h r hr)
  obtain ⟨out, o1, o2⟩ := loop_ok (lst := lst') (src := none) (setphs := false) fun r hr => rec_offset (hf r hr)
  refine ⟨mid, out, m1, o1, forall2_comp ?_ m2 o2⟩
  rintro r m r' ⟨q1, q2, q3⟩ ⟨w1, w2, w3⟩
  refine ⟨⟨by rw [w1.time, q1.time], ⟨by rw [w1.ants.1, q1.ants.1], by rw [w1.ants.2, q1.ants.2]⟩, by rw [w1.pol, q1.pol],
    by rw [w1.flags, q1.flags], by rw [w1.len, q1.len]⟩, fun hij => ?_, fun hij ai aj hi hj c hc => ?_⟩
  · rw [w2 (by rw [q1.ants.1, q1.ants.2, hij]), q2 hij]
  · rw [w3 (by rw [q1.ants.1, q1.ants.2]; exact hij) ai aj (by rw [q1.ants.1]; exact hi) (by rw [q1.ants.2]; exact hj) c hc,
      q3 hij ai aj hi hj c hc, q1.pol, mul_assoc, ← Complex.exp_add]
    congr 2
    ring

theorem phsRec_rot {a : SArr} {lst : ℝ} {src : Option Unit} {setphs : Bool} {r : Rec} (h : r.i ≠ r.j) (r' : Rec) :
    phsRec a lst src setphs true r ≠ .ok r' := by
  unfold phsRec
  rw [if_neg h]
  intro e
  cases h1 : getSAnt a r.j <;> rw [h1] at e <;> simp only [bind, Except.bind] at e
  · cases e
  · cases h2 : getSAnt a r.i <;> rw [h2] at e <;> simp only at e
    · cases e
    · rename_i aj ai
      cases h3 : newData a lst src setphs ai aj r <;> rw [h3] at e <;> simp only [if_true] at e <;> cases e

/-- C89 is false for a named source and for `--rot_uvw`: the script stops at once, or at the first cross-correlation. -/
theorem c89_raises (a : SArr) (lst : ℝ → ℝ) (opt : SrcOpt) (setphs rot : Bool) (recs : List Rec) :
    (∀ out, phsFile a lst .named setphs rot recs ≠ .ok out) ∧
    ((∃ r ∈ recs, r.i ≠ r.j) → ∀ out, phsFile a lst opt setphs true recs ≠ .ok out) := by
  refine ⟨fun out e => by simp [phsFile, parseSrc, bind, Except.bind] at e, ?_⟩
  rintro ⟨r, hr, hij⟩ out e
  unfold phsFile at e
  cases hp : parseSrc opt <;> rw [hp] at e <;> simp only [bind, Except.bind] at e
  · cases e
  · rename_i src
    have key : ∀ (l : List Rec), r ∈ l → ∀ out, phsLoop a lst src setphs true l ≠ .ok out := by
      intro l
      induction l with
      | nil => intro h; cases h
      | cons x l ih =>
        intro hx out e
        simp only [phsLoop, bind, Except.bind] at e
        cases h1 : phsRec a (lst x.time) src setphs true x <;> rw [h1] at e <;> simp only at e
        · cases e
        · rename_i x'
          cases h2 : phsLoop a lst src setphs true l <;> rw [h2] at e <;> simp only at e
          · cases e
          · rcases List.mem_cons.1 hx with rfl | hx
            · exact phsRec_rot hij _ h1
            · exact ih hx _ h2
    exact key recs hr out e

/-- records that meet the hypotheses -/
example : ∀ r ∈ ([⟨0, 0, 1, ('x', 'y'), [1, Complex.I], [false, true]⟩, ⟨0, 1, 1, ('x', 'x'), [1, 2], [false, false]⟩] : List Rec),
    FitsArr arrGain r := by
  intro r hr
  simp only [List.mem_cons, List.not_mem_nil, or_false] at hr
  rcases hr with rfl | rfl <;> exact ⟨by decide, by decide, rfl⟩

end Verif.Amp
