import Verif.Sky.MapProps
import Verif.Coord.Convert
/-!
# Property C93 : `modmap.py` puts the sources into the map

The map is that of `h.reset_wgt()` in line 70, i.e. what happens with an input map before that is not modelled.
-/
noncomputable section
namespace Verif.Sky
open Verif.Img Verif.Coord Real Matrix

/-! ## Model -/

/-- the pixels of the map: `px2crd(px, ncrd=2)` (angles `th`, `phi`) and `crd2px(x, y, z)` of `healpy` -/
structure Pix where
  angles : Nat → ℝ × ℝ
  locate : Vec → Nat

/-- a source of the catalog: `_ra`, `_dec` (J2000), `srcshape`, flux at the frequency chosen, spectral index -/
structure ModSrc where
  ra : ℝ
  dec : ℝ
  a1 : ℝ
  a2 : ℝ
  th : ℝ
  jys : ℝ
  index : ℝ

/-- the options, and `e.J2000` -/
structure ModOpts (E : Type) where
  osys : List Char
  oepoch : E
  j2000 : E
  sscale : ℝ
  nindices : Nat

/-- `dras`, `ddecs`, `da1`, `da2`, `delta` and the comparison, modmap.py 83-84, 99, 105-108, for one pixel; dividing by a zero
axis gives an infinity or a NaN, which is not `<= 1` -/
def inShape (s : ModSrc) (ra dec : ℝ) (p : ℝ × ℝ) : Prop :=
  let dra := p.2 - ra
  let ddec := (π / 2 - p.1) - dec
  let da1 := dra * cos s.th - ddec * sin s.th
  let da2 := dra * sin s.th + ddec * cos s.th
  s.a1 ≠ 0 ∧ s.a2 ≠ 0 ∧ (da1 / s.a1) ^ 2 + (da2 / s.a2) ^ 2 ≤ 1

open Classical in
/-- `px`, modmap.py 93-95 and 105-113 -/
def srcPixels {E : Type} (f : Frames E) (g : Pix) (o : ModOpts E) (npix : Nat) (m : Mat) (s : ModSrc) : List Nat :=
  let c := frameConv f .eq .eq o.j2000 o.oepoch (s.ra, s.dec)
  let px := (List.range npix).filter fun p => decide (inShape s c.1 c.2 (g.angles p))
  if px.length = 0 then [g.locate (m *ᵥ radec2eq c)] else px

/-- one pixel, modmap.py 116-123.  Without indices `h[p]` is the flux; if there are index maps it is a pair, to which no number
can be added, and if there are none it cannot be unpacked. -/
def putPixel (nindices : Nat) (s : ModSrc) (perPx : ℝ) (h : WMap ℝ) (p : Nat) : Option (WMap ℝ) :=
  match h.get [(p : Int)] with
  | some ([cur], ind) =>
    if nindices = 0 then (if ind.length = 0 then h.put [(p : Int)] [1] [perPx + cur] [] else none)
    else if ind.length = 0 then none else h.put [(p : Int)] [1] [perPx + cur] [[s.index]]
  | _ => none

/-- the pixels one after the other -/
def putPixels (nindices : Nat) (s : ModSrc) (perPx : ℝ) : WMap ℝ → List Nat → Option (WMap ℝ)
  | h, [] => some h
  | h, p :: ps => (putPixel nindices s perPx h p).bind fun h' => putPixels nindices s perPx h' ps

/-- one source, modmap.py 91-123 -/
def putSrc {E : Type} (f : Frames E) (g : Pix) (o : ModOpts E) (m : Mat) (h : WMap ℝ) (s : ModSrc) : Option (WMap ℝ) :=
  let px := srcPixels f g o h.map.length m s
  putPixels o.nindices s (s.jys * o.sscale / px.length) h px

/-- the sources one after the other -/
def putSrcs {E : Type} (f : Frames E) (g : Pix) (o : ModOpts E) (m : Mat) : WMap ℝ → List ModSrc → Option (WMap ℝ)
  | h, [] => some h
  | h, s :: ss => (putSrc f g o m h s).bind fun h' => putSrcs f g o m h' ss

/-- lines 87-123; `convert_m('eq', osys, oepoch=oepoch)` starts from J2000 -/
def modmap {E : Type} (f : Frames E) (g : Pix) (o : ModOpts E) (h : WMap ℝ) (srcs : List ModSrc) : Option (WMap ℝ) :=
  (convertM f "eq".toList o.osys o.j2000 o.oepoch).bind fun m => putSrcs f g o m h srcs

/-! ## Specification -/

/-- the map in line 70: weights 0 or 1, and the index maps asked for -/
structure Ready {E : Type} (o : ModOpts E) (h : WMap ℝ) : Prop where
  ok : h.Ok
  ind : h.ind.length = o.nindices
  len : ∀ d ∈ h.ind, d.length = h.map.length
  wgt : ∀ w ∈ h.wgt, w = 0 ∨ w = 1

/-- the flux of the whole map -/
def flux (h : WMap ℝ) : ℝ := ((List.range h.map.length).map fun p => (valueAt h p).getD 0).sum

/-- what a source adds to a pixel if it covers `px` -/
def share {E : Type} (o : ModOpts E) (s : ModSrc) (px : List Nat) (p : Nat) : ℝ := if p ∈ px then s.jys * o.sscale / px.length else 0

/-- where the source is in the frame of the map -/
def direction {E : Type} (f : Frames E) (o : ModOpts E) (so : Sys) (s : ModSrc) : Vec := trans f .eq so o.j2000 o.oepoch *ᵥ radec2eq (s.ra, s.dec)

/-- a direction is inside the ellipse of a source at `(ra, dec)`; a longitude is an angle on a circle -/
def InEllipse (s : ModSrc) (ra dec lon lat : ℝ) : Prop :=
  s.a1 ≠ 0 ∧ s.a2 ≠ 0 ∧ ∃ k : ℤ, (((lon - ra + k * (2 * π)) * cos s.th - (lat - dec) * sin s.th) / s.a1) ^ 2 +
    (((lon - ra + k * (2 * π)) * sin s.th + (lat - dec) * cos s.th) / s.a2) ^ 2 ≤ 1

/-- the pixels a source is put into -/
structure Covers {E : Type} (f : Frames E) (g : Pix) (o : ModOpts E) (npix : Nat) (s : ModSrc) (px : List Nat) : Prop where
  nodup : px.Nodup
  ne : px ≠ []
  lt : ∀ p ∈ px, p < npix
  /-- a point source of a map of J2000 is put where it is -/
  point : (s.a1 = 0 ∨ s.a2 = 0) → o.oepoch = o.j2000 → ∀ so, sysOf o.osys = some so → px = [g.locate (direction f o so s)]
  /-- an extended source that is not close to right ascension zero is put into the pixels it covers, if there are any -/
  shape : ∀ c, c = eq2radec (direction f o .eq s) → sysOf o.osys = some .eq → |s.a1| < c.1 → |s.a2| < c.1 → c.1 + |s.a1| < 2 * π → c.1 + |s.a2| < 2 * π →
    (∀ p, p < npix → 0 ≤ (g.angles p).2 ∧ (g.angles p).2 < 2 * π) →
    (∃ p, p < npix ∧ InEllipse s c.1 c.2 (g.angles p).2 (π / 2 - (g.angles p).1)) →
    ∀ p, p ∈ px ↔ p < npix ∧ InEllipse s c.1 c.2 (g.angles p).2 (π / 2 - (g.angles p).1)

/-! ## One pixel -/

theorem npIndex_nat {n p : Nat} (h : p < n) : npIndex n (p : Int) = some p := by
  unfold npIndex
  rw [if_pos (by omega), if_neg (by omega)]
  rfl

theorem setPx_one {V : Type} [Add V] [Zero V] (l : List V) (p : Nat) (v : V) (h : p < l.length) :
    setPx l [(p : Int)] (.arr [v]) = some (l.set p v) := by
  unfold setPx setOne
  simp [Val.toList, npIndex_nat h]

theorem getPx_one {V : Type} (l : List V) (p : Nat) (v : V) (h : l[p]? = some v) : getPx l [(p : Int)] = some [v] := by
  have hp : p < l.length := (List.getElem?_eq_some_iff.1 h).1
  simp [getPx, npIndex_nat hp, h]

theorem truncTo_one (b : Bool) : truncTo b (1 : ℝ) = 1 := by
  unfold truncTo
  cases b <;> simp

theorem mapM_getPx (p : Nat) (n : Nat) (hp : p < n) : ∀ ind : List (List ℝ), (∀ d ∈ ind, d.length = n) →
    ∃ r, ind.mapM (fun d => getPx d [(p : Int)]) = some r ∧ r.length = ind.length
  | [], _ => ⟨[], rfl, rfl⟩
  | d :: ds, h => by
    obtain ⟨r, h1, h2⟩ := mapM_getPx p n hp ds fun x hx => h x (by simp [hx])
    have hd : d[p]? = some (d[p]'(by rw [h d (by simp)]; exact hp)) := List.getElem?_eq_getElem _
    exact ⟨[d[p]'(by rw [h d (by simp)]; exact hp)] :: r, by simp [getPx_one d p _ hd, h1], by simp [h2]⟩

theorem put_one (h : WMap ℝ) (hok : h.Ok) {p : Nat} (hp : p < h.map.length) (v : ℝ) (inds : List (List ℝ)) (ind' : List (List ℝ))
    (hi : putInds [(p : Int)] [1] h.ind inds = some ind') :
    h.put [(p : Int)] [1] [v] inds = some { h with wgt := h.wgt.set p 1, map := h.map.set p v, ind := ind' } := by
  unfold WMap.put
  have h1 : setPx h.wgt [(p : Int)] (.arr ([1].map (truncTo h.wgtInt))) = some (h.wgt.set p 1) := by
    simp only [List.map_cons, List.map_nil, truncTo_one]
    exact setPx_one _ _ _ (by rw [hok.wgt]; exact hp)
  have h2 : zipArr (· * ·) [v] [(1 : ℝ)] = some [v] := by simp [zipArr]
  have h3 := setPx_one h.map p v hp
  simp only [h1, h2, h3, hi, bind, Option.bind]

theorem get_pixel (h : WMap ℝ) (hok : h.Ok) (hlen : ∀ d ∈ h.ind, d.length = h.map.length) {p : Nat} (hp : p < h.map.length) :
    ∃ x w r, h.map[p]? = some x ∧ h.wgt[p]? = some w ∧ h.get [(p : Int)] = some ([x / posOr1 w], r) ∧ r.length = h.ind.length := by
  have hx : h.map[p]? = some (h.map[p]) := List.getElem?_eq_getElem _
  have hw : h.wgt[p]? = some (h.wgt[p]'(by rw [hok.wgt]; exact hp)) := List.getElem?_eq_getElem _
  obtain ⟨r, h1, h2⟩ := mapM_getPx p _ hp h.ind hlen
  refine ⟨_, _, r.map fun i => List.zipWith (fun x y => x / posOr1 y) i [h.wgt[p]'(by rw [hok.wgt]; exact hp)], hx, hw, ?_, by simp [h2]⟩
  unfold WMap.get
  rw [getPx_one _ _ _ hx, getPx_one _ _ _ hw, h1]
  rfl

/-- what one pixel of one source does -/
theorem putPixel_spec {E : Type} (o : ModOpts E) (s : ModSrc) (perPx : ℝ) (h : WMap ℝ) (hr : Ready o h) {p : Nat} (hp : p < h.map.length) :
    ∃ h', putPixel o.nindices s perPx h p = some h' ∧ Ready o h' ∧ h'.map.length = h.map.length ∧
      (∀ q, valueAt h' q = if q = p then (valueAt h p).map (perPx + ·) else valueAt h q) ∧
      (∀ k q, indexAt h' k q = if k = 0 ∧ q = p ∧ o.nindices ≠ 0 then some s.index else indexAt h k q) := by
  obtain ⟨x, w, r, hx, hw, hget, hrl⟩ := get_pixel h hr.ok hr.len hp
  have hwl : p < h.wgt.length := by rw [hr.ok.wgt]; exact hp
  have hw01 : w = 0 ∨ w = 1 := hr.wgt w (List.mem_of_getElem? hw)
  have hpos : posOr1 w = 1 := by
    rcases hw01 with rfl | rfl
    · exact posOr1_one.2
    · exact posOr1_one.1
  have hval : valueAt h p = some x := by
    unfold valueAt
    rw [hx, hw]
    simp [hpos]
  have hvalues : ∀ ind', ∀ q, valueAt { h with wgt := h.wgt.set p 1, map := h.map.set p (perPx + x / posOr1 w), ind := ind' } q =
      if q = p then (valueAt h p).map (perPx + ·) else valueAt h q := by
    intro ind' q
    by_cases hq : q = p
    · subst hq
      rw [if_pos rfl, hval]
      unfold valueAt
      simp [hp, hwl, hpos, posOr1_one.1]
    · rw [if_neg hq]
      unfold valueAt
      simp [List.getElem?_set_ne (Ne.symm hq)]
  have hwgt : ∀ v ∈ h.wgt.set p 1, v = 0 ∨ v = 1 := by
    intro v hv
    rcases List.mem_or_eq_of_mem_set hv with hv | rfl
    · exact hr.wgt v hv
    · exact Or.inr rfl
  unfold putPixel
  rw [hget]
  by_cases h0 : o.nindices = 0
  · have hind : h.ind = [] := List.length_eq_zero_iff.1 (by rw [hr.ind, h0])
    have hpi : putInds [(p : Int)] [1] h.ind [] = some h.ind := by rw [hind]; rfl
    simp only [h0, if_true, hrl, hind, List.length_nil]
    rw [put_one h hr.ok hp _ _ _ hpi]
    refine ⟨_, rfl, ⟨⟨by simp [hr.ok.wgt], by simpa using hr.ok.small⟩, hr.ind, by simpa using hr.len, hwgt⟩, by simp, hvalues _, ?_⟩
    intro k q
    simp [indexAt, hind]
  · have hne : h.ind.length ≠ 0 := by rw [hr.ind]; exact h0
    obtain ⟨d, ds, hind⟩ : ∃ d ds, h.ind = d :: ds := by
      cases hi : h.ind with
      | nil => rw [hi] at hne; exact absurd rfl hne
      | cons d ds => exact ⟨d, ds, rfl⟩
    have hdl : d.length = h.map.length := hr.len d (by rw [hind]; simp)
    have hpi : putInds [(p : Int)] [1] h.ind [[s.index]] = some (d.set p s.index :: ds) := by
      rw [hind]
      unfold putInds
      have h2 : zipArr (· * ·) [s.index] [(1 : ℝ)] = some [s.index] := by simp [zipArr]
      have h3 : putInds [(p : Int)] [1] ds [] = some ds := by cases ds <;> rfl
      simp only [h2, setPx_one d p s.index (by rw [hdl]; exact hp), h3, bind, Option.bind]
    simp only [h0, if_false, hrl, hne]
    rw [put_one h hr.ok hp _ _ _ hpi]
    refine ⟨_, rfl, ⟨⟨by simp [hr.ok.wgt], by simpa using hr.ok.small⟩, by rw [← hr.ind, hind]; rfl, ?_, hwgt⟩, by simp, hvalues _, ?_⟩
    · intro x hx
      simp only [List.mem_cons] at hx
      rcases hx with rfl | hx
      · simp [hdl]
      · simp only [List.length_set]
        exact hr.len x (by rw [hind]; simp [hx])
    · intro k q
      unfold indexAt
      rw [hind]
      cases k with
      | zero =>
        by_cases hq : q = p
        · subst hq
          have : q < d.length := by rw [hdl]; exact hp
          simp [this, hwl, posOr1_one.1, h0]
        · simp [hq, List.getElem?_set_ne (Ne.symm hq)]
      | succ k =>
        rw [if_neg (by simp)]
        by_cases hq : q = p
        · subst hq
          simp only [List.getElem?_cons_succ, bind, Option.bind]
          cases ds[k]? with
          | none => rfl
          | some l =>
            simp only
            cases l[q]? with
            | none => rfl
            | some y =>
              rw [List.getElem?_set_self hwl, hw]
              simp [hpos, posOr1_one.1]
        · simp [List.getElem?_set_ne (Ne.symm hq)]

/-! ## All pixels of a source, all sources -/

theorem putPixels_spec {E : Type} (o : ModOpts E) (s : ModSrc) (perPx : ℝ) : ∀ (ps : List Nat) (h : WMap ℝ), Ready o h →
    (∀ p ∈ ps, p < h.map.length) → ps.Nodup →
    ∃ h', putPixels o.nindices s perPx h ps = some h' ∧ Ready o h' ∧ h'.map.length = h.map.length ∧
      (∀ q, valueAt h' q = (valueAt h q).map fun v => v + if q ∈ ps then perPx else 0) ∧
      (∀ k q, indexAt h' k q = if k = 0 ∧ q ∈ ps ∧ o.nindices ≠ 0 then some s.index else indexAt h k q)
  | [], h, hr, _, _ => ⟨h, rfl, hr, rfl, by intro q; simp, by intro k q; simp⟩
  | p :: ps, h, hr, hlt, hnd => by
    obtain ⟨h1, e1, r1, l1, v1, i1⟩ := putPixel_spec o s perPx h hr (hlt p (by simp))
    obtain ⟨h2, e2, r2, l2, v2, i2⟩ := putPixels_spec o s perPx ps h1 r1 (fun q hq => by rw [l1]; exact hlt q (by simp [hq])) (List.nodup_cons.1 hnd).2
    have hp := (List.nodup_cons.1 hnd).1
    refine ⟨h2, ?_, r2, by rw [l2, l1], ?_, ?_⟩
    · unfold putPixels
      rw [e1, Option.bind_some, e2]
    · intro q
      rw [v2, v1]
      by_cases hq : q = p
      · subst hq
        rw [if_pos rfl, if_neg hp, if_pos (by simp)]
        cases valueAt h q with
        | none => rfl
        | some v => simp [add_comm]
      · have : (q ∈ p :: ps) ↔ q ∈ ps := by simp [hq]
        simp only [this, if_neg hq]
    · intro k q
      rw [i2, i1]
      by_cases hk : k = 0 ∧ q ∈ ps ∧ o.nindices ≠ 0
      · rw [if_pos hk, if_pos ⟨hk.1, by simp [hk.2.1], hk.2.2⟩]
      · rw [if_neg hk]
        by_cases hq : k = 0 ∧ q = p ∧ o.nindices ≠ 0
        · rw [if_pos hq, if_pos ⟨hq.1, by simp [hq.2.1], hq.2.2⟩]
        · rw [if_neg hq, if_neg]
          rintro ⟨a, b, c⟩
          rcases List.mem_cons.1 b with b | b
          · exact hq ⟨a, b, c⟩
          · exact hk ⟨a, b, c⟩

theorem inShape_iff (s : ModSrc) {ra dec : ℝ} {p : ℝ × ℝ} (h1 : |s.a1| < ra) (h2 : |s.a2| < ra) (h3 : ra + |s.a1| < 2 * π) (h4 : ra + |s.a2| < 2 * π)
    (hp : 0 ≤ p.2 ∧ p.2 < 2 * π) : inShape s ra dec p ↔ InEllipse s ra dec p.2 (π / 2 - p.1) := by
  unfold inShape InEllipse
  constructor
  · rintro ⟨ha, hb, h⟩
    exact ⟨ha, hb, 0, by simpa using h⟩
  · rintro ⟨ha, hb, k, h⟩
    refine ⟨ha, hb, ?_⟩
    have hk : k = 0 := by
      set x := p.2 - ra + k * (2 * π) with hx
      set y := π / 2 - p.1 - dec with hy
      have hpos1 : 0 < s.a1 ^ 2 := by positivity
      have hpos2 : 0 < s.a2 ^ 2 := by positivity
      have hb1 : (x * cos s.th - y * sin s.th) ^ 2 + (x * sin s.th + y * cos s.th) ^ 2 ≤ max (s.a1 ^ 2) (s.a2 ^ 2) := by
        have e1 : (x * cos s.th - y * sin s.th) ^ 2 = ((x * cos s.th - y * sin s.th) / s.a1) ^ 2 * s.a1 ^ 2 := by
          rw [div_pow, div_mul_cancel₀ _ hpos1.ne']
        have e2 : (x * sin s.th + y * cos s.th) ^ 2 = ((x * sin s.th + y * cos s.th) / s.a2) ^ 2 * s.a2 ^ 2 := by
          rw [div_pow, div_mul_cancel₀ _ hpos2.ne']
        have hM1 := le_max_left (s.a1 ^ 2) (s.a2 ^ 2)
        have hM2 := le_max_right (s.a1 ^ 2) (s.a2 ^ 2)
        rw [e1, e2]
        nlinarith [sq_nonneg ((x * cos s.th - y * sin s.th) / s.a1), sq_nonneg ((x * sin s.th + y * cos s.th) / s.a2)]
      have hx2 : x ^ 2 ≤ max (s.a1 ^ 2) (s.a2 ^ 2) := by
        have : (x * cos s.th - y * sin s.th) ^ 2 + (x * sin s.th + y * cos s.th) ^ 2 = x ^ 2 + y ^ 2 := by
          linear_combination (x ^ 2 + y ^ 2) * sin_sq_add_cos_sq s.th
        nlinarith [sq_nonneg y]
      have hxa : |x| ≤ max |s.a1| |s.a2| := by
        rcases le_total (s.a1 ^ 2) (s.a2 ^ 2) with hle | hle
        · rw [max_eq_right hle] at hx2
          exact le_max_of_le_right (sq_le_sq.1 hx2)
        · rw [max_eq_left hle] at hx2
          exact le_max_of_le_left (sq_le_sq.1 hx2)
      have hA1 : max |s.a1| |s.a2| < ra := max_lt h1 h2
      have hA2 : ra + max |s.a1| |s.a2| < 2 * π := by
        rcases max_choice |s.a1| |s.a2| with h | h <;> rw [h] <;> assumption
      have hxx := abs_le.1 hxa
      have hpi := pi_pos
      rcases lt_trichotomy k 0 with hk | hk | hk
      · exfalso
        have : (k : ℝ) ≤ -1 := by exact_mod_cast Int.le_sub_one_of_lt hk
        have : (k : ℝ) * (2 * π) ≤ -1 * (2 * π) := mul_le_mul_of_nonneg_right this (by linarith)
        linarith [hxx.1, hp.2]
      · exact hk
      · exfalso
        have : (1 : ℝ) ≤ k := by exact_mod_cast hk
        have : 1 * (2 * π) ≤ (k : ℝ) * (2 * π) := mul_le_mul_of_nonneg_right this (by linarith)
        linarith [hxx.2, hp.1]
    rw [hk] at h
    simpa using h

theorem trans_same {E : Type} (f : Frames E) (s : Sys) (t : E) : Coord.trans f s s t t = 1 := (f.rot s t).1

/-- `ra`, `dec` are the angles of the source in the equatorial frame of the epoch of the map -/
theorem precessed {E : Type} (f : Frames E) (o : ModOpts E) (s : ModSrc) :
    frameConv f .eq .eq o.j2000 o.oepoch (s.ra, s.dec) = eq2radec (direction f o .eq s) := by
  unfold frameConv direction Coord.trans
  rw [mulVec_mulVec]

theorem covers {E : Type} (f : Frames E) (g : Pix) (o : ModOpts E) (npix : Nat) (hg : ∀ v, g.locate v < npix) {so : Sys} (ho : sysOf o.osys = some so)
    (s : ModSrc) : Covers f g o npix s (srcPixels f g o npix (trans f .eq so o.j2000 o.oepoch) s) := by
  classical
  unfold srcPixels
  simp only []
  constructor
  · split
    · simp
    · exact List.nodup_range.filter _
  · split
    · simp
    · next h =>
      intro h0
      rw [h0] at h
      exact h rfl
  · intro p hp
    split at hp
    · rw [List.mem_singleton] at hp
      rw [hp]
      exact hg _
    · exact List.mem_range.1 (List.mem_filter.1 hp).1
  · intro ha he so' hso
    rw [ho] at hso
    cases hso
    have hemp : (List.range npix).filter (fun p => decide (inShape s (frameConv f .eq .eq o.j2000 o.oepoch (s.ra, s.dec)).1
        (frameConv f .eq .eq o.j2000 o.oepoch (s.ra, s.dec)).2 (g.angles p))) = [] := by
      rw [List.filter_eq_nil_iff]
      intro p _ h
      have h := of_decide_eq_true h
      rcases ha with ha | ha
      · exact h.1 ha
      · exact h.2.1 ha
    rw [if_pos (by rw [hemp]; rfl), frameConv_vec, he, trans_same, one_mulVec]
    unfold direction
    rw [he]
  · intro c hc hso h1 h2 h3 h4 hang hex p
    rw [precessed, ← hc]
    have hiff : ∀ q, q < npix → (inShape s c.1 c.2 (g.angles q) ↔ InEllipse s c.1 c.2 (g.angles q).2 (π / 2 - (g.angles q).1)) :=
      fun q hq => inShape_iff s h1 h2 h3 h4 (hang q hq)
    rw [if_neg]
    · simp only [List.mem_filter, List.mem_range, decide_eq_true_eq]
      constructor
      · rintro ⟨a, b⟩
        exact ⟨a, (hiff p a).1 b⟩
      · rintro ⟨a, b⟩
        exact ⟨a, (hiff p a).2 b⟩
    · obtain ⟨q, hq, he⟩ := hex
      intro h0
      have := List.length_eq_zero_iff.1 h0
      rw [List.filter_eq_nil_iff] at this
      exact this q (List.mem_range.2 hq) (decide_eq_true ((hiff q hq).2 he))

/-- the index of the last source that covers the pixel -/
def lastIndex (cov : ModSrc → List Nat) (p : Nat) (old : Option ℝ) : List ModSrc → Option ℝ
  | [] => old
  | s :: ss => lastIndex cov p (if p ∈ cov s then some s.index else old) ss

theorem putSrcs_spec {E : Type} (f : Frames E) (g : Pix) (o : ModOpts E) (m : Mat) (npix : Nat)
    (hc : ∀ s, (srcPixels f g o npix m s).Nodup ∧ ∀ p ∈ srcPixels f g o npix m s, p < npix) : ∀ (ss : List ModSrc) (h : WMap ℝ), Ready o h → h.map.length = npix →
    ∃ h', putSrcs f g o m h ss = some h' ∧ Ready o h' ∧ h'.map.length = npix ∧
      (∀ q, valueAt h' q = (valueAt h q).map fun v => v + (ss.map fun s => share o s (srcPixels f g o npix m s) q).sum) ∧
      (∀ k q, indexAt h' k q = if k = 0 ∧ o.nindices ≠ 0 then lastIndex (srcPixels f g o npix m) q (indexAt h 0 q) ss else indexAt h k q)
  | [], h, hr, hl => ⟨h, rfl, hr, hl, by intro q; simp, by
      intro k q
      unfold lastIndex
      split
      · next hk => rw [hk.1]
      · rfl⟩
  | s :: ss, h, hr, hl => by
    have hsp := putPixels_spec o s (s.jys * o.sscale / (srcPixels f g o npix m s).length) (srcPixels f g o npix m s) h hr
      (by rw [hl]; exact (hc s).2) (hc s).1
    obtain ⟨h1, e1, r1, l1, v1, i1⟩ := hsp
    obtain ⟨h2, e2, r2, l2, v2, i2⟩ := putSrcs_spec f g o m npix hc ss h1 r1 (by rw [l1, hl])
    refine ⟨h2, ?_, r2, l2, ?_, ?_⟩
    · unfold putSrcs putSrc
      simp only [hl]
      rw [e1, Option.bind_some, e2]
    · intro q
      rw [v2, v1, Option.map_map]
      congr 1
      funext v
      simp only [Function.comp, List.map_cons, List.sum_cons, share]
      ring
    · intro k q
      rw [i2, i1, i1]
      by_cases hk : k = 0 ∧ o.nindices ≠ 0
      · rw [if_pos hk, if_pos hk]
        have e : lastIndex (srcPixels f g o npix m) q (indexAt h 0 q) (s :: ss) =
          lastIndex (srcPixels f g o npix m) q (if q ∈ srcPixels f g o npix m s then some s.index else indexAt h 0 q) ss := rfl
        rw [e]
        by_cases hq : q ∈ srcPixels f g o npix m s
        · rw [if_pos ⟨rfl, hq, hk.2⟩, if_pos hq]
        · rw [if_neg (by tauto), if_neg hq]
      · rw [if_neg hk, if_neg hk, if_neg (by tauto)]

/-- C93: every source adds its flux, in equal parts, to the pixels it covers, nothing else changes; with index maps the first one
gets the index of the last source covering the pixel. -/
theorem c93_sources_partial {E : Type} (f : Frames E) (g : Pix) (o : ModOpts E) (h : WMap ℝ) (hr : Ready o h)
    (hg : ∀ v, g.locate v < h.map.length) (ho : sysOf o.osys ≠ none) (srcs : List ModSrc) :
    ∃ h' cov, modmap f g o h srcs = some h' ∧ (∀ s, Covers f g o h.map.length s (cov s)) ∧ h'.map.length = h.map.length ∧
      (∀ q, valueAt h' q = (valueAt h q).map fun v => v + (srcs.map fun s => share o s (cov s) q).sum) ∧
      (∀ k q, indexAt h' k q = if k = 0 ∧ o.nindices ≠ 0 then lastIndex cov q (indexAt h 0 q) srcs else indexAt h k q) := by
  obtain ⟨so, ho⟩ := Option.ne_none_iff_exists'.1 ho
  have hc := covers f g o h.map.length hg ho
  obtain ⟨h', e, r, l, v, i⟩ := putSrcs_spec f g o (trans f .eq so o.j2000 o.oepoch) h.map.length (fun s => ⟨(hc s).nodup, (hc s).lt⟩) srcs h hr rfl
  refine ⟨h', _, ?_, hc, l, v, i⟩
  unfold modmap
  rw [convertM_eq f (show sysOf "eq".toList = some .eq from by decide) ho, Option.bind_some, e]

theorem sum_share {E : Type} (o : ModOpts E) (s : ModSrc) (px : List Nat) (n : Nat) (hnd : px.Nodup) (hne : px ≠ []) (hlt : ∀ p ∈ px, p < n) :
    ((List.range n).map fun p => share o s px p).sum = s.jys * o.sscale := by
  have e : ((List.range n).map fun p => share o s px p).sum = ∑ p ∈ Finset.range n, share o s px p := rfl
  rw [e]
  unfold share
  rw [← Finset.sum_filter]
  have hs : (Finset.range n).filter (· ∈ px) = px.toFinset := by
    ext p
    simp only [Finset.mem_filter, Finset.mem_range, List.mem_toFinset]
    exact ⟨fun h => h.2, fun h => ⟨hlt p h, h⟩⟩
  rw [hs, Finset.sum_const, List.toFinset_card_of_nodup hnd, nsmul_eq_mul]
  have : (px.length : ℝ) ≠ 0 := by
    rw [Nat.cast_ne_zero]
    exact fun h => hne (List.length_eq_zero_iff.1 h)
  field_simp

theorem valueAt_some {h : WMap ℝ} (hk : h.Ok) {p : Nat} (hp : p < h.map.length) : ∃ v, valueAt h p = some v := by
  unfold valueAt
  rw [List.getElem?_eq_getElem hp, List.getElem?_eq_getElem (by rw [hk.wgt]; exact hp)]
  exact ⟨_, rfl⟩

theorem sum_swap {E : Type} (o : ModOpts E) (cov : ModSrc → List Nat) (n : Nat) (hc : ∀ s, (cov s).Nodup ∧ cov s ≠ [] ∧ ∀ p ∈ cov s, p < n) :
    ∀ srcs : List ModSrc, ((List.range n).map fun q => (srcs.map fun s => share o s (cov s) q).sum).sum = (srcs.map fun s => s.jys * o.sscale).sum
  | [] => by simp
  | s :: ss => by
    simp only [List.map_cons, List.sum_cons]
    rw [List.sum_map_add, sum_share o s (cov s) n (hc s).1 (hc s).2.1 (hc s).2.2, sum_swap o cov n hc ss]

/-- C93: the flux of the map grows by the flux of the sources, scaled. -/
theorem c93_flux {E : Type} (f : Frames E) (g : Pix) (o : ModOpts E) (h : WMap ℝ) (hr : Ready o h)
    (hg : ∀ v, g.locate v < h.map.length) (ho : sysOf o.osys ≠ none) (srcs : List ModSrc) :
    ∃ h', modmap f g o h srcs = some h' ∧ flux h' = flux h + o.sscale * (srcs.map ModSrc.jys).sum := by
  obtain ⟨h', cov, e, hc, l, v, _⟩ := c93_sources_partial f g o h hr hg ho srcs
  refine ⟨h', e, ?_⟩
  unfold flux
  rw [l]
  have e1 : (List.range h.map.length).map (fun p => (valueAt h' p).getD 0) =
      (List.range h.map.length).map fun p => (valueAt h p).getD 0 + (srcs.map fun s => share o s (cov s) p).sum := by
    apply List.map_congr_left
    intro p hp
    obtain ⟨x, hx⟩ := valueAt_some hr.ok (List.mem_range.1 hp)
    rw [v, hx]
    rfl
  rw [e1, List.sum_map_add, sum_swap o cov _ (fun s => ⟨(hc s).nodup, (hc s).ne, (hc s).lt⟩)]
  rw [← List.sum_map_mul_left]
  simp only [mul_comm o.sscale]

/-- C93: sources that come in another order give the same fluxes. -/
theorem c93_order {E : Type} (f : Frames E) (g : Pix) (o : ModOpts E) (h : WMap ℝ) (hr : Ready o h)
    (hg : ∀ v, g.locate v < h.map.length) (ho : sysOf o.osys ≠ none) (srcs srcs' : List ModSrc) (hp : srcs.Perm srcs') :
    ∃ h1 h2, modmap f g o h srcs = some h1 ∧ modmap f g o h srcs' = some h2 ∧ ∀ q, valueAt h1 q = valueAt h2 q := by
  obtain ⟨so, ho⟩ := Option.ne_none_iff_exists'.1 ho
  have hc := covers f g o h.map.length hg ho
  have run := fun ss => putSrcs_spec f g o (Coord.trans f .eq so o.j2000 o.oepoch) h.map.length (fun s => ⟨(hc s).nodup, (hc s).lt⟩) ss h hr rfl
  obtain ⟨h1, e1, _, _, v1, _⟩ := run srcs
  obtain ⟨h2, e2, _, _, v2, _⟩ := run srcs'
  have hm := convertM_eq f (show sysOf "eq".toList = some .eq from by decide) ho o.j2000 o.oepoch
  refine ⟨h1, h2, ?_, ?_, ?_⟩
  · unfold modmap
    rw [hm, Option.bind_some, e1]
  · unfold modmap
    rw [hm, Option.bind_some, e2]
  · intro q
    rw [v1, v2, (hp.map _).sum_eq]

/-! ## Where the sources are not put -/

theorem one_source {E : Type} (f : Frames E) (g : Pix) (o : ModOpts E) (h : WMap ℝ) (hr : Ready o h)
    (hg : ∀ v, g.locate v < h.map.length) {so : Sys} (ho : sysOf o.osys = some so) (s : ModSrc) :
    ∃ h', modmap f g o h [s] = some h' ∧ ∀ q, valueAt h' q = (valueAt h q).map fun v => v +
      share o s (srcPixels f g o h.map.length (Coord.trans f .eq so o.j2000 o.oepoch) s) q := by
  have hc := covers f g o h.map.length hg ho
  obtain ⟨h', e, _, _, v, _⟩ := putSrcs_spec f g o (Coord.trans f .eq so o.j2000 o.oepoch) h.map.length (fun s => ⟨(hc s).nodup, (hc s).lt⟩) [s] h hr rfl
  refine ⟨h', ?_, fun q => ?_⟩
  · unfold modmap
    rw [convertM_eq f (show sysOf "eq".toList = some .eq from by decide) ho, Option.bind_some, e]
  · rw [v]
    simp

/-- a quarter turn about the pole -/
def quarter : Mat := !![0, -1, 0; 1, 0, 0; 0, 0, 1]

theorem quarter_rot : IsRotation quarter := by
  constructor
  · ext i j
    fin_cases i <;> fin_cases j <;> simp [quarter, Matrix.mul_apply, Fin.sum_univ_three]
  · simp [quarter, Matrix.det_fin_three]

/-- frames of two epochs, a quarter turn apart, and galactic coordinates a quarter turn from the equatorial ones -/
def turned : Frames Bool where
  mat s t := match s, t with
    | .ga, false => quarter
    | .eq, true => quarter
    | _, _ => 1
  rot s t := by
    cases s <;> cases t <;> first | exact quarter_rot | exact ⟨by simp, by simp⟩

/-- two pixels -/
def two : WMap ℝ := ⟨[1, 1], [0, 0], [], true⟩

theorem two_ready {E : Type} (o : ModOpts E) (ho : o.nindices = 0) : Ready o two :=
  ⟨⟨rfl, by decide⟩, by rw [ho]; rfl, by simp [two], by simp [two]⟩

theorem two_value : valueAt two 0 = some 0 ∧ valueAt two 1 = some 0 := by simp [valueAt, two]

theorem at_zero : radec2eq (0, 0) = ![1, 0, 0] := by
  ext i
  fin_cases i <;> simp [radec2eq, thphi2xyz]

/-- C93: in a map of another epoch a point source is put in a wrong place: its coordinates are precessed twice. -/
theorem c93_epoch_violated : ∃ (f : Frames Bool) (g : Pix) (o : ModOpts Bool) (h h' : WMap ℝ) (s : ModSrc),
    Ready o h ∧ (∀ v, g.locate v < h.map.length) ∧ sysOf o.osys = some .eq ∧ s.a1 = 0 ∧ modmap f g o h [s] = some h' ∧
    g.locate (direction f o .eq s) = 1 ∧ valueAt h' 1 = some 0 ∧ valueAt h' 0 = some s.jys ∧ s.jys ≠ 0 := by
  classical
  let g : Pix := ⟨fun _ => (0, 0), fun v => if v 1 = 1 then 1 else 0⟩
  let o : ModOpts Bool := ⟨"eq".toList, true, false, 1, 0⟩
  let s : ModSrc := ⟨0, 0, 0, 0, 0, 1, 0⟩
  have hg : ∀ v, g.locate v < two.map.length := by
    intro v
    show (if v 1 = 1 then 1 else 0) < 2
    split <;> decide
  obtain ⟨h', e, v⟩ := one_source turned g o two (two_ready o rfl) hg (so := .eq) (by decide) s
  have hpx : srcPixels turned g o two.map.length (Coord.trans turned .eq .eq o.j2000 o.oepoch) s = [0] := by
    have hemp : (List.range two.map.length).filter (fun p => decide (inShape s (frameConv turned .eq .eq o.j2000 o.oepoch (s.ra, s.dec)).1
        (frameConv turned .eq .eq o.j2000 o.oepoch (s.ra, s.dec)).2 (g.angles p))) = [] := by
      rw [List.filter_eq_nil_iff]
      intro p _ h
      exact (of_decide_eq_true h).1 rfl
    unfold srcPixels
    simp only [hemp]
    rw [if_pos (by rfl), frameConv_vec]
    show [if (Coord.trans turned .eq .eq false true *ᵥ (Coord.trans turned .eq .eq false true *ᵥ radec2eq (0, 0))) 1 = 1 then 1 else 0] = [0]
    rw [at_zero, if_neg]
    simp [Coord.trans, turned, quarter, Matrix.mulVec, dotProduct, Fin.sum_univ_three]
  rw [hpx] at v
  refine ⟨turned, g, o, two, h', s, two_ready o rfl, hg, by decide, rfl, e, ?_, ?_, ?_, one_ne_zero⟩
  · show (if (Coord.trans turned .eq .eq false true *ᵥ radec2eq (0, 0)) 1 = 1 then 1 else 0) = 1
    rw [at_zero, if_pos]
    simp [Coord.trans, turned, quarter, Matrix.mulVec, dotProduct, Fin.sum_univ_three]
  · rw [v, two_value.2]
    simp [share]
  · rw [v, two_value.1]
    simp [share, o, s]

/-- C93: a pixel on the other side of right ascension zero is not recognised as a part of the source. -/
theorem c93_wrap_violated : ∃ (f : Frames Bool) (g : Pix) (o : ModOpts Bool) (h h' : WMap ℝ) (s : ModSrc),
    Ready o h ∧ (∀ v, g.locate v < h.map.length) ∧ sysOf o.osys = some .eq ∧ o.oepoch = o.j2000 ∧ modmap f g o h [s] = some h' ∧
    eq2radec (direction f o .eq s) = (s.ra, s.dec) ∧
    (∀ p, 0 ≤ (g.angles p).2 ∧ (g.angles p).2 < 2 * π) ∧
    InEllipse s s.ra s.dec (g.angles 0).2 (π / 2 - (g.angles 0).1) ∧ InEllipse s s.ra s.dec (g.angles 1).2 (π / 2 - (g.angles 1).1) ∧
    valueAt h' 0 = some 0 ∧ valueAt h' 1 = some s.jys ∧ s.jys ≠ 0 := by
  classical
  have hpi := two_le_pi
  let g : Pix := ⟨fun p => if p = 0 then (π / 2, 2 * π - 1 / 10) else (π / 2, 1 / 10), fun _ => 0⟩
  let o : ModOpts Bool := ⟨"eq".toList, false, false, 1, 0⟩
  let s : ModSrc := ⟨1 / 10, 0, 1 / 2, 1 / 2, 0, 1, 0⟩
  have hg : ∀ v, g.locate v < two.map.length := fun _ => show 0 < 2 from by decide
  have hdir : direction turned o .eq s = radec2eq (1 / 10, 0) := by
    show Coord.trans turned .eq .eq false false *ᵥ radec2eq (1 / 10, 0) = _
    rw [trans_same, one_mulVec]
  have hra : eq2radec (direction turned o .eq s) = (1 / 10, 0) := by
    rw [hdir]
    exact (c21_vec_of_radec (1 / 10) 0 (by linarith) (by linarith)).2.2 (by norm_num) (by linarith)
  obtain ⟨h', e, v⟩ := one_source turned g o two (two_ready o rfl) hg (so := .eq) (by decide) s
  have hpx : srcPixels turned g o two.map.length (Coord.trans turned .eq .eq o.j2000 o.oepoch) s = [1] := by
    have h0 : ¬ inShape s (1 / 10) 0 (g.angles 0) := by
      rintro ⟨_, _, h⟩
      simp [g, s] at h
      have := le_abs_self (2 * π - 10⁻¹ - 10⁻¹)
      norm_num at *
      linarith
    have h1 : inShape s (1 / 10) 0 (g.angles 1) := by
      refine ⟨by norm_num [s], by norm_num [s], ?_⟩
      simp [g, s]
    unfold srcPixels
    simp only [precessed, hra]
    have : (List.range two.map.length).filter (fun p => decide (inShape s (1 / 10) 0 (g.angles p))) = [1] := by
      show [0, 1].filter _ = _
      rw [List.filter_cons_of_neg (by simpa using h0), List.filter_cons_of_pos (by simpa using h1), List.filter_nil]
    rw [this]
    rfl
  rw [hpx] at v
  refine ⟨turned, g, o, two, h', s, two_ready o rfl, hg, by decide, rfl, e, hra, ?_, ?_, ?_, ?_, ?_, one_ne_zero⟩
  · intro p
    by_cases hp : p = 0
    · simp only [g, hp, if_true]
      constructor <;> linarith
    · simp only [g, hp, if_false]
      constructor
      · norm_num
      · linarith
  · refine ⟨by norm_num [s], by norm_num [s], -1, ?_⟩
    simp only [g, s, if_true]
    norm_num
    rw [abs_le]
    constructor <;> linarith
  · refine ⟨by norm_num [s], by norm_num [s], 0, ?_⟩
    simp [g, s]
  · rw [v, two_value.1]
    simp [share]
  · rw [v, two_value.2]
    simp [share, o, s]

/-- C93: in a galactic map the ellipse of an extended source is drawn where its equatorial coordinates point to. -/
theorem c93_system_violated : ∃ (f : Frames Bool) (g : Pix) (o : ModOpts Bool) (h h' : WMap ℝ) (s : ModSrc) (c : ℝ × ℝ),
    Ready o h ∧ (∀ v, g.locate v < h.map.length) ∧ sysOf o.osys = some .ga ∧ o.oepoch = o.j2000 ∧ modmap f g o h [s] = some h' ∧
    c = eq2radec (direction f o .ga s) ∧ ¬ InEllipse s c.1 c.2 (g.angles 0).2 (π / 2 - (g.angles 0).1) ∧
    InEllipse s c.1 c.2 (g.angles 1).2 (π / 2 - (g.angles 1).1) ∧
    valueAt h' 0 = some s.jys ∧ valueAt h' 1 = some 0 ∧ s.jys ≠ 0 := by
  classical
  have hpi := two_le_pi
  let g : Pix := ⟨fun p => if p = 0 then (π / 2, 0) else (π / 2, π / 2), fun _ => 0⟩
  let o : ModOpts Bool := ⟨"ga".toList, false, false, 1, 0⟩
  let s : ModSrc := ⟨0, 0, 1 / 2, 1 / 2, 0, 1, 0⟩
  have hg : ∀ v, g.locate v < two.map.length := fun _ => show 0 < 2 from by decide
  have hra : eq2radec (direction turned o .eq s) = (0, 0) := by
    have : direction turned o .eq s = radec2eq (0, 0) := by
      show Coord.trans turned .eq .eq false false *ᵥ radec2eq (0, 0) = _
      rw [trans_same, one_mulVec]
    rw [this]
    exact (c21_vec_of_radec 0 0 (by linarith) (by linarith)).2.2 le_rfl (by linarith)
  have hga : eq2radec (direction turned o .ga s) = (π / 2, 0) := by
    have : direction turned o .ga s = radec2eq (π / 2, 0) := by
      show Coord.trans turned .eq .ga false false *ᵥ radec2eq (0, 0) = _
      rw [at_zero]
      ext i
      fin_cases i <;> simp [Coord.trans, turned, quarter, Matrix.mulVec, dotProduct, Fin.sum_univ_three, radec2eq, thphi2xyz]
    rw [this]
    exact (c21_vec_of_radec (π / 2) 0 (by linarith) (by linarith)).2.2 (by linarith) (by linarith)
  obtain ⟨h', e, v⟩ := one_source turned g o two (two_ready o rfl) hg (so := .ga) (by decide) s
  have hpx : srcPixels turned g o two.map.length (Coord.trans turned .eq .ga o.j2000 o.oepoch) s = [0] := by
    have h0 : inShape s 0 0 (g.angles 0) := by
      refine ⟨by norm_num [s], by norm_num [s], ?_⟩
      simp [g, s]
    have h1 : ¬ inShape s 0 0 (g.angles 1) := by
      rintro ⟨_, _, h⟩
      simp [g, s] at h
      linarith [le_abs_self π]
    unfold srcPixels
    simp only [precessed, hra]
    have : (List.range two.map.length).filter (fun p => decide (inShape s 0 0 (g.angles p))) = [0] := by
      show [0, 1].filter _ = _
      rw [List.filter_cons_of_pos (by simpa using h0), List.filter_cons_of_neg (by simpa using h1), List.filter_nil]
    rw [this]
    rfl
  rw [hpx] at v
  refine ⟨turned, g, o, two, h', s, (π / 2, 0), two_ready o rfl, hg, by decide, rfl, e, hga.symm, ?_, ?_, ?_, ?_, one_ne_zero⟩
  · rintro ⟨_, _, k, h⟩
    simp [g, s] at h
    have hk : 1 ≤ |-(π / 2) + k * (2 * π)| := by
      rcases le_or_gt k 0 with hk | hk
      · have hk : (k : ℝ) ≤ 0 := by exact_mod_cast hk
        rw [abs_of_nonpos (by nlinarith)]
        nlinarith
      · have hk : (1 : ℝ) ≤ k := by exact_mod_cast hk
        rw [abs_of_nonneg (by nlinarith)]
        nlinarith
    have := sq_abs (-(π / 2) + k * (2 * π))
    nlinarith
  · refine ⟨by norm_num [s], by norm_num [s], 0, ?_⟩
    simp [g, s]
  · rw [v, two_value.1]
    simp [share, o, s]
  · rw [v, two_value.2]
    simp [share]

/-! ## Examples -/

/-- two pixels, an index map -/
def twoInd : WMap ℝ := ⟨[1, 0], [3, 0], [[-1, 0]], true⟩

def demoOpts : ModOpts Bool := ⟨"eq".toList, false, false, 2, 1⟩

/-- an extended source, and two point sources -/
def demoSrcs : List ModSrc := [⟨1, 0, 1 / 2, 1 / 2, 0, 10, -1 / 2⟩, ⟨1, 0, 0, 0, 0, 5, -2⟩, ⟨2, 0, 0, 0, 0, 1, 0⟩]

theorem twoInd_ready : Ready demoOpts twoInd := ⟨⟨rfl, by decide⟩, rfl, by simp [twoInd], by simp [twoInd]⟩

example : ∃ h', modmap turned ⟨fun _ => (π / 2, 1), fun _ => 1⟩ demoOpts twoInd demoSrcs = some h' ∧ flux h' = flux twoInd + 2 * 16 := by
  obtain ⟨h', e, hf⟩ := c93_flux turned ⟨fun _ => (π / 2, 1), fun _ => 1⟩ demoOpts twoInd twoInd_ready (fun _ => show 1 < 2 from by decide) (by decide) demoSrcs
  refine ⟨h', e, ?_⟩
  rw [hf]
  norm_num [demoSrcs, demoOpts]

/-- the conditions on an extended source are met -/
example : ∃ c, c = eq2radec (direction turned demoOpts .eq ⟨1, 0, 1 / 2, 1 / 4, 0, 10, 0⟩) ∧ |(1 / 2 : ℝ)| < c.1 ∧ |(1 / 4 : ℝ)| < c.1 ∧
    c.1 + |(1 / 2 : ℝ)| < 2 * π ∧ InEllipse ⟨1, 0, 1 / 2, 1 / 4, 0, 10, 0⟩ c.1 c.2 (5 / 4) (π / 2 - π / 2) := by
  have hpi := two_le_pi
  have hd : direction turned demoOpts .eq ⟨1, 0, 1 / 2, 1 / 4, 0, 10, 0⟩ = radec2eq (1, 0) := by
    show Coord.trans turned .eq .eq false false *ᵥ radec2eq (1, 0) = _
    rw [trans_same, one_mulVec]
  refine ⟨(1, 0), ?_, by norm_num [abs_of_pos], by norm_num [abs_of_pos], ?_, by norm_num, by norm_num, 0, ?_⟩
  · rw [hd]
    exact ((c21_vec_of_radec 1 0 (by linarith) (by linarith)).2.2 (by norm_num) (by linarith)).symm
  · rw [abs_of_pos (by norm_num)]
    norm_num
    linarith
  · norm_num

end Verif.Sky
