import Verif.Img.Pixels
import Verif.Sky.MapProps
import Verif.Coord.Convert
/-!
# `mk_map.py` (C104)

`/repo/scripts/mk_map.py` 27-74: images of parts of the sky are put into one map.  An image is what `from_fits` returns
(`/repo/aipy/img.py`), the pixels in C order and the keywords; the map is the model of `Map` (C34), the directions of the
pixels are those of `Img.get_top` and `Img.get_eq` (C75), and `ephem` is a set of frames as for `convert_m` (C92).

Simplified: exact real numbers; reading and writing FITS and printed output; sub-pixel interpolation (`-i`) is off; the pixel
of the map that has a direction is a parameter (C30); the mask of the weights is an array also where nothing is masked.
-/
noncomputable section
namespace Verif.Sky.MkMap
open Real Matrix Verif.Coord Verif.Img

/-! ## Model -/

/-- what `img.from_fits` returns: `img.squeeze().shape[0]`, `img.flatten()` and the keywords; angles in radians -/
structure Fits (E : Type) where
  rows : Nat
  pix : List ℝ
  /-- `kwds['epoch'] == 2000` -/
  is2000 : Bool
  ra : ℝ
  dec : ℝ
  /-- `kwds['obs_date']` -/
  date : E
  /-- `kwds['d_ra']` -/
  dra : ℝ

/-- `prev_dra`, `DIM` and `RES` -/
structure Geo where
  prev : ℝ
  dim : Nat
  res : ℝ

/-- mk_map.py 54-57: the geometry is made anew when `d_ra` is another one -/
def geo {E : Type} (g : Option Geo) (x : Fits E) : Geo :=
  match g with
  | none => ⟨x.dra, x.rows, 1 / (x.dra * x.rows)⟩
  | some g => if g.prev ≠ x.dra then ⟨x.dra, x.rows, 1 / (x.dra * x.rows)⟩ else g

/-- `a.compress(mask)`: what is beyond the mask is dropped; `none` is IndexError -/
def compress {α : Type} (mask : List Bool) (a : List α) : Option (List α) :=
  if (mask.drop a.length).any id then none else some (((a.zip mask).filter fun e => e.2).map fun e => e.1)

/-- `map_wgts` at a pixel, mk_map.py 61 -/
def mapWgt (fwidth : ℝ) (t : Vec) : ℝ := exp (-(t 0 ^ 2 + t 1 ^ 2) / sin fwidth ^ 2)

/-- what the script knows: frames, the epoch of J2000, `--fwidth` in radians, and the pixel of the map for a direction -/
structure Env (E : Type) where
  f : Frames E
  j2000 : E
  fwidth : ℝ
  px : Vec → Nat

/-- the body of the loop, mk_map.py 34-73 -/
def addImage {E : Type} (e : Env E) (strict : Bool) (st : Option Geo × WMap ℝ) (x : Fits E) : Option (Option Geo × WMap ℝ) :=
  if x.is2000 = false then none else
  let s := frameConv e.f .eq .eq e.j2000 x.date (x.ra, x.dec)
  let g := geo st.1 x
  let center : ℤ × ℤ := ((g.dim / 2 : Nat), (g.dim / 2 : Nat))
  (getTop g.dim g.res center).bind fun top =>
  let valid := top.flatten.map Option.isSome
  let wgts := top.flatten.filterMap fun v => v.map (mapWgt e.fwidth)
  (getEq g.dim g.res s.1 s.2 center).bind fun eq =>
  (compress valid x.pix).bind fun img =>
  (convertM e.f ['e', 'q'] ['e', 'q'] x.date e.j2000).bind fun m =>
  (st.2.add strict (eq.flatten.filterMap fun v => v.map fun v => (e.px (m *ᵥ v) : Int)) wgts img []).map fun map => (some g, map)

/-- mk_map.py 33-73: the map after all images -/
def mkMap {E : Type} (e : Env E) (strict : Bool) (map : WMap ℝ) (imgs : List (Fits E)) : Option (WMap ℝ) :=
  (imgs.foldlM (addImage e strict) (none, map)).map fun st => st.2

/-! ## Specification -/

/-- how far a row or column of `n` is from the centre of the image -/
def away (n k : Nat) : ℤ := if k = 0 then (n / 2 : Nat) else (k : ℤ) - ((n + 1) / 2 : Nat)

/-- the direction cosines of a pixel, towards east and north: columns go west and rows go north, in steps of `d_ra` -/
def lOf {E : Type} (x : Fits E) (c : Nat) : ℝ := -(away x.rows c) * x.dra
def mOf {E : Type} (x : Fits E) (r : Nat) : ℝ := away x.rows r * x.dra

/-- the direction of a pixel in the equatorial frame of the date of the observation, precessed to J2000 -/
def direction {E : Type} (e : Env E) (x : Fits E) (r c : Nat) : Vec :=
  let s := frameConv e.f .eq .eq e.j2000 x.date (x.ra, x.dec)
  let l := lOf x c
  let m := mOf x r
  trans e.f .eq .eq x.date e.j2000 *ᵥ (l • east s.1 + m • north s.1 s.2 + √(1 - l ^ 2 - m ^ 2) • towards s.1 s.2)

/-- pixel (r, c) of an image is on the hemisphere and falls into pixel `i` of the map -/
def Falls {E : Type} (e : Env E) (x : Fits E) (i r c : Nat) : Prop :=
  lOf x c ^ 2 + mOf x r ^ 2 < 1 ∧ e.px (direction e x r c) = i

/-- the weight of a pixel: a Gaussian around the centre -/
def weight {E : Type} (e : Env E) (x : Fits E) (r c : Nat) : ℝ := exp (-(lOf x c ^ 2 + mOf x r ^ 2) / sin e.fwidth ^ 2)

/-- the value of a pixel -/
def value {E : Type} (x : Fits E) (r c : Nat) : ℝ := x.pix.getD (r * x.rows + c) 0

open Classical in
/-- how many pixels of an image fall into pixel `i` of the map -/
def hits {E : Type} (e : Env E) (x : Fits E) (i : Nat) : Nat :=
  ∑ r ∈ Finset.range x.rows, ∑ c ∈ Finset.range x.rows, if Falls e x i r c then 1 else 0

open Classical in
/-- the sum of the weights of the pixels of an image in pixel `i` of the map -/
def wgtIn {E : Type} (e : Env E) (x : Fits E) (i : Nat) : ℝ :=
  ∑ r ∈ Finset.range x.rows, ∑ c ∈ Finset.range x.rows, if Falls e x i r c then weight e x r c else 0

open Classical in
/-- the sum of the values times the weights -/
def fluxIn {E : Type} (e : Env E) (x : Fits E) (i : Nat) : ℝ :=
  ∑ r ∈ Finset.range x.rows, ∑ c ∈ Finset.range x.rows, if Falls e x i r c then weight e x r c * value x r c else 0

/-- a square image with coordinates of J2000 -/
structure Square {E : Type} (x : Fits E) : Prop where
  rows : x.rows ≠ 0
  pix : x.pix.length = x.rows * x.rows
  dra : x.dra ≠ 0
  epoch : x.is2000 = true

/-! ## Lemmas -/

/-- rows and columns in C order -/
def pairs (n : Nat) : List (Nat × Nat) := (List.range n).flatMap fun r => (List.range n).map fun c => (r, c)

theorem tab_flatten {α : Type} (n : Nat) (f : Nat → Nat → α) : (tab n f).flatten = (pairs n).map fun p => f p.1 p.2 := by
  unfold tab pairs
  rw [List.map_flatMap, List.flatMap_def]
  simp [Function.comp_def]

theorem eq_tab {α : Type} {n : Nat} {b : List (List α)} (hs : HasShape b n n) {f : Nat → Nat → α}
    (h : ∀ i j, i < n → j < n → at2 b i j = some (f i j)) : b = tab n f := by
  apply List.ext_getElem?
  intro i
  unfold tab
  rw [List.getElem?_map]
  rcases Nat.lt_or_ge i n with hi | hi
  · have hib : i < b.length := by rw [hs.1]; exact hi
    rw [List.getElem?_range hi, List.getElem?_eq_getElem hib, Option.map_some]
    congr 1
    apply List.ext_getElem?
    intro j
    have hl : b[i].length = n := hs.2 _ (List.getElem_mem hib)
    rw [List.getElem?_map]
    rcases Nat.lt_or_ge j n with hj | hj
    · have := h i j hi hj
      unfold at2 at this
      rw [List.getElem?_eq_getElem hib, Option.bind_some] at this
      rw [this, List.getElem?_range hj]
      rfl
    · rw [List.getElem?_eq_none (by omega), List.getElem?_eq_none (by simpa using hj)]
      rfl
  · rw [List.getElem?_eq_none (by rw [hs.1]; exact hi), List.getElem?_eq_none (by simpa using hi)]
    rfl

theorem away_offset {n : Nat} (r c : Nat) (hr : r < n) (hc : c < n) :
    Offset n (((n / 2 : Nat) : ℤ), ((n / 2 : Nat) : ℤ)) r c (away n r) (away n c) := by
  have key : ∀ k < n, (away n k - (k + ((n / 2 : Nat) : ℤ))) % n = 0 ∧ -(n : ℤ) < 2 * away n k ∧ 2 * away n k ≤ n := by
    intro k hk
    unfold away
    split
    · next h =>
      subst h
      refine ⟨by simp, by omega, by omega⟩
    · refine ⟨?_, by omega, by omega⟩
      have : (k : ℤ) - ((n + 1) / 2 : Nat) - (k + ((n / 2 : Nat) : ℤ)) = -n := by omega
      rw [this]
      simp
  obtain ⟨a1, a2, a3⟩ := key r hr
  obtain ⟨b1, b2, b3⟩ := key c hc
  exact ⟨a1, b1, a2, a3, b2, b3⟩

variable {E : Type}

/-- (l, m) of a pixel in the geometry of the image itself -/
theorem lm_of {x : Fits E} (hx : Square x) :
    getLM x.rows (1 / (x.dra * x.rows)) ((x.rows / 2 : Nat), (x.rows / 2 : Nat)) =
      some (tab x.rows fun r c => if lOf x c ^ 2 + mOf x r ^ 2 < 1 then some (lOf x c, mOf x r) else none) := by
  obtain ⟨g, h1, h2, h3⟩ := c75_lm x.rows hx.rows (1 / (x.dra * x.rows)) ((x.rows / 2 : Nat), (x.rows / 2 : Nat))
  rw [h1]
  congr 1
  refine eq_tab h2 fun r c hr hc => ?_
  rw [h3 r c hr hc _ _ (away_offset r c hr hc)]
  have hn : (x.rows : ℝ) ≠ 0 := by exact_mod_cast hx.rows
  have hd := hx.dra
  have e1 : ∀ y : ℝ, y / ((x.rows : ℝ) * (1 / (x.dra * x.rows))) = y * x.dra := by
    intro y
    field_simp
  rw [e1, e1]
  rfl

/-- the pixels of an image that are on the hemisphere, in C order -/
def inside (x : Fits E) : List (Nat × Nat) := (pairs x.rows).filter fun p => decide (lOf x p.2 ^ 2 + mOf x p.1 ^ 2 < 1)

theorem filterMap_ite {α β : Type} (l : List α) (p : α → Prop) [DecidablePred p] (g : α → β) :
    (l.filterMap fun a => if p a then some (g a) else none) = (l.filter fun a => decide (p a)).map g := by
  induction l with
  | nil => rfl
  | cons a l ih =>
    rw [List.filterMap_cons, List.filter_cons]
    by_cases h : p a <;> simp [h, ih]

theorem pairs_eq (n : Nat) : ∀ m : Nat, ((List.range m).flatMap fun r => (List.range n).map fun c => (r, c)) =
    (List.range (m * n)).map fun k => (k / n, k % n) := by
  intro m
  induction m with
  | zero => simp
  | succ m ih =>
    rw [List.range_succ, List.flatMap_append, ih, Nat.succ_mul, List.range_add, List.map_append]
    congr 1
    simp only [List.flatMap_cons, List.flatMap_nil, List.append_nil, List.map_map]
    refine List.map_congr_left fun c hc => ?_
    have hc := List.mem_range.1 hc
    simp only [Function.comp_apply]
    rw [Nat.mul_add_mod_of_lt hc, Nat.add_comm, Nat.add_mul_div_right _ _ (by omega), Nat.div_eq_of_lt hc, Nat.zero_add]

theorem pix_pairs (n : Nat) (l : List ℝ) (h : l.length = n * n) : l = (pairs n).map fun p => l.getD (p.1 * n + p.2) 0 := by
  unfold pairs
  rw [pairs_eq, List.map_map]
  apply List.ext_getElem?
  intro k
  rw [List.getElem?_map]
  rcases Nat.lt_or_ge k (n * n) with hk | hk
  · rw [List.getElem?_range hk, Option.map_some]
    simp only [Function.comp_apply]
    rw [Nat.mul_comm, Nat.div_add_mod, List.getD_eq_getElem?_getD, List.getElem?_eq_getElem (by omega)]
    rfl
  · rw [List.getElem?_eq_none (by omega), List.getElem?_eq_none (by simpa using hk)]
    rfl

theorem tab_map {α β : Type} (n : Nat) (f : Nat → Nat → α) (h : α → β) :
    (tab n f).map (List.map h) = tab n fun r c => h (f r c) := by
  unfold tab
  simp [Function.comp_def]

theorem compress_map {α : Type} (l : List α) (p : α → Prop) [DecidablePred p] (g : α → ℝ) :
    compress (l.map fun a => decide (p a)) (l.map g) = some ((l.filter fun a => decide (p a)).map g) := by
  unfold compress
  rw [List.drop_of_length_le (by simp)]
  simp only [List.any_nil, Bool.false_eq_true, if_false]
  congr 1
  induction l with
  | nil => rfl
  | cons a l ih =>
    simp only [List.map_cons, List.zip_cons_cons, List.filter_cons]
    by_cases h : p a <;> simp [h, ih]

/-- an image that is put into the map in its own geometry -/
theorem addImage_own (e : Env E) (strict : Bool) {st : Option Geo × WMap ℝ} {x : Fits E} (hx : Square x)
    (hg : geo st.1 x = ⟨x.dra, x.rows, 1 / (x.dra * x.rows)⟩) :
    addImage e strict st x = (st.2.add strict ((inside x).map fun p => (e.px (direction e x p.1 p.2) : Int))
      ((inside x).map fun p => weight e x p.1 p.2) ((inside x).map fun p => value x p.1 p.2) []).map
        fun map => (some ⟨x.dra, x.rows, 1 / (x.dra * x.rows)⟩, map) := by
  unfold addImage
  rw [if_neg (by rw [hx.epoch]; simp)]
  simp only [hg]
  have ht : getTop x.rows (1 / (x.dra * x.rows)) ((x.rows / 2 : Nat), (x.rows / 2 : Nat)) =
      some (tab x.rows fun r c => if lOf x c ^ 2 + mOf x r ^ 2 < 1 then some (topVec (lOf x c, mOf x r)) else none) := by
    unfold getTop
    rw [lm_of hx, Option.map_some, tab_map]
    congr 2
    funext r c
    split <;> rfl
  have he : getEq x.rows (1 / (x.dra * x.rows)) (frameConv e.f .eq .eq e.j2000 x.date (x.ra, x.dec)).1
      (frameConv e.f .eq .eq e.j2000 x.date (x.ra, x.dec)).2 ((x.rows / 2 : Nat), (x.rows / 2 : Nat)) =
      some (tab x.rows fun r c => if lOf x c ^ 2 + mOf x r ^ 2 < 1 then
        some (lOf x c • east (frameConv e.f .eq .eq e.j2000 x.date (x.ra, x.dec)).1 +
          mOf x r • north (frameConv e.f .eq .eq e.j2000 x.date (x.ra, x.dec)).1 (frameConv e.f .eq .eq e.j2000 x.date (x.ra, x.dec)).2 +
          √(1 - lOf x c ^ 2 - mOf x r ^ 2) • towards (frameConv e.f .eq .eq e.j2000 x.date (x.ra, x.dec)).1
            (frameConv e.f .eq .eq e.j2000 x.date (x.ra, x.dec)).2) else none) := by
    unfold getEq
    rw [ht, Option.map_some, tab_map]
    congr 2
    funext r c
    split
    · rw [Option.map_some, frame]
    · rfl
  rw [ht, he]
  simp only [Option.bind_some, tab_flatten]
  rw [convertM_eq e.f (si := .eq) (so := .eq) rfl rfl]
  have hv : ((pairs x.rows).map fun p => if lOf x p.2 ^ 2 + mOf x p.1 ^ 2 < 1 then
      some (topVec (lOf x p.2, mOf x p.1)) else none).map Option.isSome =
      (pairs x.rows).map fun p => decide (lOf x p.2 ^ 2 + mOf x p.1 ^ 2 < 1) := by
    rw [List.map_map]
    refine List.map_congr_left fun p _ => ?_
    simp only [Function.comp_apply]
    split
    · next h => simp [h]
    · next h => simp [h]
  have hp : compress ((pairs x.rows).map fun p => decide (lOf x p.2 ^ 2 + mOf x p.1 ^ 2 < 1)) x.pix =
      some ((inside x).map fun p => value x p.1 p.2) := by
    conv_lhs => rw [pix_pairs x.rows x.pix hx.pix]
    exact compress_map _ _ _
  rw [hv, hp]
  simp only [Option.bind_some, List.filterMap_map]
  congr 2
  · unfold inside
    rw [← filterMap_ite]
    congr 1
    funext p
    simp only [Function.comp_apply]
    split <;> rfl
  · unfold inside
    rw [← filterMap_ite]
    congr 1
    funext p
    simp only [Function.comp_apply]
    split
    · simp [mapWgt, topVec, weight]
    · rfl

theorem sum_list_range {M : Type} [AddCommMonoid M] (n : Nat) (f : Nat → M) :
    ((List.range n).map f).sum = ∑ k ∈ Finset.range n, f k := by
  induction n with
  | zero => rfl
  | succ n ih => rw [List.range_succ, List.map_append, List.sum_append, ih, Finset.sum_range_succ]; simp

theorem sum_pairs {M : Type} [AddCommMonoid M] (n : Nat) (f : Nat × Nat → M) :
    ((pairs n).map f).sum = ∑ r ∈ Finset.range n, ∑ c ∈ Finset.range n, f (r, c) := by
  rw [← sum_list_range]
  unfold pairs
  rw [List.map_flatMap, List.flatMap_def, List.sum_flatten, List.map_map]
  congr 1
  refine List.map_congr_left fun r _ => ?_
  simp only [Function.comp_apply]
  rw [List.map_map, sum_list_range]
  rfl

theorem sum_filter {α M : Type} [AddCommMonoid M] (l : List α) (p : α → Bool) (f : α → M) :
    ((l.filter p).map f).sum = (l.map fun a => if p a = true then f a else 0).sum := by
  induction l with
  | nil => rfl
  | cons a l ih =>
    rw [List.filter_cons, List.map_cons, List.sum_cons, ← ih]
    cases h : p a <;> simp

open Classical in
theorem sum_falls {M : Type} [AddCommMonoid M] (e : Env E) (x : Fits E) (i : Nat) (h : Nat × Nat → M) :
    ((inside x).map fun p => if e.px (direction e x p.1 p.2) = i then h p else 0).sum =
      ∑ r ∈ Finset.range x.rows, ∑ c ∈ Finset.range x.rows, if Falls e x i r c then h (r, c) else 0 := by
  unfold inside
  rw [sum_filter, sum_pairs]
  refine Finset.sum_congr rfl fun r _ => Finset.sum_congr rfl fun c _ => ?_
  unfold Falls
  by_cases h1 : lOf x c ^ 2 + mOf x r ^ 2 < 1 <;> simp [h1]

open Classical in
theorem sumFor_map (n : Nat) (ps : List (Nat × Nat)) (g : Nat × Nat → Nat) (h : Nat × Nat → ℝ) (i : Nat) (hi : i < n) :
    sumFor n (ps.map fun p => (g p : Int)) (ps.map h) i = (ps.map fun p => if g p = i then h p else 0).sum := by
  unfold sumFor
  induction ps with
  | nil => rfl
  | cons p ps ih =>
    simp only [List.map_cons, List.zip_cons_cons, List.filter_cons, idx_nat] at ih ⊢
    by_cases hp : g p = i
    · simp only [hp, hi, and_self, decide_true, if_true, List.map_cons, List.sum_cons]
      rw [← ih]
    · simp only [hp, and_false, decide_false, Bool.false_eq_true, if_false, List.sum_cons, zero_add]
      exact ih

open Classical in
theorem count_map (n : Nat) (ps : List (Nat × Nat)) (g : Nat × Nat → Nat) (i : Nat) (hi : i < n) :
    ((ps.map fun p => (g p : Int)).filter fun p => decide (Idx n p i)).length = (ps.map fun p => if g p = i then 1 else 0).sum := by
  induction ps with
  | nil => rfl
  | cons p ps ih =>
    simp only [List.map_cons, List.filter_cons, List.sum_cons, ← ih, idx_nat]
    by_cases hp : g p = i
    · simp only [hp, hi, and_self, decide_true, if_true, List.length_cons]
      exact Nat.add_comm _ _
    · simp [hp]

/-- `+=` with the pixels of an image: what was there is counted once for every pixel of the image -/
theorem incr_image (e : Env E) (x : Fits E) (l l' : List ℝ) (hl : l.length < 2147483648) (hpx : ∀ v, e.px v < l.length)
    (h : Nat × Nat → ℝ)
    (hi : incr l ((inside x).map fun p => (e.px (direction e x p.1 p.2) : Int)) ((inside x).map h) = some l') :
    l'.length = l.length ∧ ∀ i v, l[i]? = some v → l'[i]? = some (((max 1 (hits e x i) : Nat) : ℝ) * v +
      ((inside x).map fun p => if e.px (direction e x p.1 p.2) = i then h p else 0).sum) := by
  classical
  have hs : Small l.length ((inside x).map fun p => (e.px (direction e x p.1 p.2) : Int)) := by
    refine ⟨hl, fun p hp => ?_⟩
    obtain ⟨q, _, rfl⟩ := List.mem_map.1 hp
    have := hpx (direction e x q.1 q.2)
    omega
  obtain ⟨h1, _, _, h4⟩ := incr_spec l l' _ _ hs hi
  refine ⟨h1, fun i v hv => ?_⟩
  have hil : i < l.length := (List.getElem?_eq_some_iff.1 hv).1
  have hc : ((((inside x).map fun p => (e.px (direction e x p.1 p.2) : Int)).filter
      fun p => decide (Idx l.length p i)).length) = hits e x i := by
    rw [count_map l.length (inside x) (fun p => e.px (direction e x p.1 p.2)) i hil]
    unfold hits
    rw [← sum_falls e x i fun _ => (1 : ℕ)]
  have hsum := sumFor_map l.length (inside x) (fun p => e.px (direction e x p.1 p.2)) h i hil
  rw [h4 i v hv]
  by_cases hex : ∃ p ∈ (inside x).map fun p => (e.px (direction e x p.1 p.2) : Int), Idx l.length p i
  · have hpos : 1 ≤ hits e x i := by
      rw [← hc]
      obtain ⟨p, hp, hpi⟩ := hex
      exact List.length_pos_of_mem (List.mem_filter.2 ⟨hp, by simpa using hpi⟩)
    rw [if_pos hex, Nat.max_eq_right hpos, ← hsum, ← hc]
  · have hzero : hits e x i = 0 := by
      rw [← hc, List.length_eq_zero_iff, List.filter_eq_nil_iff]
      intro p hp hpi
      exact hex ⟨p, hp, by simpa using hpi⟩
    rw [if_neg hex, hzero, ← hsum, sumFor_none _ _ _ _ hex]
    simp

/-- the geometry at hand is that of images of the same size -/
def Fresh (g : Option Geo) (x : Fits E) : Prop :=
  ∀ g', g = some g' → g'.prev = x.dra → g' = ⟨x.dra, x.rows, 1 / (x.dra * x.rows)⟩

theorem geo_fresh {g : Option Geo} {x : Fits E} (h : Fresh g x) : geo g x = ⟨x.dra, x.rows, 1 / (x.dra * x.rows)⟩ := by
  unfold geo
  cases g with
  | none => rfl
  | some g =>
    simp only
    split
    · rfl
    · next h1 => exact h g rfl (Classical.not_not.1 h1)

/-- one image -/
theorem image_step (e : Env E) (strict : Bool) {m : WMap ℝ} (hm : m.Ok) (hf : m.wgtInt = false) (hpx : ∀ v, e.px v < m.map.length)
    {g : Option Geo} {x : Fits E} (hx : Square x) (hg : Fresh g x) :
    ∃ m', addImage e strict (g, m) x = some (some ⟨x.dra, x.rows, 1 / (x.dra * x.rows)⟩, m') ∧ m'.Ok ∧ m'.wgtInt = false ∧
      m'.map.length = m.map.length ∧ m'.ind = m.ind ∧ ∀ i w v, m.wgt[i]? = some w → m.map[i]? = some v →
        m'.wgt[i]? = some (((max 1 (hits e x i) : Nat) : ℝ) * w + wgtIn e x i) ∧
        m'.map[i]? = some (((max 1 (hits e x i) : Nat) : ℝ) * v + fluxIn e x i) := by
  classical
  have hs : Small m.map.length ((inside x).map fun p => (e.px (direction e x p.1 p.2) : Int)) := by
    refine ⟨hm.small, fun p hp => ?_⟩
    obtain ⟨q, _, rfl⟩ := List.mem_map.1 hp
    have := hpx (direction e x q.1 q.2)
    have := hm.small
    omega
  have hr : ∀ p ∈ (inside x).map fun p => (e.px (direction e x p.1 p.2) : Int), ∃ i, Idx m.map.length p i := by
    intro p hp
    obtain ⟨q, _, rfl⟩ := List.mem_map.1 hp
    exact ⟨e.px (direction e x q.1 q.2), (idx_nat _ _ _).2 ⟨hpx _, rfl⟩⟩
  obtain ⟨wgt, e1⟩ := incr_total m.wgt _ ((inside x).map fun p => weight e x p.1 p.2) (by rw [hm.wgt]; exact hs) (by simp)
    (by rw [hm.wgt]; exact hr)
  obtain ⟨map, e2⟩ := incr_total m.map _ ((inside x).map fun p => value x p.1 p.2 * weight e x p.1 p.2) hs (by simp) hr
  obtain ⟨a1, a2⟩ := incr_image e x m.wgt wgt (by rw [hm.wgt]; exact hm.small) (by rw [hm.wgt]; exact hpx) _ e1
  obtain ⟨b1, b2⟩ := incr_image e x m.map map hm.small hpx _ e2
  refine ⟨{ m with wgt := wgt, map := map }, ?_, ⟨?_, ?_⟩, hf, b1, rfl, ?_⟩
  · rw [addImage_own e strict hx (geo_fresh hg)]
    unfold WMap.add
    simp only [hf, Bool.and_false, Bool.false_eq_true, if_false]
    rw [e1]
    simp only [Option.bind_eq_bind, Option.bind_some]
    unfold zipArr
    rw [if_pos (by simp), List.zipWith_map, List.zipWith_self, Option.bind_some, e2]
    have : incrInds ((inside x).map fun p => (e.px (direction e x p.1 p.2) : Int)) ((inside x).map fun p => weight e x p.1 p.2)
        m.ind [] = some m.ind := by cases m.ind <;> rfl
    rw [Option.bind_some, this]
    rfl
  · show wgt.length = map.length
    rw [a1, b1, hm.wgt]
  · show map.length < _
    rw [b1]
    exact hm.small
  · intro i w v hw hv
    refine ⟨?_, ?_⟩
    · show wgt[i]? = _
      rw [a2 i w hw, sum_falls e x i fun p => weight e x p.1 p.2]
      unfold wgtIn
      congr!
    · show map[i]? = _
      rw [b2 i v hv, sum_falls e x i fun p => value x p.1 p.2 * weight e x p.1 p.2]
      unfold fluxIn
      simp only [mul_comm (value x _ _)]

/-- what a sum of a map pixel becomes with one image after the other -/
def runSum (e : Env E) (i : Nat) (q : Fits E → ℝ) (a : ℝ) (xs : List (Fits E)) : ℝ :=
  xs.foldl (fun a y => ((max 1 (hits e y i) : Nat) : ℝ) * a + q y) a

/-- images one after the other -/
theorem images_run (e : Env E) (strict : Bool) (n : Nat) (hpx : ∀ v, e.px v < n) : ∀ (xs : List (Fits E)) {m : WMap ℝ} {g : Option Geo},
    m.Ok → m.wgtInt = false → m.map.length = n → (∀ y ∈ xs, Square y) → (∀ y ∈ xs, Fresh g y) →
    (∀ y ∈ xs, ∀ z ∈ xs, y.dra = z.dra → y.rows = z.rows) →
    ∃ g' m', xs.foldlM (addImage e strict) (g, m) = some (g', m') ∧ m'.Ok ∧ m'.wgtInt = false ∧ m'.map.length = n ∧ m'.ind = m.ind ∧
      ∀ i w v, m.wgt[i]? = some w → m.map[i]? = some v →
        m'.wgt[i]? = some (runSum e i (fun y => wgtIn e y i) w xs) ∧ m'.map[i]? = some (runSum e i (fun y => fluxIn e y i) v xs) := by
  intro xs
  induction xs with
  | nil =>
    intro m g hm hf hn _ _ _
    exact ⟨g, m, rfl, hm, hf, hn, rfl, fun i w v hw hv => ⟨hw, hv⟩⟩
  | cons x xs ih =>
    intro m g hm hf hn hs hg hz
    obtain ⟨m1, e1, e2, e3, e4, e5, e6⟩ := image_step e strict hm hf (by rw [hn]; exact hpx) (hs x (by simp)) (hg x (by simp))
    obtain ⟨g', m', f1, f2, f3, f4, f5, f6⟩ := ih (m := m1) (g := some ⟨x.dra, x.rows, 1 / (x.dra * x.rows)⟩) e2 e3 (e4.trans hn)
      (fun y hy => hs y (by simp [hy])) (fun y hy g1 hg1 h1 => by
        obtain rfl := Option.some.inj hg1
        have hd : x.dra = y.dra := h1
        rw [← hz x (by simp) y (by simp [hy]) hd, hd])
      (fun y hy z hz' => hz y (by simp [hy]) z (by simp [hz']))
    refine ⟨g', m', ?_, f2, f3, f4, f5.trans e5, fun i w v hw hv => ?_⟩
    · rw [List.foldlM_cons, e1]
      exact f1
    · obtain ⟨k1, k2⟩ := e6 i w v hw hv
      exact f6 i _ _ k1 k2

theorem runSum_once (e : Env E) (i : Nat) (q : Fits E → ℝ) : ∀ (xs : List (Fits E)) (a : ℝ), (∀ y ∈ xs, hits e y i ≤ 1) →
    runSum e i q a xs = a + (xs.map q).sum := by
  intro xs
  induction xs with
  | nil => intro a _; simp [runSum]
  | cons x xs ih =>
    intro a h
    have h1 : max 1 (hits e x i) = 1 := Nat.max_eq_left (h x (by simp))
    show runSum e i q (((max 1 (hits e x i) : Nat) : ℝ) * a + q x) xs = _
    rw [ih _ fun y hy => h y (by simp [hy]), h1, List.map_cons, List.sum_cons]
    push_cast
    ring

theorem wgt_nonneg (e : Env E) (x : Fits E) (i : Nat) : 0 ≤ wgtIn e x i :=
  Finset.sum_nonneg fun r _ => Finset.sum_nonneg fun c _ => by
    split
    · exact (exp_pos _).le
    · exact le_refl _

theorem wgt_pos (e : Env E) (x : Fits E) (i : Nat) (h : 0 < hits e x i) : 0 < wgtIn e x i := by
  classical
  unfold hits at h
  obtain ⟨r, hr, h⟩ := Finset.sum_pos_iff.1 h
  obtain ⟨c, hc, h⟩ := Finset.sum_pos_iff.1 h
  have hf : Falls e x i r c := by
    by_contra hn
    rw [if_neg hn] at h
    exact absurd h (lt_irrefl _)
  unfold wgtIn
  refine Finset.sum_pos' (fun r _ => Finset.sum_nonneg fun c _ => ?_) ⟨r, hr, Finset.sum_pos' (fun c _ => ?_) ⟨c, hc, ?_⟩⟩
  · split
    · exact (exp_pos _).le
    · exact le_refl _
  · split
    · exact (exp_pos _).le
    · exact le_refl _
  · rw [if_pos hf]
    exact exp_pos _

theorem get_one {m : WMap ℝ} (hm : m.Ok) (hi : m.ind = []) {i : Nat} {w v : ℝ} (hw : m.wgt[i]? = some w) (hv : m.map[i]? = some v)
    (hpos : 0 < w) : m.get [(i : Int)] = some ([v / w], []) := by
  have hl : i < m.map.length := (List.getElem?_eq_some_iff.1 hv).1
  have hlw : i < m.wgt.length := by rw [hm.wgt]; exact hl
  have key : ∀ (l : List ℝ) (a : ℝ), i < l.length → l[i]? = some a → getPx l [(i : Int)] = some [a] := by
    intro l a h1 h2
    unfold getPx npIndex
    have h0 : ¬ ((i : Int) < 0) := by omega
    have h3 : l[i] = a := by rw [List.getElem?_eq_getElem h1] at h2; exact Option.some.inj h2
    simp [h1, h3, h0]
  unfold WMap.get
  rw [key _ _ hlw hw, key _ _ hl hv, hi]
  simp [posOr1, hpos]

/-- a map with nothing in it -/
structure Empty (m : WMap ℝ) : Prop where
  ok : m.Ok
  float : m.wgtInt = false
  wgt : ∀ w ∈ m.wgt, w = 0
  map : ∀ v ∈ m.map, v = 0
  ind : m.ind = []

theorem Empty.at {m : WMap ℝ} (h : Empty m) {i : Nat} (hi : i < m.map.length) : m.wgt[i]? = some 0 ∧ m.map[i]? = some 0 := by
  have hiw : i < m.wgt.length := by rw [h.ok.wgt]; exact hi
  rw [List.getElem?_eq_getElem hiw, List.getElem?_eq_getElem hi, h.wgt _ (List.getElem_mem hiw), h.map _ (List.getElem_mem hi)]
  exact ⟨rfl, rfl⟩

/-! ## C104 -/

/-- **C104**: mk_map.py makes a new map of the weighted means of all pixels of all images that fall into a pixel of the map,
each with the Gaussian weight of its distance from the centre of its image and at its own direction in J2000, and nothing
else goes in; in those pixels of the map that get at most one pixel of every image after the first. -/
theorem c104_mosaic_partial (e : Env E) (strict : Bool) {m : WMap ℝ} (hm : Empty m) (hpx : ∀ v, e.px v < m.map.length) (x : Fits E)
    (xs : List (Fits E)) (hs : ∀ y ∈ x :: xs, Square y)
    (hz : ∀ y ∈ x :: xs, ∀ z ∈ x :: xs, y.dra = z.dra → y.rows = z.rows) :
    ∃ m', mkMap e strict m (x :: xs) = some m' ∧ m'.map.length = m.map.length ∧ ∀ i < m.map.length, (∀ y ∈ xs, hits e y i ≤ 1) →
      m'.wgt[i]? = some (((x :: xs).map fun y => wgtIn e y i).sum) ∧
      m'.map[i]? = some (((x :: xs).map fun y => fluxIn e y i).sum) ∧
      ((∃ y ∈ x :: xs, 0 < hits e y i) → m'.get [(i : Int)] =
        some ([((x :: xs).map fun y => fluxIn e y i).sum / ((x :: xs).map fun y => wgtIn e y i).sum], [])) := by
  obtain ⟨g', m', f1, f2, f3, f4, f5, f6⟩ := images_run e strict m.map.length hpx (x :: xs) (g := none) hm.ok hm.float rfl hs
    (fun y _ g' hg' => by cases hg') hz
  refine ⟨m', by unfold mkMap; rw [f1]; rfl, f4, fun i hi hh => ?_⟩
  obtain ⟨w0, v0⟩ := hm.at hi
  obtain ⟨k1, k2⟩ := f6 i 0 0 w0 v0
  have hrun : ∀ q : Fits E → ℝ, runSum e i q 0 (x :: xs) = ((x :: xs).map q).sum := by
    intro q
    show runSum e i q (((max 1 (hits e x i) : Nat) : ℝ) * 0 + q x) xs = _
    rw [runSum_once e i q xs _ hh, mul_zero, zero_add, List.map_cons, List.sum_cons]
  rw [hrun] at k1 k2
  refine ⟨k1, k2, ?_⟩
  rintro ⟨y, hy, hpos⟩
  refine get_one f2 (f5.trans hm.ind) k1 k2 ?_
  obtain ⟨a, b, hab⟩ := List.append_of_mem hy
  rw [hab, List.map_append, List.map_cons, List.sum_append, List.sum_cons]
  have h1 : 0 ≤ (a.map fun y => wgtIn e y i).sum := List.sum_nonneg fun w hw => by
    obtain ⟨z, _, rfl⟩ := List.mem_map.1 hw; exact wgt_nonneg e z i
  have h2 : 0 ≤ (b.map fun y => wgtIn e y i).sum := List.sum_nonneg fun w hw => by
    obtain ⟨z, _, rfl⟩ := List.mem_map.1 hw; exact wgt_nonneg e z i
  have := wgt_pos e y i hpos
  linarith

/-- **C104**: images that are put into a map that is there add to what it has, where every image has at most one pixel. -/
theorem c104_add_partial (e : Env E) (strict : Bool) {m : WMap ℝ} (hm : m.Ok) (hf : m.wgtInt = false)
    (hpx : ∀ v, e.px v < m.map.length) (xs : List (Fits E)) (hs : ∀ y ∈ xs, Square y)
    (hz : ∀ y ∈ xs, ∀ z ∈ xs, y.dra = z.dra → y.rows = z.rows) :
    ∃ m', mkMap e strict m xs = some m' ∧ ∀ i w v, m.wgt[i]? = some w → m.map[i]? = some v → (∀ y ∈ xs, hits e y i ≤ 1) →
      m'.wgt[i]? = some (w + (xs.map fun y => wgtIn e y i).sum) ∧ m'.map[i]? = some (v + (xs.map fun y => fluxIn e y i).sum) := by
  obtain ⟨g', m', f1, f2, f3, f4, f5, f6⟩ := images_run e strict m.map.length hpx xs (g := none) hm hf rfl hs
    (fun y _ g' hg' => by cases hg') hz
  refine ⟨m', by unfold mkMap; rw [f1]; rfl, fun i w v hw hv hh => ?_⟩
  obtain ⟨k1, k2⟩ := f6 i w v hw hv
  rw [runSum_once e i _ xs _ hh] at k1 k2
  exact ⟨k1, k2⟩

/-- **C104, disagreement**: where several pixels of the second image fall into a pixel of the map, what the first image put
there is counted that many times, so that the map does not have the weighted mean, unless both images have the same. -/
theorem c104_twice_violated (e : Env E) (strict : Bool) {m : WMap ℝ} (hm : Empty m) (hpx : ∀ v, e.px v < m.map.length) (x y : Fits E)
    (hx : Square x) (hy : Square y) (hz : x.dra = y.dra → x.rows = y.rows) (i : Nat) (hi : i < m.map.length)
    (h1 : 0 < hits e x i) (h2 : 2 ≤ hits e y i) :
    ∃ m' v, mkMap e strict m [x, y] = some m' ∧ m'.get [(i : Int)] = some ([v], []) ∧
      v = (hits e y i * fluxIn e x i + fluxIn e y i) / (hits e y i * wgtIn e x i + wgtIn e y i) ∧
      (v = (fluxIn e x i + fluxIn e y i) / (wgtIn e x i + wgtIn e y i) ↔ fluxIn e x i / wgtIn e x i = fluxIn e y i / wgtIn e y i) := by
  obtain ⟨g', m', f1, f2, f3, f4, f5, f6⟩ := images_run e strict m.map.length hpx [x, y] (g := none) hm.ok hm.float rfl
    (by simp [hx, hy]) (fun y _ g' hg' => by cases hg') (by
      intro a ha b hb hab
      simp only [List.mem_cons, List.not_mem_nil, or_false] at ha hb
      rcases ha with rfl | rfl <;> rcases hb with rfl | rfl
      · rfl
      · exact hz hab
      · exact (hz hab.symm).symm
      · rfl)
  obtain ⟨w0, v0⟩ := hm.at hi
  obtain ⟨k1, k2⟩ := f6 i 0 0 w0 v0
  have hrun : ∀ q : Fits E → ℝ, runSum e i q 0 [x, y] = hits e y i * q x + q y := by
    intro q
    show ((max 1 (hits e y i) : Nat) : ℝ) * (((max 1 (hits e x i) : Nat) : ℝ) * 0 + q x) + q y = _
    rw [Nat.max_eq_right (by omega : 1 ≤ hits e y i), mul_zero, zero_add]
  rw [hrun] at k1 k2
  have p1 := wgt_pos e x i h1
  have p2 := wgt_pos e y i (by omega)
  have h2' : (2 : ℝ) ≤ hits e y i := by exact_mod_cast h2
  have hden : 0 < (hits e y i : ℝ) * wgtIn e x i + wgtIn e y i := by nlinarith
  refine ⟨m', _, by unfold mkMap; rw [f1]; rfl, get_one f2 (f5.trans hm.ind) k1 k2 hden, rfl, ?_⟩
  rw [div_eq_div_iff hden.ne' (add_pos p1 p2).ne', div_eq_div_iff p1.ne' p2.ne']
  have key : (hits e y i * fluxIn e x i + fluxIn e y i) * (wgtIn e x i + wgtIn e y i) -
      (fluxIn e x i + fluxIn e y i) * (hits e y i * wgtIn e x i + wgtIn e y i) =
      ((hits e y i : ℝ) - 1) * (fluxIn e x i * wgtIn e y i - fluxIn e y i * wgtIn e x i) := by ring
  constructor
  · intro h
    rw [h, sub_self] at key
    rcases mul_eq_zero.1 key.symm with h' | h'
    · linarith
    · linarith
  · intro h
    rw [h, sub_self, mul_zero] at key
    linarith

theorem compress_take {α : Type} (mask : List Bool) (a : List α) (h : mask.length ≤ a.length) :
    compress mask a = compress mask (a.take mask.length) := by
  unfold compress
  have h1 : (a.take mask.length).length = mask.length := by simp [h]
  rw [h1, List.drop_eq_nil_of_le h, List.drop_length]
  have h2 : (a.take mask.length).zip mask = a.zip mask := by
    rw [List.zip_eq_zip_take_min (l₁ := a) (l₂ := mask), Nat.min_eq_right h, List.take_length]
  rw [h2]

theorem top_length {n : Nat} {res : ℝ} {c : ℤ × ℤ} {top : List (List (Option Vec))} (h : getTop n res c = some top) :
    top.flatten.length = n * n := by
  by_cases hn : n = 0
  · subst hn
    simp [getTop, getLM, recenter] at h
  obtain ⟨g, h1, h2, _⟩ := c75_lm n hn res c
  unfold getTop at h
  rw [h1, Option.map_some] at h
  obtain rfl := Option.some.inj h
  rw [List.length_flatten, List.map_map]
  have : g.map (List.length ∘ List.map (Option.map topVec)) = List.replicate n n := by
    rw [List.eq_replicate_iff]
    refine ⟨by simp [h2.1], fun b hb => ?_⟩
    obtain ⟨r, hr, rfl⟩ := List.mem_map.1 hb
    simp [h2.2 r hr]
  rw [this]
  simp

theorem addImage_geo {e : Env E} {strict : Bool} {st st' : Option Geo × WMap ℝ} {x : Fits E} (h : addImage e strict st x = some st') :
    st'.1 = some (geo st.1 x) := by
  unfold addImage at h
  split at h
  · cases h
  · simp only [Option.bind_eq_some_iff, Option.map_eq_some_iff] at h
    obtain ⟨_, _, _, _, _, _, _, _, _, _, rfl⟩ := h
    rfl

/-- **C104, disagreement**: an image with the same `d_ra` as the one before it but of a larger size is read as if it had the
size of that one: of its pixels in C order those are taken that fill the smaller image, and they are put at the directions of
the pixels of the smaller image. -/
theorem c104_stale_violated (e : Env E) (strict : Bool) (m : WMap ℝ) (x y : Fits E) (hy : Square y)
    (hd : y.dra = x.dra) (hr : x.rows ≤ y.rows) :
    mkMap e strict m [x, y] = mkMap e strict m [x, { y with rows := x.rows, pix := y.pix.take (x.rows * x.rows) }] := by
  unfold mkMap
  congr 1
  rw [List.foldlM_cons, List.foldlM_cons]
  cases h : addImage e strict (none, m) x with
  | none => rfl
  | some st =>
    have hg := addImage_geo h
    obtain ⟨g, m1⟩ := st
    simp only at hg
    subst hg
    show (addImage e strict _ y).bind _ = (addImage e strict _ _).bind _
    congr 1
    have e1 : geo (some (geo none x)) y = ⟨x.dra, x.rows, 1 / (x.dra * x.rows)⟩ := by
      unfold geo
      simp [hd]
    have e2 : geo (some (geo none x)) { y with rows := x.rows, pix := y.pix.take (x.rows * x.rows) } =
        ⟨x.dra, x.rows, 1 / (x.dra * x.rows)⟩ := by
      unfold geo
      simp [hd]
    unfold addImage
    simp only [e1, e2]
    cases ht : getTop x.rows (1 / (x.dra * x.rows)) ((x.rows / 2 : Nat), (x.rows / 2 : Nat)) with
    | none => rfl
    | some top =>
      have hl : (top.flatten.map Option.isSome).length = x.rows * x.rows := by rw [List.length_map, top_length ht]
      have hc := compress_take (top.flatten.map Option.isSome) y.pix (by
        rw [hl, hy.pix]
        exact Nat.mul_le_mul hr hr)
      rw [hl] at hc
      simp only [Option.bind_some, hc]

theorem towards_eq (a : ℝ × ℝ) : towards a.1 a.2 = radec2eq a := by
  unfold towards radec2eq thphi2xyz
  simp [sin_pi_div_two_sub, cos_pi_div_two_sub]

theorem unit_of (ra dec : ℝ) (p : ℝ × ℝ) (h : p.1 ^ 2 + p.2 ^ 2 < 1) :
    IsUnitVec (p.1 • east ra + p.2 • north ra dec + √(1 - p.1 ^ 2 - p.2 ^ 2) • towards ra dec) := by
  have h1 := sq_sqrt (show (0 : ℝ) ≤ 1 - p.1 ^ 2 - p.2 ^ 2 by linarith)
  have a := sin_sq_add_cos_sq ra
  have b := sin_sq_add_cos_sq dec
  unfold IsUnitVec
  obtain ⟨l, m⟩ := p
  simp only at h1 ⊢
  generalize √(1 - l ^ 2 - m ^ 2) = z at *
  simp [east, north, towards]
  generalize sin ra = s at *; generalize cos ra = k at *
  generalize sin dec = s' at *; generalize cos dec = k' at *
  linear_combination h1 + (l ^ 2 + (m * s' - z * k') ^ 2) * a + (m ^ 2 + z ^ 2) * b

theorem along (ra dec : ℝ) (p : ℝ × ℝ) (z : ℝ) : (p.1 • east ra + p.2 • north ra dec + z • towards ra dec) ⬝ᵥ towards ra dec = z := by
  have a := sin_sq_add_cos_sq ra
  have b := sin_sq_add_cos_sq dec
  obtain ⟨l, m⟩ := p
  simp [east, north, towards, dotProduct, Fin.sum_univ_three]
  generalize sin ra = s at *; generalize cos ra = k at *
  generalize sin dec = s' at *; generalize cos dec = k' at *
  linear_combination (-m * s' * k' + z * k' ^ 2) * a + z * b

/-- **C104**: the direction of a pixel is a unit vector, its projections on the direction of the image are the direction
cosines of the pixel, and the direction of the middle pixel is the position in the header. -/
theorem c104_directions (e : Env E) (x : Fits E) :
    (∀ r c, lOf x c ^ 2 + mOf x r ^ 2 < 1 → IsUnitVec (direction e x r c) ∧
      direction e x r c ⬝ᵥ radec2eq (x.ra, x.dec) = √(1 - lOf x c ^ 2 - mOf x r ^ 2)) ∧
    (2 ≤ x.rows → direction e x ((x.rows + 1) / 2) ((x.rows + 1) / 2) = radec2eq (x.ra, x.dec)) := by
  have hback : trans e.f .eq .eq x.date e.j2000 *ᵥ radec2eq (frameConv e.f .eq .eq e.j2000 x.date (x.ra, x.dec)) =
      radec2eq (x.ra, x.dec) := by
    rw [frameConv_vec, Matrix.mulVec_mulVec]
    have : trans e.f .eq .eq x.date e.j2000 * trans e.f .eq .eq e.j2000 x.date = 1 := by
      unfold Coord.trans
      have hc : (e.f.mat .eq x.date)ᵀ * e.f.mat .eq x.date = 1 := mul_eq_one_comm.1 (e.f.rot _ _).1
      rw [Matrix.mul_assoc, ← Matrix.mul_assoc (e.f.mat .eq x.date)ᵀ, hc, Matrix.one_mul, (e.f.rot _ _).1]
    rw [this, Matrix.one_mulVec]
  refine ⟨fun r c h => ⟨unit_rot (trans_rot _ _ _ _ _) (unit_of _ _ (lOf x c, mOf x r) h), ?_⟩, fun hn => ?_⟩
  · rw [← hback]
    unfold direction
    simp only
    rw [dot_rot (trans_rot _ _ _ _ _), ← towards_eq, along _ _ (lOf x c, mOf x r)]
  · have h0 : away x.rows ((x.rows + 1) / 2) = 0 := by
      unfold away
      rw [if_neg (by omega), sub_self]
    unfold direction lOf mOf
    rw [h0, ← hback, ← towards_eq]
    simp

/-- **C104**: the keyword `d_ra` that mk_img.py writes, `L[-1,-1]` of the image, gives its resolution back. -/
theorem c104_mkimg (n : Nat) (hn : 3 ≤ n) (res : ℝ) (hres : 0 < res) (h : 2 < (n * res) ^ 2) :
    ∃ g d, getLM n res (0, 0) = some g ∧ at2 g (n - 1) (n - 1) = some (some (d, -d)) ∧ at2 g 1 1 = some (some (-d, d)) ∧
      1 / (d * n) = res := by
  obtain ⟨g, h1, h2, h3⟩ := c75_lm n (by omega) res (0, 0)
  have hn0 : (0 : ℝ) < n := by exact_mod_cast (by omega : 0 < n)
  have hp : 0 < (n : ℝ) * res := mul_pos hn0 hres
  have hsq : (1 / ((n : ℝ) * res)) ^ 2 + (1 / ((n : ℝ) * res)) ^ 2 < 1 := by
    rw [div_pow, one_pow, ← add_div, div_lt_one (by positivity)]
    linarith
  refine ⟨g, 1 / (n * res), h1, ?_, ?_, by field_simp⟩
  · rw [h3 (n - 1) (n - 1) (by omega) (by omega) (-1) (-1) ⟨?_, ?_, by omega, by omega, by omega, by omega⟩]
    · have e1 : -(((-1 : ℤ)) : ℝ) / ((n : ℝ) * res) = 1 / (n * res) := by push_cast; ring
      have e2 : (((-1 : ℤ)) : ℝ) / ((n : ℝ) * res) = -(1 / (n * res)) := by push_cast; ring
      rw [e1, e2, if_pos (by rw [neg_sq]; exact hsq)]
    all_goals
      have : (-1 : ℤ) - (((n - 1 : Nat) : ℤ) + 0) = -n := by omega
      simp only [this]
      simp
  · rw [h3 1 1 (by omega) (by omega) 1 1 ⟨by simp, by simp, by omega, by omega, by omega, by omega⟩]
    have e1 : -(((1 : ℤ)) : ℝ) / ((n : ℝ) * res) = -(1 / (n * res)) := by push_cast; ring
    have e2 : (((1 : ℤ)) : ℝ) / ((n : ℝ) * res) = 1 / (n * res) := by push_cast; ring
    rw [e1, e2, if_pos (by rw [neg_sq]; exact hsq)]

/-! ## The theorems on concrete images -/

def demoEnv : Env Unit := ⟨demoFrames, (), 1, fun _ => 0⟩
def demoX : Fits Unit := ⟨2, [1, 2, 3, 4], true, 1, 1 / 2, (), 1 / 4⟩
def demoY : Fits Unit := ⟨2, [2, 2, 2, 2], true, 1, 1 / 2, (), 1 / 3⟩
def demoZ : Fits Unit := ⟨1, [7], true, 1, 1 / 3, (), 1 / 5⟩
def demoMap : WMap ℝ := ⟨[0], [0], [], false⟩

theorem demo_empty : Empty demoMap := ⟨⟨rfl, by simp [demoMap]⟩, rfl, by simp [demoMap], by simp [demoMap], rfl⟩
theorem demo_squareX : Square demoX := ⟨by simp [demoX], rfl, by norm_num [demoX], rfl⟩
theorem demo_squareY : Square demoY := ⟨by simp [demoY], rfl, by norm_num [demoY], rfl⟩
theorem demo_squareZ : Square demoZ := ⟨by simp [demoZ], rfl, by norm_num [demoZ], rfl⟩

theorem demo_hitsX : hits demoEnv demoX 0 = 4 := by
  unfold hits
  rw [show demoX.rows = 2 from rfl]
  simp only [Finset.sum_range_succ, Finset.sum_range_zero]
  norm_num [Falls, lOf, mOf, away, demoX, demoEnv]

theorem demo_hitsY : hits demoEnv demoY 0 = 4 := by
  unfold hits
  rw [show demoY.rows = 2 from rfl]
  simp only [Finset.sum_range_succ, Finset.sum_range_zero]
  norm_num [Falls, lOf, mOf, away, demoY, demoEnv]

theorem demo_hitsZ : hits demoEnv demoZ 0 = 1 := by
  unfold hits
  rw [show demoZ.rows = 1 from rfl]
  simp only [Finset.sum_range_succ, Finset.sum_range_zero]
  norm_num [Falls, lOf, mOf, away, demoZ, demoEnv]

/-- an image of four pixels and one of one pixel -/
example : ∃ m', mkMap demoEnv true demoMap [demoX, demoZ] = some m' ∧
    m'.get [0] = some ([([demoX, demoZ].map fun y => fluxIn demoEnv y 0).sum / ([demoX, demoZ].map fun y => wgtIn demoEnv y 0).sum], []) := by
  obtain ⟨m', h1, _, h2⟩ := c104_mosaic_partial demoEnv true demo_empty (by simp [demoEnv, demoMap]) demoX [demoZ]
    (by simp [demo_squareX, demo_squareZ]) (by simp [demoX, demoZ])
  exact ⟨m', h1, (h2 0 (by simp [demoMap]) (by simp [demo_hitsZ])).2.2 ⟨demoX, by simp, by simp [demo_hitsX]⟩⟩

example : ∃ m', mkMap demoEnv true ⟨[2], [5], [], false⟩ [demoZ] = some m' ∧ m'.wgt[0]? = some (2 + wgtIn demoEnv demoZ 0) ∧
    m'.map[0]? = some (5 + fluxIn demoEnv demoZ 0) := by
  obtain ⟨m', h1, h2⟩ := c104_add_partial demoEnv true (m := ⟨[2], [5], [], false⟩) ⟨rfl, by simp⟩ rfl (by simp [demoEnv]) [demoZ]
    (by simp [demo_squareZ]) (by simp)
  have := h2 0 2 5 rfl rfl (by simp [demo_hitsZ])
  exact ⟨m', h1, by simpa using this⟩

/-- two images of four pixels each -/
example : ∃ m' v, mkMap demoEnv true demoMap [demoX, demoY] = some m' ∧ m'.get [0] = some ([v], []) ∧
    v = (4 * fluxIn demoEnv demoX 0 + fluxIn demoEnv demoY 0) / (4 * wgtIn demoEnv demoX 0 + wgtIn demoEnv demoY 0) := by
  obtain ⟨m', v, h1, h2, h3, _⟩ := c104_twice_violated demoEnv true demo_empty (by simp [demoEnv, demoMap]) demoX demoY demo_squareX
    demo_squareY (by norm_num [demoX, demoY]) 0 (by simp [demoMap]) (by simp [demo_hitsX]) (by simp [demo_hitsY])
  rw [demo_hitsY] at h3
  exact ⟨m', v, h1, h2, by exact_mod_cast h3⟩

/-- an image of one pixel and then one of four with the same `d_ra` -/
example : mkMap demoEnv true demoMap [{ demoZ with dra := 1 / 4 }, demoX] =
    mkMap demoEnv true demoMap [{ demoZ with dra := 1 / 4 }, { demoX with rows := 1, pix := [1] }] :=
  c104_stale_violated demoEnv true demoMap { demoZ with dra := 1 / 4 } demoX demo_squareX rfl (by simp [demoX, demoZ])

example : direction demoEnv demoX 1 1 = radec2eq (1, 1 / 2) := (c104_directions demoEnv demoX).2 (by simp [demoX])

example : ∃ g d, getLM 8 (1 / 2) (0, 0) = some g ∧ at2 g 7 7 = some (some (d, -d)) ∧ at2 g 1 1 = some (some (-d, d)) ∧
    1 / (d * (8 : Nat)) = 1 / 2 := c104_mkimg 8 (by omega) (1 / 2) (by norm_num) (by norm_num)

end Verif.Sky.MkMap
