import Verif.Coord.Convert
import Verif.Coord.ParAng
import Mathlib.Tactic.Linarith
import Mathlib.Tactic.NormNum

/-!
# plot_map.py (C135)

The script draws a map of the sky with the class `Basemap` it defines itself (lines 15-57, used when matplotlib-basemap is missing): which
direction each pixel of the picture shows (106-148), where the labels of the sources are put (151-185), what a click on the picture
prints (230-256).

Simplified: exact reals for floats; the coordinate systems of `ephem` are rotations (`Frames`, C92); reading the map at a direction is a
function of the direction (C30, C34, C62).  Not modelled: weights and `--mask`, the logarithm and the range of the colours, the tick marks.
-/
set_option linter.unusedSectionVars false
set_option linter.unusedVariables false

noncomputable section
namespace Verif.Misc.PlotMap
open Real Matrix Verif.Coord

/-! ## Model -/

/-- `Basemap.wrap`, plot_map.py 35-38 -/
def wrap (data lo hi : ℝ) : ℝ :=
  let d := if data ≥ hi then lo + (data - hi) else data
  if d < lo then hi + (d - lo) else d

/-- `Basemap.__call__` with `inverse=False`, plot_map.py 29-34 -/
def fwd (lon0 lat0 lon lat : ℝ) : ℝ × ℝ :=
  (wrap ((lon + lon0) / 90) (-2) 2, wrap ((lat + lat0) / 90) (-1) 1)

/-- `Basemap.__call__` with `inverse=True`, plot_map.py 23-28 -/
def inv (lon0 lat0 x y : ℝ) : ℝ × ℝ :=
  (wrap (x * 90 - lon0) (-180) 180, wrap (y * 90 - lat0) (-90) 90)

/-- `x` of column `c` of the picture, `Basemap.makegrid`, plot_map.py 52 -/
def gridX (dim1 c : ℕ) : ℝ := 4 * c / dim1 - 2

/-- `y` of row `r` of the picture, `Basemap.makegrid`, plot_map.py 53 -/
def gridY (dim2 r : ℕ) : ℝ := 1 - 2 * r / dim2

/-- is column `c` of row `r` cut off as outside of the map, plot_map.py 112-119 (`masked_outside` keeps what is between the two values,
whichever is larger) -/
def cutOff (lon0 : ℝ) (dim1 dim2 r c : ℕ) : Prop :=
  let lt := (inv lon0 0 (gridX dim1 0) (gridY dim2 r)).2
  let ln1 := (inv lon0 0 (gridX dim1 0) (gridY dim2 (dim2 / 2))).1
  let ln2 := (inv lon0 0 (gridX dim1 (dim1 - 1)) (gridY dim2 (dim2 / 2))).1
  let x1 := (fwd lon0 0 ln1 lt).1
  let x2 := (fwd lon0 0 ln2 lt).1
  gridX dim1 c < min x1 x2 ∨ gridX dim1 c > max x1 x2

/-- the options used -/
structure Opts (E : Type) where
  cen : Option ℝ
  isys : List Char
  osys : List Char
  iepoch : E
  oepoch : E

variable {E : Type}

/-- `opts.osys == 'eq'` -/
def Opts.isEq (o : Opts E) : Bool := o.osys == ['e', 'q']

/-- `opts.cen` after plot_map.py 107-109 -/
def Opts.centre (o : Opts E) : ℝ :=
  match o.cen with
  | some c => c
  | none => if o.isEq then 180 else 0

/-- `a.img.deg2rad`, img.py 17 -/
def deg2rad : ℝ := π / 180

/-- the direction looked up for a point of the picture, in the plotted system, plot_map.py 111, 120-121, 132-133 -/
def pixDir (o : Opts E) (x y : ℝ) : Vec :=
  let ll := inv o.centre 0 x y
  let lons := (if o.isEq then 360 - ll.1 else ll.1) * deg2rad
  let lats := ll.2 * deg2rad
  if o.isEq then radec2eq (lons, lats) else radec2eq (-lons, lats)

/-- the value of a pixel, plot_map.py 134-138; `none` is the KeyError of an unknown system.  `h` reads the map at a direction. -/
def pixel (f : Frames E) (h : Vec → ℝ) (o : Opts E) (dim1 dim2 r c : ℕ) : Option ℝ :=
  (convertM f o.osys o.isys o.oepoch o.iepoch).map fun m => h (m *ᵥ pixDir o (gridX dim1 c) (gridY dim2 r))

/-- the coordinates of a source that are plotted, plot_map.py 170, 175-178: `ephem.Equatorial` of the observer's epoch, or its galactic or
ecliptic coordinates.  `w` is the direction of the source in the equatorial frame of J2000, `obs` the epoch of the observer. -/
def srcCrd (f : Frames E) (o : Opts E) (obs : E) (w : Vec) : ℝ × ℝ :=
  if o.osys = ['g', 'a'] then eq2radec (f.mat .ga o.oepoch *ᵥ w)
  else if o.osys = ['e', 'c'] then eq2radec (f.mat .ec o.oepoch *ᵥ w)
  else eq2radec (f.mat .eq obs *ᵥ w)

/-- `slons` after plot_map.py 180-183, from degrees -/
def slon (o : Opts E) (lon : ℝ) : ℝ :=
  let s := if o.isEq then 360 - lon else lon
  let s := if s < -180 then s + 360 else s
  if s ≥ 180 then s - 360 else s

/-- where the label of a source is put, plot_map.py 179-183, 203 (`a.img.rad2deg` is 180/π) -/
def label (f : Frames E) (o : Opts E) (obs : E) (w : Vec) : ℝ × ℝ :=
  let a := srcCrd f o obs w
  fwd o.centre 0 (slon o (a.1 * (180 / π))) (a.2 * (180 / π))

/-- the labels, plot_map.py 172-174, 203-209; `none` is the TypeError of zip: the fluxes of one source, squeezed, are not a sequence -/
def labels (f : Frames E) (o : Opts E) (obs : E) (srcs : List (String × Vec)) : Option (List (String × ℝ × ℝ)) :=
  if srcs.length = 1 then none
  else some (srcs.map fun s => (s.1, label f o obs s.2))

/-- Python's `lon % 360` for reals -/
def mod360 (x : ℝ) : ℝ := x - 360 * ⌊x / 360⌋

/-- the coordinates printed by a right click on a point of the picture, plot_map.py 235-238 -/
def clickCrd (o : Opts E) (x y : ℝ) : ℝ × ℝ :=
  let ll := inv o.centre 0 x y
  let lon := if o.isEq then mod360 (360 - ll.1) else ll.1
  (lon * deg2rad, ll.2 * deg2rad)

/-- what a right click prints, plot_map.py 239-241; `none` is the TypeError of '%f' with the pair a map with spectral indices returns -/
def click (h : Vec → ℝ) (hasInd : Bool) (o : Opts E) (x y : ℝ) : Option ((ℝ × ℝ) × ℝ) :=
  if hasInd then none else some (clickCrd o x y, h (radec2eq (clickCrd o x y)))

/-! ## Specification -/

/-- the direction a point of a cylindrical picture stands for: the longitude of the middle is `cen`, longitudes grow to the left, both axes
have 90 degrees to the unit -/
def skyAt (cen X Y : ℝ) : Vec :=
  ![cos (Y * (π / 2)) * cos (cen * (π / 180) - X * (π / 2)), cos (Y * (π / 2)) * sin (cen * (π / 180) - X * (π / 2)), sin (Y * (π / 2))]

/-- the horizontal coordinate of the left edge of column c of dim1 columns that span (-2,2) -/
def leftEdge (dim1 c : ℕ) : ℝ := -2 + 4 * ((c : ℝ) / dim1)

/-- the vertical coordinate of the upper edge of row r of dim2 rows that span (-1,1), row 0 on top -/
def topEdge (dim2 r : ℕ) : ℝ := 1 - 2 * ((r : ℝ) / dim2)

/-! ## Lemmas -/

theorem wrap_shift (d lo hi : ℝ) (h : lo < hi) : ∃ k : ℤ, wrap d lo hi = d + k * (hi - lo) := by
  unfold wrap
  by_cases h1 : d ≥ hi
  · simp only [if_pos h1]
    by_cases h2 : lo + (d - hi) < lo
    · exact absurd h1 (by linarith)
    · rw [if_neg h2]; exact ⟨-1, by push_cast; ring⟩
  · simp only [if_neg h1]
    by_cases h2 : d < lo
    · rw [if_pos h2]; exact ⟨1, by push_cast; ring⟩
    · rw [if_neg h2]; exact ⟨0, by push_cast; ring⟩

theorem wrap_range (d lo hi : ℝ) (h : lo < hi) (h1 : lo - (hi - lo) ≤ d) (h2 : d < hi + (hi - lo)) : lo ≤ wrap d lo hi ∧ wrap d lo hi < hi := by
  unfold wrap
  by_cases c1 : d ≥ hi
  · simp only [if_pos c1]
    rw [if_neg (by linarith)]; constructor <;> linarith
  · simp only [if_neg c1]
    by_cases c2 : d < lo
    · rw [if_pos c2]; constructor <;> linarith
    · rw [if_neg c2]; push Not at c1 c2; exact ⟨c2, c1⟩

theorem wrap_id (d lo hi : ℝ) (h1 : lo ≤ d) (h2 : d < hi) : wrap d lo hi = d := by
  unfold wrap
  simp only [if_neg (not_le.2 h2 : ¬ d ≥ hi)]
  rw [if_neg (not_lt.2 h1)]

theorem dir_eq {a b cen X Y : ℝ} (k : ℤ) (ha : a = cen * (π / 180) - X * (π / 2) + k * (2 * π)) (hb : b = Y * (π / 2)) :
    radec2eq (a, b) = skyAt cen X Y := by
  rw [radec_entries, ha, hb]
  unfold skyAt
  rw [Real.cos_add_int_mul_two_pi, Real.sin_add_int_mul_two_pi]

/-- the direction looked up, away from the upper edge -/
theorem pixDir_eq (o : Opts E) (x y : ℝ) (h1 : -1 ≤ y) (h2 : y < 1) : pixDir o x y = skyAt o.centre x y := by
  obtain ⟨k, hk⟩ := wrap_shift (x * 90 - o.centre) (-180) 180 (by norm_num)
  have hl : wrap (y * 90 - 0) (-90) 90 = y * 90 := by rw [wrap_id _ _ _ (by linarith) (by linarith)]; ring
  unfold pixDir inv deg2rad
  simp only [hk, hl]
  cases o.isEq
  · simp only [Bool.false_eq_true, if_false]
    exact dir_eq (-k) (by push_cast; ring) (by ring)
  · simp only [if_true]
    exact dir_eq (1 - k) (by push_cast; ring) (by ring)

theorem fwd_inv_x (lon0 x y z : ℝ) (c1 : -360 ≤ lon0) (c2 : lon0 ≤ 360) (x1 : -2 ≤ x) (x2 : x < 2) :
    (fwd lon0 0 (inv lon0 0 x y).1 z).1 = x := by
  unfold fwd inv
  simp only
  obtain ⟨k, hk⟩ := wrap_shift (x * 90 - lon0) (-180) 180 (by norm_num)
  obtain ⟨a1, a2⟩ := wrap_range (x * 90 - lon0) (-180) 180 (by norm_num) (by linarith) (by linarith)
  obtain ⟨l, hl⟩ := wrap_shift ((wrap (x * 90 - lon0) (-180) 180 + lon0) / 90) (-2) 2 (by norm_num)
  obtain ⟨b1, b2⟩ := wrap_range ((wrap (x * 90 - lon0) (-180) 180 + lon0) / 90) (-2) 2 (by norm_num)
    (by rw [le_div_iff₀ (by norm_num)]; linarith) (by rw [div_lt_iff₀ (by norm_num)]; linarith)
  rw [hl] at b1 b2 ⊢
  rw [hk] at b1 b2 ⊢
  have e : (x * 90 - lon0 + (k : ℝ) * (180 - -180) + lon0) / 90 + (l : ℝ) * (2 - -2) = x + ((k + l : ℤ) : ℝ) * 4 := by push_cast; ring
  rw [e] at b1 b2 ⊢
  have h1 : ((k + l : ℤ) : ℝ) < 1 := by linarith
  have h2 : (-1 : ℝ) < ((k + l : ℤ) : ℝ) := by linarith
  have h1' : k + l < 1 := by exact_mod_cast h1
  have h2' : -1 < k + l := by exact_mod_cast h2
  have h0 : k + l = 0 := by omega
  rw [h0]; simp

theorem mod360_shift (x : ℝ) : ∃ k : ℤ, mod360 x = x + k * 360 := ⟨-⌊x / 360⌋, by unfold mod360; push_cast; ring⟩

theorem fixed_sys (o : Opts E) (s : Sys) (h : o.osys = sysName s) : sysOf o.osys = some s := by
  rw [h]; cases s <;> decide

theorem rot_transpose_mul {m : Mat} (h : IsRotation m) : mᵀ * m = 1 := by
  have := (rot_transpose h).1
  rwa [Matrix.transpose_transpose] at this

theorem pixel_eq (f : Frames E) (h : Vec → ℝ) (o : Opts E) (si so : Sys) (hi : sysOf o.isys = some si) (ho : sysOf o.osys = some so)
    (dim1 dim2 r c : ℕ) (v w : Vec) (e : pixDir o (gridX dim1 c) (gridY dim2 r) = v) (hw : f.mat so o.oepoch *ᵥ w = v) :
    pixel f h o dim1 dim2 r c = some (h (f.mat si o.iepoch *ᵥ w)) := by
  unfold pixel
  rw [convertM_eq f ho hi, e, ← hw]
  have ht : Verif.Coord.trans f so si o.oepoch o.iepoch *ᵥ (f.mat so o.oepoch *ᵥ w) = f.mat si o.iepoch *ᵥ w := by
    unfold Verif.Coord.trans
    rw [Matrix.mulVec_mulVec, Matrix.mul_assoc, (rot_transpose_mul (f.rot so o.oepoch)), Matrix.mul_one]
  simp only [Option.map_some, ht]

theorem grid_left (dim1 c : ℕ) : gridX dim1 c = leftEdge dim1 c := by unfold gridX leftEdge; ring

theorem grid_top (dim2 r : ℕ) : gridY dim2 r = topEdge dim2 r := by unfold gridY topEdge; ring

/-- the declination reaches 90 degrees only at the pole -/
theorem dec_lt (v : Vec) (hv : IsUnitVec v) (hp : v ≠ ![0, 0, 1]) : (eq2radec v).2 < π / 2 := by
  obtain ⟨_, ⟨_, _, _, r4⟩, _⟩ := c21_ranges v
  refine lt_of_le_of_ne r4 fun e => hp ?_
  have := radec_unit hv
  rw [show eq2radec v = ((eq2radec v).1, π / 2) from Prod.ext rfl e, radec_entries] at this
  rw [← this]; simp

theorem slon_shift (o : Opts E) (lon : ℝ) : ∃ k : ℤ, slon o lon = (if o.isEq then -lon else lon) + k * 360 := by
  unfold slon
  cases o.isEq <;> simp only [Bool.false_eq_true, if_false, if_true]
  · by_cases h1 : lon < -180
    · rw [if_pos h1]
      by_cases h2 : lon + 360 ≥ 180
      · rw [if_pos h2]; exact ⟨0, by push_cast; ring⟩
      · rw [if_neg h2]; exact ⟨1, by push_cast; ring⟩
    · rw [if_neg h1]
      by_cases h2 : lon ≥ 180
      · rw [if_pos h2]; exact ⟨-1, by push_cast; ring⟩
      · rw [if_neg h2]; exact ⟨0, by push_cast; ring⟩
  · by_cases h1 : 360 - lon < -180
    · rw [if_pos h1]
      by_cases h2 : 360 - lon + 360 ≥ 180
      · rw [if_pos h2]; exact ⟨1, by push_cast; ring⟩
      · rw [if_neg h2]; exact ⟨2, by push_cast; ring⟩
    · rw [if_neg h1]
      by_cases h2 : 360 - lon ≥ 180
      · rw [if_pos h2]; exact ⟨0, by push_cast; ring⟩
      · rw [if_neg h2]; exact ⟨1, by push_cast; ring⟩

theorem slon_range (o : Opts E) (lon : ℝ) (h1 : 0 ≤ lon) (h2 : lon < 360) : -180 ≤ slon o lon ∧ slon o lon < 180 := by
  unfold slon
  cases o.isEq <;> simp only [Bool.false_eq_true, if_false, if_true]
  · rw [if_neg (by linarith : ¬ lon < -180)]
    by_cases h : lon ≥ 180
    · rw [if_pos h]; constructor <;> linarith
    · rw [if_neg h]; push Not at h; exact ⟨by linarith, h⟩
  · rw [if_neg (by linarith : ¬ 360 - lon < -180)]
    by_cases h : 360 - lon ≥ 180
    · rw [if_pos h]; constructor <;> linarith
    · rw [if_neg h]; push Not at h; exact ⟨by linarith, h⟩

/-- where the label of a source with coordinates `v` is put: on the picture, at a point that stands for `v` (equatorial) or its mirror image -/
theorem label_eq (o : Opts E) (v : Vec) (hv : IsUnitVec v) (hp : v ≠ ![0, 0, 1]) (c1 : -360 ≤ o.centre) (c2 : o.centre ≤ 360) (P : ℝ × ℝ)
    (hP : P = fwd o.centre 0 (slon o ((eq2radec v).1 * (180 / π))) ((eq2radec v).2 * (180 / π))) :
    (-2 ≤ P.1 ∧ P.1 < 2 ∧ -1 ≤ P.2 ∧ P.2 < 1) ∧ skyAt o.centre P.1 P.2 = if o.isEq then v else ![v 0, -v 1, v 2] := by
  have hpi := pi_pos
  obtain ⟨_, ⟨r1, r2, r3, r4⟩, _⟩ := c21_ranges v
  have r5 := dec_lt v hv hp
  set ra := (eq2radec v).1 with hra
  set dec := (eq2radec v).2 with hdec
  have a1 : 0 ≤ ra * (180 / π) := by positivity
  have a2 : ra * (180 / π) < 360 := by rw [mul_div_assoc', div_lt_iff₀ hpi]; linarith
  have b1 : -90 ≤ dec * (180 / π) := by rw [mul_div_assoc', le_div_iff₀ hpi]; linarith
  have b2 : dec * (180 / π) < 90 := by rw [mul_div_assoc', div_lt_iff₀ hpi]; linarith
  obtain ⟨s1, s2⟩ := slon_range o _ a1 a2
  obtain ⟨k, hk⟩ := slon_shift o (ra * (180 / π))
  obtain ⟨l, hl⟩ := wrap_shift ((slon o (ra * (180 / π)) + o.centre) / 90) (-2) 2 (by norm_num)
  obtain ⟨x1, x2⟩ := wrap_range ((slon o (ra * (180 / π)) + o.centre) / 90) (-2) 2 (by norm_num)
    (by rw [le_div_iff₀ (by norm_num)]; linarith) (by rw [div_lt_iff₀ (by norm_num)]; linarith)
  have hy : wrap ((dec * (180 / π) + 0) / 90) (-1) 1 = dec * (180 / π) / 90 := by
    rw [add_zero]
    exact wrap_id _ _ _ (by rw [le_div_iff₀ (by norm_num)]; linarith) (by rw [div_lt_iff₀ (by norm_num)]; linarith)
  have y1 : -1 ≤ dec * (180 / π) / 90 := by rw [le_div_iff₀ (by norm_num)]; linarith
  have y2 : dec * (180 / π) / 90 < 1 := by rw [div_lt_iff₀ (by norm_num)]; linarith
  subst hP
  simp only [fwd, hy]
  refine ⟨⟨x1, x2, y1, y2⟩, ?_⟩
  have hb : dec = dec * (180 / π) / 90 * (π / 2) := by field_simp; ring
  have hq : ra * (180 / π) * (π / 180) = ra := by field_simp
  have hrv : radec2eq (ra, dec) = v := radec_unit hv
  by_cases hE : o.isEq = true
  · rw [hE] at hk; simp only [if_true] at hk
    rw [if_pos hE, hl, hk, ← hrv]
    refine (dir_eq (k + l) ?_ hb).symm
    push_cast
    linear_combination -hq
  · rw [if_neg hE] at hk
    rw [if_neg hE, hl, hk]
    have e : radec2eq (-ra, dec) = ![v 0, -v 1, v 2] := by
      rw [← hrv, radec_entries, radec_entries]
      simp
    rw [← e]
    refine (dir_eq (k + l) ?_ hb).symm
    push_cast
    linear_combination hq

/-! ## Theorems -/

/-- C135: every pixel of the picture but those of the top row shows the value of the map at the direction that its upper left corner stands
for: if `w` is that direction on the sky, the map is read at the coordinates of `w` in the map's own system and epoch. -/
theorem c135_pixels_partial (f : Frames E) (h : Vec → ℝ) (o : Opts E) (si so : Sys) (hi : sysOf o.isys = some si) (ho : sysOf o.osys = some so)
    (dim1 dim2 r c : ℕ) (hr0 : 0 < r) (hr : r < dim2) (hc : c < dim1) (w : Vec)
    (hw : f.mat so o.oepoch *ᵥ w = skyAt o.centre (leftEdge dim1 c) (topEdge dim2 r)) :
    pixel f h o dim1 dim2 r c = some (h (f.mat si o.iepoch *ᵥ w)) := by
  have d2 : (0 : ℝ) < dim2 := by exact_mod_cast (by omega : 0 < dim2)
  have hr' : (r : ℝ) < dim2 := by exact_mod_cast hr
  have hr1 : (0 : ℝ) < r := by exact_mod_cast hr0
  have q1 : (r : ℝ) / dim2 < 1 := by rw [div_lt_iff₀ d2]; linarith
  have q2 : 0 < (r : ℝ) / dim2 := by positivity
  refine pixel_eq f h o si so hi ho dim1 dim2 r c _ w ?_ hw
  rw [grid_left, grid_top]
  exact pixDir_eq o _ _ (by unfold topEdge; linarith) (by unfold topEdge; linarith)

/-- C135, top row: the whole upper edge of the picture, which stands for the pole at latitude 90 degrees, shows the value of the map at the
opposite pole. -/
theorem c135_top_violated (f : Frames E) (h : Vec → ℝ) (o : Opts E) (si so : Sys) (hi : sysOf o.isys = some si) (ho : sysOf o.osys = some so)
    (dim1 dim2 c : ℕ) (w : Vec) (hw : f.mat so o.oepoch *ᵥ w = ![0, 0, -1]) :
    pixel f h o dim1 dim2 0 c = some (h (f.mat si o.iepoch *ᵥ w)) ∧ skyAt o.centre (leftEdge dim1 c) (topEdge dim2 0) = ![0, 0, 1] := by
  refine ⟨pixel_eq f h o si so hi ho dim1 dim2 0 c _ w ?_ hw, ?_⟩
  · have hl : wrap (gridY dim2 0 * 90 - 0) (-90) 90 = -90 := by
      unfold gridY wrap; norm_num
    have e : ∀ x : ℝ, radec2eq (x, -90 * deg2rad) = ![0, 0, -1] := by
      intro x
      rw [radec_entries, show -90 * deg2rad = -(π / 2) by unfold deg2rad; ring]
      simp
    unfold pixDir inv
    simp only [hl, e, ite_self]
  · unfold skyAt topEdge; simp

/-- C135, labels: in equatorial coordinates, if the sources are computed for the epoch that is plotted, the label of every source not at the
pole is on the picture, at the point that stands for the direction of the source. -/
theorem c135_label_partial (f : Frames E) (o : Opts E) (obs : E) (ho : o.osys = ['e', 'q']) (c1 : -360 ≤ o.centre) (c2 : o.centre ≤ 360)
    (w : Vec) (hw : IsUnitVec w) (he : f.mat .eq obs = f.mat .eq o.oepoch) (hp : f.mat .eq o.oepoch *ᵥ w ≠ ![0, 0, 1]) :
    ∃ X Y, label f o obs w = (X, Y) ∧ -2 ≤ X ∧ X < 2 ∧ -1 ≤ Y ∧ Y < 1 ∧ skyAt o.centre X Y = f.mat .eq o.oepoch *ᵥ w := by
  have hE : o.isEq = true := by unfold Opts.isEq; rw [ho]; decide
  have hs : srcCrd f o obs w = eq2radec (f.mat .eq o.oepoch *ᵥ w) := by
    unfold srcCrd; rw [ho, if_neg (by decide), if_neg (by decide), he]
  obtain ⟨⟨x1, x2, y1, y2⟩, e⟩ := label_eq o _ (unit_rot (f.rot .eq o.oepoch) hw) hp c1 c2 (label f o obs w) (by unfold label; rw [hs])
  rw [if_pos hE] at e
  exact ⟨_, _, rfl, x1, x2, y1, y2, e⟩

/-- C135, epoch: in equatorial coordinates the label is at the position of the source in the epoch of the observer (the date given with -j),
not in the epoch of the picture: it is in the right place only if the two positions are the same. -/
theorem c135_epoch_violated (f : Frames E) (o : Opts E) (obs : E) (ho : o.osys = ['e', 'q']) (c1 : -360 ≤ o.centre) (c2 : o.centre ≤ 360)
    (w : Vec) (hw : IsUnitVec w) (hp : f.mat .eq obs *ᵥ w ≠ ![0, 0, 1]) :
    skyAt o.centre (label f o obs w).1 (label f o obs w).2 = f.mat .eq o.oepoch *ᵥ w ↔ f.mat .eq obs *ᵥ w = f.mat .eq o.oepoch *ᵥ w := by
  have hE : o.isEq = true := by unfold Opts.isEq; rw [ho]; decide
  have hs : srcCrd f o obs w = eq2radec (f.mat .eq obs *ᵥ w) := by
    unfold srcCrd; rw [ho, if_neg (by decide), if_neg (by decide)]
  obtain ⟨_, e⟩ := label_eq o _ (unit_rot (f.rot .eq obs) hw) hp c1 c2 (label f o obs w) (by unfold label; rw [hs])
  rw [if_pos hE] at e
  rw [e]

/-- C135, mirror image: in galactic and ecliptic coordinates the label of a source is where the picture shows the mirror image of the source,
the direction with the negative longitude; it is in the right place only at longitudes 0 and 180 degrees. -/
theorem c135_mirror_violated (f : Frames E) (o : Opts E) (obs : E) (s : Sys) (hs : s ≠ .eq) (ho : o.osys = sysName s) (c1 : -360 ≤ o.centre)
    (c2 : o.centre ≤ 360) (w v : Vec) (hw : IsUnitVec w) (hv : f.mat s o.oepoch *ᵥ w = v) (hp : v ≠ ![0, 0, 1]) :
    skyAt o.centre (label f o obs w).1 (label f o obs w).2 = ![v 0, -v 1, v 2] ∧
    (skyAt o.centre (label f o obs w).1 (label f o obs w).2 = v ↔ v 1 = 0) := by
  have hE : ¬ o.isEq = true := by
    unfold Opts.isEq; rw [ho]; cases s
    · decide
    · exact absurd rfl hs
    · decide
  have hc : srcCrd f o obs w = eq2radec v := by
    unfold srcCrd; rw [ho]; subst hv; cases s
    · rw [if_neg (by decide), if_pos (by decide)]
    · exact absurd rfl hs
    · rw [if_pos (by decide)]
  have hu : IsUnitVec v := hv ▸ unit_rot (f.rot s o.oepoch) hw
  obtain ⟨_, e⟩ := label_eq o v hu hp c1 c2 (label f o obs w) (by unfold label; rw [hc])
  rw [if_neg hE] at e
  refine ⟨e, ?_⟩
  rw [e]
  constructor
  · intro h
    have := congrFun h 1
    simp at this
    linarith
  · intro h
    exact vec3_ext (by simp) (by simp [h]) (by simp)

/-- C135, pole: the label of a source at the north pole is put on the lower edge of the picture, which stands for the south pole. -/
theorem c135_pole_violated (f : Frames E) (o : Opts E) (obs : E) (s : Sys) (ho : o.osys = sysName s) (w : Vec)
    (he : f.mat .eq obs = f.mat .eq o.oepoch) (hw : f.mat s o.oepoch *ᵥ w = ![0, 0, 1]) :
    (label f o obs w).2 = -1 ∧ ∀ X, skyAt o.centre X (-1) = ![0, 0, -1] := by
  have hpi := pi_pos
  have hc : srcCrd f o obs w = eq2radec ![0, 0, 1] := by
    unfold srcCrd; rw [ho, ← hw]; cases s
    · rw [if_neg (by decide), if_pos (by decide)]
    · rw [if_neg (by decide), if_neg (by decide), he]
    · rw [if_pos (by decide)]
  have hd : (eq2radec ![0, 0, 1]).2 = π / 2 := by
    have h1 : Complex.arg ⟨1, 0⟩ = 0 := by rw [show (⟨1, 0⟩ : ℂ) = 1 from rfl]; exact Complex.arg_one
    unfold eq2radec xyz2thphi arctan2
    simp [h1]
  constructor
  · unfold label
    simp only [hc, hd, fwd]
    rw [show (π / 2 * (180 / π) + 0) / 90 = (1 : ℝ) by field_simp; norm_num]
    unfold wrap; norm_num
  · intro X
    unfold skyAt
    simp [neg_mul]

/-- C135, middle: the middle pixel of a picture shows the longitude given with --cen on the equator of the plotted system; without --cen it is
12 hours of right ascension on an equatorial picture and longitude 0 on the others. -/
theorem c135_middle (f : Frames E) (h : Vec → ℝ) (o : Opts E) (si so : Sys) (hi : sysOf o.isys = some si) (ho : sysOf o.osys = some so)
    (a b : ℕ) (ha : 0 < a) (hb : 0 < b) (w : Vec)
    (hw : (∃ c, o.cen = some c ∧ f.mat so o.oepoch *ᵥ w = ![cos (c * (π / 180)), sin (c * (π / 180)), 0]) ∨
      (o.cen = none ∧ o.osys = ['e', 'q'] ∧ f.mat so o.oepoch *ᵥ w = ![-1, 0, 0]) ∨
      (o.cen = none ∧ o.osys ≠ ['e', 'q'] ∧ f.mat so o.oepoch *ᵥ w = ![1, 0, 0])) :
    pixel f h o (2 * a) (2 * b) b a = some (h (f.mat si o.iepoch *ᵥ w)) := by
  have a0 : (a : ℝ) ≠ 0 := by exact_mod_cast (by omega : a ≠ 0)
  have b0 : (b : ℝ) ≠ 0 := by exact_mod_cast (by omega : b ≠ 0)
  have x0 : leftEdge (2 * a) a = 0 := by unfold leftEdge; push_cast; field_simp; norm_num
  have y0 : topEdge (2 * b) b = 0 := by unfold topEdge; push_cast; field_simp; norm_num
  apply c135_pixels_partial f h o si so hi ho (2 * a) (2 * b) b a hb (by omega) (by omega) w
  rw [x0, y0]
  rcases hw with ⟨c, e1, e2⟩ | ⟨e1, e3, e2⟩ | ⟨e1, e3, e2⟩
  · rw [e2]; simp [skyAt, Opts.centre, e1]
  · rw [e2, show o.centre = 180 by simp [Opts.centre, e1, Opts.isEq, e3]]
    simp [skyAt, show (180 : ℝ) * (π / 180) = π by ring]
  · rw [e2, show o.centre = 0 by simp [Opts.centre, e1, Opts.isEq, e3]]
    simp [skyAt]

/-- C135, number of labels: every source of the list gets its label, in order, unless there is exactly one: then the script stops. -/
theorem c135_labels_partial (f : Frames E) (o : Opts E) (obs : E) (srcs : List (String × Vec)) (h : srcs.length ≠ 1) :
    ∃ ls, labels f o obs srcs = some ls ∧ ls.length = srcs.length ∧
      ∀ (i : ℕ) (s : String × Vec), srcs[i]? = some s → ls[i]? = some (s.1, label f o obs s.2) := by
  refine ⟨srcs.map fun s => (s.1, label f o obs s.2), ?_, by simp, ?_⟩
  · unfold labels; rw [if_neg h]
  · intro i s hs
    rw [List.getElem?_map, hs]; rfl

theorem c135_one_source_violated (f : Frames E) (o : Opts E) (obs : E) (s : String × Vec) : labels f o obs [s] = none := by
  unfold labels; simp

/-- C135, click: on an equatorial picture a right click below the upper edge prints the right ascension and declination of the point that was
clicked, the first in [0, 2π), and the value of the map read at just these coordinates. -/
theorem c135_click_partial (h : Vec → ℝ) (o : Opts E) (ho : o.osys = ['e', 'q']) (X Y : ℝ) (y1 : -1 ≤ Y) (y2 : Y < 1) :
    ∃ ra dec, click h false o X Y = some ((ra, dec), h (skyAt o.centre X Y)) ∧ radec2eq (ra, dec) = skyAt o.centre X Y ∧
      0 ≤ ra ∧ ra < 2 * π ∧ -(π / 2) ≤ dec ∧ dec < π / 2 := by
  have hpi := pi_pos
  have hE : o.isEq = true := by unfold Opts.isEq; rw [ho]; decide
  obtain ⟨k, hk⟩ := wrap_shift (X * 90 - o.centre) (-180) 180 (by norm_num)
  have hl : wrap (Y * 90 - 0) (-90) 90 = Y * 90 := by rw [wrap_id _ _ _ (by linarith) (by linarith)]; ring
  have e : clickCrd o X Y = (mod360 (360 - wrap (X * 90 - o.centre) (-180) 180) * deg2rad, Y * 90 * deg2rad) := by
    unfold clickCrd inv
    simp only [hl, hE, if_true]
  obtain ⟨l, hm⟩ := mod360_shift (360 - wrap (X * 90 - o.centre) (-180) 180)
  have hr : radec2eq (clickCrd o X Y) = skyAt o.centre X Y := by
    rw [e, hm, hk]
    exact dir_eq (1 - k + l) (by unfold deg2rad; push_cast; ring) (by unfold deg2rad; ring)
  have m1 : 0 ≤ mod360 (360 - wrap (X * 90 - o.centre) (-180) 180) := by
    have := Int.floor_le ((360 - wrap (X * 90 - o.centre) (-180) 180) / 360)
    rw [le_div_iff₀ (by norm_num)] at this
    unfold mod360; linarith
  have m2 : mod360 (360 - wrap (X * 90 - o.centre) (-180) 180) < 360 := by
    have := Int.lt_floor_add_one ((360 - wrap (X * 90 - o.centre) (-180) 180) / 360)
    rw [div_lt_iff₀ (by norm_num)] at this
    unfold mod360; linarith
  refine ⟨(clickCrd o X Y).1, (clickCrd o X Y).2, ?_, hr, ?_, ?_, ?_, ?_⟩
  · unfold click; rw [if_neg (by decide), hr]
  · rw [e]; unfold deg2rad; positivity
  · rw [e]; unfold deg2rad; nlinarith
  · rw [e]; unfold deg2rad; nlinarith
  · rw [e]; unfold deg2rad; nlinarith

/-- C135, click in other systems: on a galactic or ecliptic picture the coordinates printed, and the value, are those of the mirror image. -/
theorem c135_click_mirror_violated (h : Vec → ℝ) (o : Opts E) (ho : o.osys ≠ ['e', 'q']) (X Y : ℝ) (y1 : -1 ≤ Y) (y2 : Y < 1) (v : Vec)
    (hv : skyAt o.centre X Y = v) :
    ∃ ra dec, click h false o X Y = some ((ra, dec), h ![v 0, -v 1, v 2]) ∧ radec2eq (ra, dec) = ![v 0, -v 1, v 2] := by
  have hE : o.isEq = false := by
    unfold Opts.isEq
    exact beq_eq_false_iff_ne.2 ho
  obtain ⟨k, hk⟩ := wrap_shift (X * 90 - o.centre) (-180) 180 (by norm_num)
  have hl : wrap (Y * 90 - 0) (-90) 90 = Y * 90 := by rw [wrap_id _ _ _ (by linarith) (by linarith)]; ring
  have hr : radec2eq (clickCrd o X Y) = ![v 0, -v 1, v 2] := by
    have e : clickCrd o X Y = (-(o.centre * (π / 180) - X * (π / 2)) + k * (2 * π), Y * (π / 2)) := by
      unfold clickCrd inv deg2rad
      simp only [hl, hE, hk, Bool.false_eq_true, if_false]
      exact Prod.ext (by simp only; ring) (by simp only; ring)
    rw [e, radec_entries, Real.cos_add_int_mul_two_pi, Real.sin_add_int_mul_two_pi, ← hv]
    unfold skyAt
    rw [Real.cos_neg, Real.sin_neg]
    exact vec3_ext (by simp) (by simp) (by simp)
  exact ⟨(clickCrd o X Y).1, (clickCrd o X Y).2, by unfold click; rw [if_neg (by decide), hr], hr⟩

/-- C135, click and the map's system: the value printed is read from the map at the coordinates of the picture, without going over to the
system of the map; a pixel and a click on its corner agree only if the map has the same value at the two places. -/
theorem c135_click_system_violated (f : Frames E) (h : Vec → ℝ) (o : Opts E) (si : Sys) (hi : sysOf o.isys = some si) (ho : o.osys = ['e', 'q'])
    (dim1 dim2 r c : ℕ) (hr0 : 0 < r) (hr : r < dim2) (hc : c < dim1) (w : Vec)
    (hw : f.mat .eq o.oepoch *ᵥ w = skyAt o.centre (leftEdge dim1 c) (topEdge dim2 r)) :
    (∃ crd flx, click h false o (leftEdge dim1 c) (topEdge dim2 r) = some (crd, flx) ∧ pixel f h o dim1 dim2 r c = some flx) ↔
      h (f.mat .eq o.oepoch *ᵥ w) = h (f.mat si o.iepoch *ᵥ w) := by
  have d2 : (0 : ℝ) < dim2 := by exact_mod_cast (by omega : 0 < dim2)
  have hr' : (r : ℝ) < dim2 := by exact_mod_cast hr
  have hr1 : (0 : ℝ) < r := by exact_mod_cast hr0
  have q1 : (r : ℝ) / dim2 < 1 := by rw [div_lt_iff₀ d2]; linarith
  have q2 : 0 < (r : ℝ) / dim2 := by positivity
  obtain ⟨ra, dec, e, _⟩ := c135_click_partial h o ho (leftEdge dim1 c) (topEdge dim2 r) (by unfold topEdge; linarith) (by unfold topEdge; linarith)
  have e2 := c135_pixels_partial f h o si .eq hi (by rw [ho]; decide) dim1 dim2 r c hr0 hr hc w hw
  rw [e, e2, hw]
  constructor
  · rintro ⟨crd, flx, h1, h2⟩
    have h1' := congrArg Prod.snd (Option.some.inj h1)
    exact h1'.trans (Option.some.inj h2).symm
  · intro hh
    exact ⟨_, _, rfl, by rw [hh]⟩

/-- C135, there and back: from a point of the picture (without the upper and the right edge) to longitude and latitude and back. -/
theorem c135_round_trip (lon0 x y : ℝ) (c1 : -360 ≤ lon0) (c2 : lon0 ≤ 360) (x1 : -2 ≤ x) (x2 : x < 2) (y1 : -1 ≤ y) (y2 : y < 1) :
    fwd lon0 0 (inv lon0 0 x y).1 (inv lon0 0 x y).2 = (x, y) :=
  Prod.ext (fwd_inv_x lon0 x y _ c1 c2 x1 x2) (by
    unfold fwd inv
    simp only [sub_zero, add_zero]
    rw [wrap_id (y * 90) _ _ (by linarith) (by linarith), wrap_id _ _ _ (by linarith) (by linarith)]
    ring)

/-- C135: no pixel of the picture is cut off. -/
theorem c135_whole (lon0 : ℝ) (c1 : -360 ≤ lon0) (c2 : lon0 ≤ 360) (dim1 dim2 r c : ℕ) (hc : c < dim1) : ¬ cutOff lon0 dim1 dim2 r c := by
  have d1 : (0 : ℝ) < dim1 := by exact_mod_cast (by omega : 0 < dim1)
  have hb : ∀ k : ℕ, k < dim1 → -2 ≤ gridX dim1 k ∧ gridX dim1 k < 2 := by
    intro k hk
    have hk' : (k : ℝ) < dim1 := by exact_mod_cast hk
    have q1 : 4 * (k : ℝ) / dim1 < 4 := by rw [div_lt_iff₀ d1]; linarith
    have q2 : 0 ≤ 4 * (k : ℝ) / dim1 := by positivity
    unfold gridX; constructor <;> linarith
  obtain ⟨a1, a2⟩ := hb 0 (by omega)
  obtain ⟨b1, b2⟩ := hb (dim1 - 1) (by omega)
  obtain ⟨e1, e2⟩ := hb c hc
  unfold cutOff
  simp only [fwd_inv_x lon0 _ _ _ c1 c2 a1 a2, fwd_inv_x lon0 _ _ _ c1 c2 b1 b2]
  have hle : gridX dim1 c ≤ gridX dim1 (dim1 - 1) := by
    unfold gridX
    have : (c : ℝ) ≤ ((dim1 - 1 : ℕ) : ℝ) := by exact_mod_cast (by omega : c ≤ dim1 - 1)
    have := div_le_div_of_nonneg_right (by linarith : 4 * (c : ℝ) ≤ 4 * ((dim1 - 1 : ℕ) : ℝ)) d1.le
    linarith
  have h0 : gridX dim1 0 = -2 := by unfold gridX; simp
  rintro (h | h)
  · exact absurd (lt_of_lt_of_le h (min_le_left _ _)) (by rw [h0]; linarith)
  · exact absurd (lt_of_le_of_lt (le_max_right _ _) h) (by linarith)

example : (-360 : ℝ) ≤ 180 ∧ (180 : ℝ) ≤ 360 ∧ (-2 : ℝ) ≤ -3 / 2 ∧ (-3 / 2 : ℝ) < 2 := by norm_num

/-- the frames of the cases below: the galactic frame is turned by a quarter of a circle about the axis, and so is the equatorial frame of
the second epoch -/
def demo : Frames Bool where
  mat s t := match s, t with
    | .eq, true => rot_m (π / 2) ![0, 0, 1]
    | .ga, _ => rot_m (π / 2) ![0, 0, 1]
    | _, _ => 1
  rot s t := by
    have h : IsRotation (rot_m (π / 2) ![0, 0, 1]) := c19_rotation _ _ (by simp [IsUnitVec])
    have h1 : IsRotation 1 := ⟨by simp, by simp⟩
    cases s <;> cases t
    all_goals first
      | exact h
      | exact h1

def demoEq : Opts Bool := ⟨none, ['g', 'a'], ['e', 'q'], false, false⟩
def demoGa : Opts Bool := ⟨none, ['g', 'a'], ['g', 'a'], false, false⟩

theorem quarter (v : Vec) : rot_m (π / 2) ![0, 0, 1] *ᵥ v = ![-v 1, v 0, v 2] := by
  rw [show v = ![v 0, v 1, v 2] from vec3_ext rfl rfl rfl]
  unfold rot_m
  simp
  exact vec3_ext (by simp) (by simp) (by simp)

theorem demo_centre : demoEq.centre = 180 := by simp [Opts.centre, Opts.isEq, demoEq]

theorem demo_eq (v : Vec) : demo.mat .eq demoEq.oepoch *ᵥ v = v := by
  show (1 : Mat) *ᵥ v = v
  exact Matrix.one_mulVec v

-- the second of four rows, the third of eight columns of an equatorial picture of a galactic map: ra 270, dec 45 degrees; the map is read
-- a quarter of a circle further on
example : sysOf demoEq.isys = some .ga ∧ sysOf demoEq.osys = some .eq ∧
    demo.mat .eq demoEq.oepoch *ᵥ skyAt demoEq.centre (leftEdge 8 2) (topEdge 4 1) = skyAt demoEq.centre (leftEdge 8 2) (topEdge 4 1) ∧
    topEdge 4 1 = 1 / 2 ∧ leftEdge 8 2 = -1 :=
  ⟨by decide, by decide, demo_eq _, by unfold topEdge; norm_num, by unfold leftEdge; norm_num⟩
-- the top row
example : demo.mat .eq demoEq.oepoch *ᵥ ![0, 0, -1] = ![0, 0, -1] := demo_eq _
-- a source at ra = 0, dec = 0: labelled
example : demoEq.osys = ['e', 'q'] ∧ -360 ≤ demoEq.centre ∧ demoEq.centre ≤ 360 ∧ IsUnitVec ![1, 0, 0] ∧
    demo.mat .eq demoEq.oepoch *ᵥ ![1, 0, 0] ≠ ![0, 0, 1] := by
  refine ⟨rfl, by rw [demo_centre]; norm_num, by rw [demo_centre]; norm_num, by simp [IsUnitVec], ?_⟩
  rw [demo_eq]; intro h; have := congrFun h 0; simp at this
-- the same, computed for the other epoch: it is labelled elsewhere
example : demo.mat .eq true *ᵥ ![1, 0, 0] ≠ demo.mat .eq demoEq.oepoch *ᵥ ![1, 0, 0] ∧ demo.mat .eq true *ᵥ ![1, 0, 0] ≠ ![0, 0, 1] := by
  have e : demo.mat .eq true *ᵥ ![1, 0, 0] = ![0, 1, 0] := by
    show rot_m (π / 2) ![0, 0, 1] *ᵥ ![1, 0, 0] = ![0, 1, 0]
    rw [quarter]; exact vec3_ext (by simp) (by simp) (by simp)
  rw [e, demo_eq]
  constructor
  · intro h; have := congrFun h 0; simp at this
  · intro h; have := congrFun h 1; simp at this
-- a source at galactic longitude 90 degrees is labelled at 270
example : demoGa.osys = sysName .ga ∧ demo.mat .ga demoGa.oepoch *ᵥ ![1, 0, 0] = ![0, 1, 0] ∧ (![0, 1, 0] : Vec) ≠ ![0, 0, 1] ∧ (![0, 1, 0] : Vec) 1 ≠ 0 := by
  refine ⟨rfl, ?_, ?_, by simp⟩
  · show rot_m (π / 2) ![0, 0, 1] *ᵥ ![1, 0, 0] = ![0, 1, 0]
    rw [quarter]; exact vec3_ext (by simp) (by simp) (by simp)
  · intro h; have := congrFun h 1; simp at this
-- a source at the pole
example : demoEq.osys = sysName .eq ∧ demo.mat .eq false = demo.mat .eq demoEq.oepoch ∧ demo.mat .eq demoEq.oepoch *ᵥ ![0, 0, 1] = ![0, 0, 1] :=
  ⟨rfl, rfl, demo_eq _⟩
-- the middle of an equatorial picture without --cen
example : demoEq.cen = none ∧ demoEq.osys = ['e', 'q'] ∧ demo.mat .eq demoEq.oepoch *ᵥ ![-1, 0, 0] = ![-1, 0, 0] :=
  ⟨rfl, rfl, demo_eq _⟩
-- two sources
example : [("a", ![1, 0, 0]), ("b", (![0, 1, 0] : Vec))].length ≠ 1 := by decide
-- a map that is 1 at one place and 0 elsewhere: pixel and click disagree
example : ∃ h : Vec → ℝ, h (demo.mat .eq demoEq.oepoch *ᵥ ![1, 0, 0]) ≠ h (demo.mat .ga demoEq.iepoch *ᵥ ![1, 0, 0]) := by
  refine ⟨fun v => v 0, ?_⟩
  rw [demo_eq]
  show (![1, 0, 0] : Vec) 0 ≠ (rot_m (π / 2) ![0, 0, 1] *ᵥ ![1, 0, 0]) 0
  rw [quarter]; simp
-- points of the picture
example : (-1 : ℝ) ≤ 1 / 2 ∧ (1 / 2 : ℝ) < 1 := by norm_num
example : demoGa.osys ≠ ['e', 'q'] := by decide

/-- C135, click on a map with spectral indices: the script stops. -/
theorem c135_click_indices_violated (h : Vec → ℝ) (o : Opts E) (X Y : ℝ) : click h true o X Y = none := rfl

end Verif.Misc.PlotMap
