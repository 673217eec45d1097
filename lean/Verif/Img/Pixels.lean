import Verif.Img.Recenter
import Verif.Img.HermProps
import Verif.Phs.Delay
/-!
# Property C75 : pixels and directions

Model of `Img.get_LM`, `Img.get_top`, `Img.get_eq` and `Img.image` (`/repo/aipy/img.py` 95-103, 191-222), over exact reals
(the code rounds to single precision).  A masked entry is `none`; the numbers numpy keeps below the mask are not modelled.
-/
noncomputable section
namespace Verif.Img
open Real Matrix Verif.Coord Verif.Phs

/-! ## Model -/

/-- `np.where(L > dim//2, dim-L, -L)` at column `c`, img.py 99 -/
def colOff (n c : Nat) : ℤ := if c > n / 2 then (n : ℤ) - c else -c

/-- `np.where(M > dim//2, M-dim, M)` at row `r`, img.py 99 -/
def rowOff (n r : Nat) : ℤ := if r > n / 2 then (r : ℤ) - n else r

/-- the (l,m) of row `r`, column `c` before recentring, img.py 98-102: divided by the dimension and the resolution, masked
outside the unit circle -/
def lmPix (n : Nat) (res : ℝ) (r c : Nat) : Option (ℝ × ℝ) :=
  let l := (colOff n c : ℝ) / n / res
  let m := (rowOff n r : ℝ) / n / res
  if l ^ 2 + m ^ 2 ≥ 1 then none else some (l, m)

/-- an n×n array filled by a function of row and column -/
def tab {α : Type} (n : Nat) (f : Nat → Nat → α) : List (List α) :=
  (List.range n).map (fun r => (List.range n).map (fun c => f r c))

/-- `Img.get_LM(center)`, img.py 95-103 -/
def getLM (n : Nat) (res : ℝ) (center : ℤ × ℤ) : Option (List (List (Option (ℝ × ℝ)))) :=
  recenter (n, n) (tab n (lmPix n res)) center

/-- `z = np.sqrt(1 - x**2 - y**2)`, img.py 209-211 -/
def topVec (p : ℝ × ℝ) : Vec := ![p.1, p.2, √(1 - p.1 ^ 2 - p.2 ^ 2)]

/-- `Img.get_top(center)`, img.py 207-211 -/
def getTop (n : Nat) (res : ℝ) (center : ℤ × ℤ) : Option (List (List (Option Vec))) :=
  (getLM n res center).map (List.map (List.map (Option.map topVec)))

/-- `Img.get_eq(ra, dec, center)`, img.py 212-222 -/
def getEq (n : Nat) (res ra dec : ℝ) (center : ℤ × ℤ) : Option (List (List (Option Vec))) :=
  (getTop n res center).map (List.map (List.map (Option.map (fun v => top2eq_m (-ra) dec *ᵥ v))))

/-- `Img._gen_img(data, center)`, img.py 191-194, of a matrix stored in C order -/
def genImg (n : Nat) (m : Nat → ℂ) (center : ℤ × ℤ) : Option (List (List ℝ)) :=
  recenter (n, n) (tab n (fun r c => (invDft n m r c).re)) center

/-! ## Specification -/

/-- pixel (i,j) of an n×n image made with `center` stands `q` pixels north of the phase centre and `p` pixels west of it:
the offsets nearest to zero in the periodic image -/
structure Offset (n : Nat) (center : ℤ × ℤ) (i j : Nat) (q p : ℤ) : Prop where
  row : (q - (i + center.1)) % n = 0
  col : (p - (j + center.2)) % n = 0
  qlo : -(n : ℤ) < 2 * q
  qhi : 2 * q ≤ n
  plo : -(n : ℤ) < 2 * p
  phi : 2 * p ≤ n

/-- direction of growing right ascension at (ra, dec) -/
def east (ra : ℝ) : Vec := ![-sin ra, cos ra, 0]

/-- direction of growing declination at (ra, dec) -/
def north (ra dec : ℝ) : Vec := ![-sin dec * cos ra, -sin dec * sin ra, cos dec]

/-- the direction (ra, dec) itself -/
def towards (ra dec : ℝ) : Vec := ![cos dec * cos ra, cos dec * sin ra, sin dec]

/-! ## Lemmas -/

theorem tab_shape {α : Type} (n : Nat) (f : Nat → Nat → α) : HasShape (tab n f) n n := by
  unfold HasShape tab
  refine ⟨by simp, ?_⟩
  intro row hrow
  rw [List.mem_map] at hrow
  obtain ⟨r, _, rfl⟩ := hrow
  simp

theorem at2_tab {α : Type} (n : Nat) (f : Nat → Nat → α) (r c : Nat) (hr : r < n) (hc : c < n) :
    at2 (tab n f) r c = some (f r c) := by
  unfold at2 tab
  rw [List.getElem?_map, List.getElem?_range hr]
  simp only [Option.map_some, Option.bind_some]
  rw [List.getElem?_map, List.getElem?_range hc]
  rfl

/-- the base pixel from which pixel (i,j) of the recentred arrays is taken -/
theorem tab_recentred {α : Type} (n : Nat) (hn : n ≠ 0) (f : Nat → Nat → α) (center : ℤ × ℤ) :
    ∃ b, recenter (n, n) (tab n f) center = some b ∧ HasShape b n n ∧ ∀ i j, i < n → j < n →
      at2 b i j = some (f ((i + center.1) % n).toNat ((j + center.2) % n).toNat) := by
  obtain ⟨b, hb, hs⟩ := c22_total (tab n f) n n (tab_shape n f) hn hn center
  refine ⟨b, hb, hs, ?_⟩
  intro i j hi hj
  rw [c22_element _ _ _ _ (tab_shape n f) center hb i j hi hj, at2_tab]
  · exact emod_lt_nat hn
  · exact emod_lt_nat hn

theorem emod_of_diff {n : Nat} (x y : ℤ) (h : (x - y) % n = 0) : x % n = y % n := by
  exact Int.emod_emod_of_dvd y (dvd_refl _) ▸ (Int.emod_emod_of_dvd y (dvd_refl _)).symm ▸
    (Int.emod_eq_emod_iff_emod_sub_eq_zero.2 h)

theorem rowOff_eq {n : Nat} (x q : ℤ) (h : (q - x) % n = 0) (h1 : -(n : ℤ) < 2 * q) (h2 : 2 * q ≤ n) :
    rowOff n (x % n).toNat = q := by
  have e := emod_of_diff q x h
  rw [← e]
  unfold rowOff
  rcases lt_or_ge q 0 with h0 | h0
  · have : q % n = q + n := by
      rw [← Int.add_emod_right, Int.emod_eq_of_lt (by omega) (by omega)]
    rw [this, if_pos (by omega)]
    omega
  · rw [Int.emod_eq_of_lt h0 (by omega), if_neg (by omega)]
    omega

theorem colOff_eq {n : Nat} (x p : ℤ) (h : (p - x) % n = 0) (h1 : -(n : ℤ) < 2 * p) (h2 : 2 * p ≤ n) :
    colOff n (x % n).toNat = -p := by
  have := rowOff_eq x p h h1 h2
  unfold rowOff at this
  unfold colOff
  split at this
  · rw [if_pos (by assumption)]; omega
  · rw [if_neg (by assumption)]; omega

/-- every pixel has exactly one offset -/
theorem offset_exists (n : Nat) (hn : n ≠ 0) (center : ℤ × ℤ) (i j : Nat) : ∃ q p, Offset n center i j q p := by
  have key : ∀ x : ℤ, (rowOff n (x % n).toNat - x) % n = 0 ∧ -(n : ℤ) < 2 * rowOff n (x % n).toNat ∧
      2 * rowOff n (x % n).toNat ≤ n := by
    intro x
    have h0 := Int.emod_nonneg x (by omega : (n : ℤ) ≠ 0)
    have h1 := Int.emod_lt_of_pos x (by omega : (0 : ℤ) < n)
    have h2 := Int.emod_add_mul_ediv x n
    generalize x % n = y at *
    obtain ⟨k, rfl⟩ := Int.eq_ofNat_of_zero_le h0
    have hx : x = (k : ℤ) + n * (x / n) := h2.symm
    generalize x / n = d at *
    unfold rowOff
    simp only [Int.toNat_natCast]
    split
    · refine ⟨?_, by omega, by omega⟩
      apply Int.emod_eq_zero_of_dvd
      exact ⟨-d - 1, by rw [hx]; ring⟩
    · refine ⟨?_, by omega, by omega⟩
      apply Int.emod_eq_zero_of_dvd
      exact ⟨-d, by rw [hx]; ring⟩
  obtain ⟨a1, a2, a3⟩ := key (i + center.1)
  obtain ⟨b1, b2, b3⟩ := key (j + center.2)
  exact ⟨_, _, a1, b1, a2, a3, b2, b3⟩

theorem at2_map2 {α β : Type} (f : α → β) (a : List (List α)) (i j : Nat) :
    at2 (a.map (List.map f)) i j = (at2 a i j).map f := by
  unfold at2
  rw [List.getElem?_map]
  cases a[i]? with
  | none => rfl
  | some r => simp

/-! ## C75 -/

/-- C75: for every centre, pixel (i,j) of `get_LM` is the direction `q` pixels north and `p` pixels west of the phase
centre, a pixel being 1/(n·res) wide; it is masked exactly if that is not above the horizon. -/
theorem c75_lm (n : Nat) (hn : n ≠ 0) (res : ℝ) (center : ℤ × ℤ) :
    ∃ g, getLM n res center = some g ∧ HasShape g n n ∧ ∀ i j, i < n → j < n → ∀ q p, Offset n center i j q p →
      at2 g i j = some (if (-(p : ℝ) / (n * res)) ^ 2 + ((q : ℝ) / (n * res)) ^ 2 < 1
        then some (-(p : ℝ) / (n * res), (q : ℝ) / (n * res)) else none) := by
  obtain ⟨b, hb, hs, hat⟩ := tab_recentred n hn (lmPix n res) center
  refine ⟨b, hb, hs, ?_⟩
  intro i j hi hj q p ho
  rw [hat i j hi hj]
  unfold lmPix
  rw [rowOff_eq _ q ho.row ho.qlo ho.qhi, colOff_eq _ p ho.col ho.plo ho.phi]
  simp only [div_div, Int.cast_neg]
  congr 1
  by_cases h : (-(p : ℝ) / (n * res)) ^ 2 + ((q : ℝ) / (n * res)) ^ 2 < 1
  · rw [if_pos h, if_neg (not_le.mpr h)]
  · rw [if_neg h, if_pos (not_lt.mp h)]

/-- C75: `image(center)` and `get_LM(center)` are aligned: the offset of a pixel names the coefficient of the inverse
transform as well. -/
theorem c75_image (n : Nat) (hn : n ≠ 0) (m : Nat → ℂ) (center : ℤ × ℤ) :
    ∃ g, genImg n m center = some g ∧ HasShape g n n ∧ ∀ i j, i < n → j < n → ∀ q p, Offset n center i j q p →
      at2 g i j = some (invDft n m (q % n).toNat (p % n).toNat).re := by
  obtain ⟨b, hb, hs, hat⟩ := tab_recentred n hn (fun r c => (invDft n m r c).re) center
  refine ⟨b, hb, hs, ?_⟩
  intro i j hi hj q p ho
  rw [hat i j hi hj, emod_of_diff _ _ ho.row, emod_of_diff _ _ ho.col]

/-- C75: every pixel has an offset and no two pixels have the same: no two pixels stand for one direction. -/
theorem c75_distinct (n : Nat) (hn : n ≠ 0) (center : ℤ × ℤ) (i j : Nat) (hi : i < n) (hj : j < n) :
    ∃ q p, Offset n center i j q p ∧ (∀ q' p', Offset n center i j q' p' → q' = q ∧ p' = p) ∧
      ∀ i' j', i' < n → j' < n → Offset n center i' j' q p → i' = i ∧ j' = j := by
  obtain ⟨q, p, ho⟩ := offset_exists n hn center i j
  have key : ∀ x y z : ℤ, (x - z) % n = 0 → (y - z) % n = 0 → ∃ k : ℤ, x - y = n * k := by
    intro x y z h1 h2
    obtain ⟨a, ha⟩ := Int.dvd_of_emod_eq_zero h1
    obtain ⟨b, hb⟩ := Int.dvd_of_emod_eq_zero h2
    exact ⟨a - b, by rw [mul_sub, ← ha, ← hb]; ring⟩
  have small : ∀ x k : ℤ, x = n * k → -(n : ℤ) < x → x < n → x = 0 := by
    intro x k h h1 h2
    have : k = 0 := by
      rcases lt_trichotomy k 0 with hk | hk | hk
      · nlinarith
      · exact hk
      · nlinarith
    rw [h, this, mul_zero]
  refine ⟨q, p, ho, ?_, ?_⟩
  · intro q' p' h'
    obtain ⟨k, hk⟩ := key q' q _ h'.row ho.row
    obtain ⟨k', hk'⟩ := key p' p _ h'.col ho.col
    have e1 := small _ _ hk (by have := h'.qlo; have := ho.qhi; omega) (by have := h'.qhi; have := ho.qlo; omega)
    have e2 := small _ _ hk' (by have := h'.plo; have := ho.phi; omega) (by have := h'.phi; have := ho.plo; omega)
    omega
  · intro i' j' hi' hj' h'
    have neg : ∀ x y : ℤ, (x - y) % n = 0 → (y - x) % n = 0 := by
      intro x y h
      have := Int.dvd_of_emod_eq_zero h
      exact Int.emod_eq_zero_of_dvd ((Int.dvd_neg).1 (by rwa [neg_sub]))
    obtain ⟨k, hk⟩ := key _ _ _ (neg _ _ h'.row) (neg _ _ ho.row)
    obtain ⟨k', hk'⟩ := key _ _ _ (neg _ _ h'.col) (neg _ _ ho.col)
    have e1 := small ((i' : ℤ) - i) k (by rw [← hk]; ring) (by omega) (by omega)
    have e2 := small ((j' : ℤ) - j) k' (by rw [← hk']; ring) (by omega) (by omega)
    omega

/-- C75: the phase centre itself, (l,m) = (0,0), is at pixel (0,0) moved by minus the centre (see C22); for the usual
centre (n/2, n/2) of an even image that is the middle. -/
theorem c75_centre (n : Nat) (center : ℤ × ℤ) (i j : Nat) (hi : i < n) (hj : j < n) :
    Offset n center i j 0 0 ↔ i = ((-center.1) % n).toNat ∧ j = ((-center.2) % n).toNat := by
  have key : ∀ (c : ℤ) (k : Nat), k < n → (((0 : ℤ) - (k + c)) % n = 0 ↔ k = ((-c) % n).toNat) := by
    intro c k hk
    have h0 := Int.emod_nonneg (-c) (by omega : (n : ℤ) ≠ 0)
    constructor
    · intro h
      have h' : (-c - k) % n = 0 := by rw [← h]; congr 1; ring
      rw [emod_of_diff _ _ h', Int.emod_eq_of_lt (by omega) (by omega)]
      omega
    · intro h
      have : (k : ℤ) = (-c) % n := by omega
      have e : ((0 : ℤ) - (k + c)) = -c - (-c) % n := by rw [this]; ring
      rw [e]
      apply Int.emod_eq_zero_of_dvd
      exact Int.dvd_self_sub_emod
  constructor
  · intro h
    exact ⟨(key _ _ hi).1 h.row, (key _ _ hj).1 h.col⟩
  · rintro ⟨h1, h2⟩
    exact ⟨(key _ _ hi).2 h1, (key _ _ hj).2 h2, by omega, by omega, by omega, by omega⟩

theorem frame (ra dec : ℝ) (p : ℝ × ℝ) :
    top2eq_m (-ra) dec *ᵥ topVec p =
      p.1 • east ra + p.2 • north ra dec + √(1 - p.1 ^ 2 - p.2 ^ 2) • towards ra dec := by
  have h : top2eq_m (-ra) dec = (eq2top_m (-ra) dec)ᵀ := by
    have := (c20_rotation (-ra) dec).1
    exact Matrix.inv_eq_right_inv this
  rw [h]
  apply vec3_ext <;>
    simp [topVec, east, north, towards, eq2top_m, mulVec, dotProduct, Fin.sum_univ_three, vecHead, vecTail] <;> ring

theorem topVec_unit (p : ℝ × ℝ) (h : p.1 ^ 2 + p.2 ^ 2 < 1) : IsUnitVec (topVec p) ∧ 0 < topVec p 2 := by
  have h0 : 0 < 1 - p.1 ^ 2 - p.2 ^ 2 := by linarith
  constructor
  · unfold IsUnitVec topVec
    simp only [cons_val_zero, cons_val_one, cons_val]
    rw [sq_sqrt h0.le]; ring
  · show 0 < √(1 - p.1 ^ 2 - p.2 ^ 2)
    exact sqrt_pos.2 h0

/-- C75: `get_top` and `get_eq` mask the same pixels as `get_LM`; the others are unit vectors above the horizon, and the
equatorial vector lies `l` east and `m` north of the centre (ra, dec). -/
theorem c75_directions (n : Nat) (hn : n ≠ 0) (res ra dec : ℝ) (center : ℤ × ℤ) :
    ∃ g t e, getLM n res center = some g ∧ getTop n res center = some t ∧ getEq n res ra dec center = some e ∧
      ∀ i j, i < n → j < n →
        (at2 g i j = some none ∧ at2 t i j = some none ∧ at2 e i j = some none) ∨
        ∃ l m vt ve, at2 g i j = some (some (l, m)) ∧ at2 t i j = some (some vt) ∧ at2 e i j = some (some ve) ∧
          vt 0 = l ∧ vt 1 = m ∧ 0 < vt 2 ∧ IsUnitVec vt ∧ IsUnitVec ve ∧
          ve = l • east ra + m • north ra dec + vt 2 • towards ra dec ∧
          ve ⬝ᵥ east ra = l ∧ ve ⬝ᵥ north ra dec = m ∧ ve ⬝ᵥ towards ra dec = vt 2 := by
  obtain ⟨b, hb, hs, hat⟩ := tab_recentred n hn (lmPix n res) center
  refine ⟨b, _, _, hb, by unfold getTop getLM; rw [hb]; rfl, by unfold getEq getTop getLM; rw [hb]; rfl, ?_⟩
  intro i j hi hj
  simp only [at2_map2, hat i j hi hj, Option.map_some]
  generalize ((i + center.1) % n).toNat = r
  generalize ((j + center.2) % n).toNat = c
  unfold lmPix
  simp only
  split
  · left; simp
  · rename_i h
    right
    have h' := not_le.mp h
    obtain ⟨h1, h2⟩ := topVec_unit ((colOff n c : ℝ) / n / res, (rowOff n r : ℝ) / n / res) h'
    generalize hl : (colOff n c : ℝ) / n / res = l at *
    generalize hm : (rowOff n r : ℝ) / n / res = m at *
    refine ⟨l, m, _, _, rfl, rfl, rfl, rfl, rfl, h2, h1, ?_, frame ra dec (l, m), ?_⟩
    · beta_reduce
      rw [frame]
      have hz : topVec (l, m) 2 = √(1 - l ^ 2 - m ^ 2) := rfl
      have hu : l ^ 2 + m ^ 2 + √(1 - l ^ 2 - m ^ 2) ^ 2 = 1 := by
        rw [sq_sqrt (by linarith)]; ring
      simp only
      generalize √(1 - l ^ 2 - m ^ 2) = z at *
      unfold IsUnitVec
      simp [east, north, towards]
      have e1 := sin_sq_add_cos_sq ra
      have e2 := sin_sq_add_cos_sq dec
      generalize sin ra = s at *; generalize cos ra = k at *
      generalize sin dec = s' at *; generalize cos dec = k' at *
      linear_combination hu + (l ^ 2 + (m * s' - z * k') ^ 2) * e1 + (m ^ 2 + z ^ 2) * e2
    · beta_reduce
      rw [frame]
      have hz : topVec (l, m) 2 = √(1 - l ^ 2 - m ^ 2) := rfl
      rw [hz]
      simp only
      generalize √(1 - l ^ 2 - m ^ 2) = z at *
      have e1 := sin_sq_add_cos_sq ra
      have e2 := sin_sq_add_cos_sq dec
      simp [east, north, towards, dotProduct, Fin.sum_univ_three]
      generalize sin ra = s at *; generalize cos ra = k at *
      generalize sin dec = s' at *; generalize cos dec = k' at *
      refine ⟨?_, ?_, ?_⟩
      · linear_combination l * e1
      · linear_combination (m * s' ^ 2 - z * s' * k') * e1 + m * e2
      · linear_combination (-m * s' * k' + z * k' ^ 2) * e1 + z * e2

/-- third component of a baseline projected towards a vector -/
theorem w_of_vec (lst : ℝ) (v b : Vec) (hv : IsUnitVec v) :
    (eq2top_m (lst - (eq2radec v).1) (eq2radec v).2 *ᵥ b) 2 =
      (v 0 * cos lst + v 1 * sin lst) * b 0 + (v 1 * cos lst - v 0 * sin lst) * b 1 + v 2 * b 2 := by
  have hl : len v = 1 := by unfold len; rw [hv, sqrt_one]
  have hv0 : v ≠ 0 := by
    intro h; rw [h] at hv; unfold IsUnitVec at hv; simp at hv
  have h := c21_radec_of_vec v hv0
  rw [hl, inv_one, one_smul] at h
  set ra := (eq2radec v).1
  set dec := (eq2radec v).2
  have e0 : v 0 = cos dec * cos ra := by
    conv_lhs => rw [← h]
    simp [radec2eq, thphi2xyz, sin_pi_div_two_sub, ra, dec]
  have e1 : v 1 = cos dec * sin ra := by
    conv_lhs => rw [← h]
    simp [radec2eq, thphi2xyz, sin_pi_div_two_sub, ra, dec]
  have e2 : v 2 = sin dec := by
    conv_lhs => rw [← h]
    simp [radec2eq, thphi2xyz, cos_pi_div_two_sub, dec]
  rw [e0, e1, e2]
  simp [eq2top_m, mulVec, dotProduct, Fin.sum_univ_three, cos_sub, sin_sub]
  ring

/-- C75: the delay of a source standing at a pixel, for a baseline whose coordinates towards the centre are (u,v,w), is
u·l + v·m + w·n with the (l,m) of the pixel and n = √(1-l²-m²): the phase the source has in data phased to the centre. -/
theorem c75_delay (n : Nat) (hn : n ≠ 0) (res ra dec : ℝ) (center : ℤ × ℤ) (e : List (List (Option Vec)))
    (g : List (List (Option (ℝ × ℝ)))) (he : getEq n res ra dec center = some e) (hg : getLM n res center = some g)
    (r c : Nat) (hr : r < n) (hc : c < n) (ve : Vec) (l m : ℝ) (hve : at2 e r c = some (some ve))
    (hlm : at2 g r c = some (some (l, m))) (a : Arr) (i j : Nat) (alt : ℝ) (ion : ℝ × ℝ) (sh : ℝ × ℝ × ℝ) (bc bs : Vec)
    (hbc : getBaseline a i j (.body alt (bodyMap a.lst ra dec) ion sh) = .ok bc)
    (hbs : getBaseline a i j (.vec ve) = .ok bs) :
    bs 2 = l * bc 0 + m * bc 1 + √(1 - l ^ 2 - m ^ 2) * bc 2 := by
  obtain ⟨g', t', e', k1, k2, k3, hat⟩ := c75_directions n hn res ra dec center
  rw [hg] at k1; rw [he] at k3
  cases k1; cases k3
  rcases hat r c hr hc with h | ⟨l', m', vt, ve', h1, h2, h3, h4, h5, h6, h7, h8, h9, _⟩
  · rw [h.1] at hlm; cases hlm
  rw [hlm] at h1; rw [hve] at h3
  cases h1; cases h3
  have hz : vt 2 = √(1 - l ^ 2 - m ^ 2) := by
    unfold IsUnitVec at h7
    rw [h4, h5] at h7
    rw [← sqrt_sq h6.le]
    congr 1; linarith
  rw [hz] at h9
  obtain ⟨ai, aj, p, d1, d2, d3, rfl⟩ := getBaseline_ok.1 hbc
  obtain ⟨ai', aj', p', f1, f2, f3, rfl⟩ := getBaseline_ok.1 hbs
  rw [d1] at f1; rw [d2] at f2
  cases f1; cases f2; cases f3
  have d3 : bodyProj alt (bodyMap a.lst ra dec) = .ok p := d3
  unfold bodyProj at d3
  split at d3
  · cases d3
  cases d3
  simp only [applyProj]
  rw [w_of_vec _ _ _ h8, h9]
  generalize √(1 - l ^ 2 - m ^ 2) = z
  generalize aj.pos - ai.pos = b
  simp [bodyMap, east, north, towards, eq2top_m, mulVec, dotProduct, Fin.sum_univ_three, cos_sub, sin_sub]
  ring

/-- C75 fails for the docstrings of `image` and `_gen_img` ("right=East"): one pixel to the right of the phase centre is
one pixel west of it, in every image of at least two pixels. -/
theorem c75_right_east_fails (n : Nat) (hn : 2 ≤ n) (res : ℝ) (hres : 1 ≤ res) :
    ∃ g l, getLM n res (0, 0) = some g ∧ at2 g 0 0 = some (some (0, 0)) ∧ at2 g 0 1 = some (some (l, 0)) ∧ l < 0 := by
  obtain ⟨g, hg, _, hat⟩ := c75_lm n (by omega) res (0, 0)
  have o0 : Offset n (0, 0) 0 0 0 0 := ⟨by simp, by simp, by omega, by omega, by omega, by omega⟩
  have o1 : Offset n (0, 0) 0 1 0 1 := ⟨by simp, by simp, by omega, by omega, by omega, by omega⟩
  have hn' : (2 : ℝ) ≤ n := by exact_mod_cast hn
  have hp : 2 ≤ (n : ℝ) * res := by nlinarith
  refine ⟨g, -1 / (n * res), hg, ?_, ?_, div_neg_of_neg_of_pos (by norm_num) (by linarith)⟩
  · rw [hat 0 0 (by omega) (by omega) 0 0 o0]; simp
  · rw [hat 0 1 (by omega) (by omega) 0 1 o1]
    rw [if_pos]
    · simp
    · simp only [Int.cast_one, Int.cast_zero, zero_div]
      rw [div_pow, div_add' _ _ _ (by positivity), div_lt_one (by positivity)]
      nlinarith

/-- a 4×4 image with the centre in the middle: the last pixel of the third row is one pixel west of the centre -/
example : Offset 4 (2, 2) 2 3 0 1 := ⟨by decide, by decide, by decide, by decide, by decide, by decide⟩

example : Offset 5 (2, 2) 0 0 2 2 ∧ Offset 5 (2, 2) 4 1 1 (-2) :=
  ⟨⟨by decide, by decide, by decide, by decide, by decide, by decide⟩,
   ⟨by decide, by decide, by decide, by decide, by decide, by decide⟩⟩

/-- the hypotheses of `c75_delay` are met: two antennas, the centre setting, a source one pixel away -/
example : ∃ e g ve l m bc bs, getEq 4 1 0 0 (0, 0) = some e ∧ getLM 4 1 (0, 0) = some g ∧
    at2 e 0 1 = some (some ve) ∧ at2 g 0 1 = some (some (l, m)) ∧ l < 0 ∧
    getBaseline twoAnts 0 1 (.body 1 (bodyMap twoAnts.lst 0 0) (0, 0) (0, 0, 0)) = .ok bc ∧
    getBaseline twoAnts 0 1 (.vec ve) = .ok bs := by
  obtain ⟨g', l', e1, e2, e3, e4⟩ := c75_right_east_fails 4 (by norm_num) 1 le_rfl
  obtain ⟨g, t, e, h1, h2, h3, hat⟩ := c75_directions 4 (by norm_num) 1 0 0 (0, 0)
  rw [e1] at h1; cases h1
  rcases hat 0 1 (by norm_num) (by norm_num) with h | ⟨l, m, vt, ve, k1, k2, k3, _⟩
  · rw [h.1] at e3; cases e3
  · rw [e3] at k1; cases k1
    exact ⟨e, g', ve, l', 0, _, _, h3, e1, k3, e3, e4,
      getBaseline_ok.2 ⟨_, _, some (bodyMap twoAnts.lst 0 0), rfl, rfl, by
        show bodyProj 1 _ = _
        unfold bodyProj; rw [if_neg (by norm_num)], rfl⟩,
      getBaseline_ok.2 ⟨_, _, _, rfl, rfl, rfl, rfl⟩⟩

end Verif.Img
