import Mathlib.Analysis.SpecialFunctions.Exp
import Mathlib.Algebra.Order.BigOperators.Group.List
import Mathlib.Tactic.Linarith
import Mathlib.Tactic.Positivity
import Verif.Dsp.Dft
import Verif.Img.Recenter
/-!
# Convolution and Gaussian beams (C119)

`convolve2d`, `gaussian_beam`, `beam_gain`, `/repo/aipy/img.py` 61-79.  Numbers are exact; `np.fft` is the sum it is defined to be.
-/
namespace Verif.Img.GaussBeam
open Verif.Dsp Verif.Img

/-! ## Model -/

/-- a matrix of complex numbers, neither axis empty -/
abbrev Mat (n m : Nat) := Fin (n + 1) → Row m

/-- `np.fft.fft2`: along the last axis, then along the first -/
noncomputable def fft2 {n m : Nat} (a : Mat n m) : Mat n m := fun k l => fft (fun x => fft (a x) l) k

/-- `np.fft.ifft2` -/
noncomputable def ifft2 {n m : Nat} (a : Mat n m) : Mat n m := fun k l => ifft (fun x => ifft (a x) l) k

/-- `convolve2d`, img.py 61-63, for matrices of one shape -/
noncomputable def convolve2d {n m : Nat} (a b : Mat n m) : Mat n m := ifft2 fun k l => fft2 a k l * fft2 b k l

/-- `sigma`, an integer or a float -/
inductive Sigma where
  | int (k : Int)
  | float (x : ℝ)

/-- its value -/
def Sigma.val : Sigma → ℝ
  | .int k => k
  | .float x => x

/-- `shape`, an integer or a pair -/
inductive Shape where
  | int (k : Int)
  | pair (r c : Nat)

/-- img.py 68, and the check of `np.fromfunction` that the shape has integers that are not negative -/
def shapeOf (s : Sigma) : Shape → Option (Nat × Nat)
  | .pair r c => some (r, c)
  | .int _ =>
    match s with
    | .int k => if 0 ≤ 2 * k then some ((2 * k).toNat, (2 * k).toNat) else none
    | .float _ => none

/-- `np.where(x > n // 2, x - n, x)`, img.py 70, 71 -/
def wrapped (n x : Nat) : Int := if x > n / 2 then (x : Int) - n else x

/-- `gaussian`, img.py 69-72, times `amp`, img.py 74 -/
noncomputable def gauss (s : ℝ) (r c : Nat) (amp : ℝ) (x y : Nat) : ℝ :=
  Real.exp (-(((wrapped r x : ℝ) ^ 2 + (wrapped c y : ℝ) ^ 2)) / s ^ 2) * amp

/-- `np.fromfunction` -/
noncomputable def grid (s : ℝ) (r c : Nat) (amp : ℝ) : List (List ℝ) := (List.range r).map fun x => (List.range c).map fun y => gauss s r c amp x y

/-- `gaussian_beam`, img.py 65-75; `none` is an exception -/
noncomputable def gaussianBeam (s : Sigma) (shape : Shape) (amp : ℝ) (center : Int × Int) : Option (List (List ℝ)) := do
  let (r, c) ← shapeOf s shape
  recenter (r, c) (grid s.val r c amp) center

/-- `beam_gain`, img.py 77, 78; `none` is the exception of an empty array -/
noncomputable def beamGain (bm : List (List ℝ)) : Option ℝ :=
  match bm.flatten.map abs with
  | [] => none
  | x :: xs => some (xs.foldl max x)

/-! ## Lemmas: the convolution -/

/-- `exp(-2 pi i x k / (n+1))` -/
noncomputable def ker (n : Nat) (x k : Fin (n + 1)) : ℂ := Complex.exp (-(2 * Real.pi * Complex.I * ((x.val : ℂ) * k.val) / (n + 1)))

theorem ker_add {n : Nat} (x y k : Fin (n + 1)) : ker n (x + y) k = ker n x k * ker n y k := by
  unfold ker
  rw [← Complex.exp_add]
  have h : ((x + y : Fin (n + 1)).val : ℂ) = x.val + y.val - (n + 1) * (((x.val + y.val) / (n + 1) : Nat) : ℂ) := by
    rw [Fin.val_add]
    have := Nat.mod_add_div (x.val + y.val) (n + 1)
    have h2 : (((x.val + y.val) % (n + 1) : Nat) : ℂ) + ((n : ℂ) + 1) * (((x.val + y.val) / (n + 1) : Nat) : ℂ) = x.val + y.val := by exact_mod_cast this
    rw [← h2]; ring
  rw [Complex.exp_eq_exp_iff_exists_int]
  refine ⟨(((x.val + y.val) / (n + 1) : Nat) : Int) * k.val, ?_⟩
  rw [h]
  have hn := succ_ne n
  generalize (x.val + y.val) / (n + 1) = q
  push_cast
  field_simp
  ring

/-- one axis -/
theorem fft_conv {n : Nat} (a b : Row n) (k : Fin (n + 1)) : fft (fun i => ∑ x, a x * b (i - x)) k = fft a k * fft b k := by
  show ∑ i, (∑ x, a x * b (i - x)) * ker n i k = (∑ x, a x * ker n x k) * ∑ y, b y * ker n y k
  simp only [Finset.sum_mul]
  rw [Finset.sum_comm]
  apply Finset.sum_congr rfl
  intro x _
  rw [Finset.mul_sum]
  rw [← (Equiv.subRight x).sum_comp (fun y => a x * ker n x k * (b y * ker n y k))]
  apply Finset.sum_congr rfl
  intro i _
  simp only [Equiv.subRight_apply]
  have : ker n i k = ker n x k * ker n (i - x) k := by rw [← ker_add]; congr 1; abel
  rw [this]; ring

theorem fft_sum {n : Nat} {I : Type} (t : Finset I) (f : I → Row n) (k : Fin (n + 1)) : fft (fun x => ∑ i ∈ t, f i x) k = ∑ i ∈ t, fft (f i) k := by
  unfold fft
  simp only [Finset.sum_mul]
  exact Finset.sum_comm

theorem fft2_conv {n m : Nat} (a b : Mat n m) (k : Fin (n + 1)) (l : Fin (m + 1)) :
    fft2 (fun i j => ∑ x, ∑ y, a x y * b (i - x) (j - y)) k l = fft2 a k l * fft2 b k l := by
  unfold fft2
  have : (fun i => fft (fun j => ∑ x, ∑ y, a x y * b (i - x) (j - y)) l) = fun i => ∑ x, fft (a x) l * fft (b (i - x)) l := by
    funext i
    rw [fft_sum]
    apply Finset.sum_congr rfl
    intro x _
    exact fft_conv (a x) (b (i - x)) l
  rw [this]
  exact fft_conv (fun x => fft (a x) l) (fun x => fft (b x) l) k

theorem ifft2_fft2 {n m : Nat} (a : Mat n m) : ifft2 (fft2 a) = a := by
  funext k l
  unfold ifft2 fft2
  have h : ∀ x : Fin (n + 1), ifft (fun j => fft (fun z => fft (a z) j) x) l = fft (fun z => a z l) x := by
    intro x
    have e : (fun j => fft (fun z => fft (a z) j) x) = fft (fun j => fft (fun z => a z j) x) := by
      funext j
      unfold fft
      simp only [Finset.sum_mul]
      rw [Finset.sum_comm]
      apply Finset.sum_congr rfl
      intro z _
      apply Finset.sum_congr rfl
      intro w _
      ring
    rw [e, ifft_fft]
  simp only [h]
  rw [show (fun x => fft (fun z => a z l) x) = fft (fun z => a z l) from rfl, ifft_fft]

/-! ## Lemmas: the Gaussian -/

theorem grid_shape (s : ℝ) (r c : Nat) (amp : ℝ) : HasShape (grid s r c amp) r c := by
  constructor
  · simp [grid]
  · intro l hl
    simp only [grid, List.mem_map] at hl
    obtain ⟨x, _, rfl⟩ := hl
    simp

theorem grid_at {s : ℝ} {r c : Nat} {amp : ℝ} {x y : Nat} (hx : x < r) (hy : y < c) : at2 (grid s r c amp) x y = some (gauss s r c amp x y) := by
  simp [at2, grid, hx, hy]

theorem wrapped_emod {n : Nat} {d : Int} (h1 : 2 * d ≤ n) (h2 : -(n : Int) < 2 * d) : wrapped n ((d % n).toNat) = d := by
  unfold wrapped
  by_cases hd : 0 ≤ d
  · have : d % (n : Int) = d := Int.emod_eq_of_lt hd (by omega)
    rw [this, if_neg (by omega)]
    omega
  · have : d % (n : Int) = d + n := by
      rw [← Int.add_emod_right]
      exact Int.emod_eq_of_lt (by omega) (by omega)
    rw [this, if_pos (by omega)]
    omega

theorem beam_some {s : Sigma} {r c : Nat} (hr : r ≠ 0) (hc : c ≠ 0) (amp : ℝ) (center : Int × Int) :
    ∃ g, gaussianBeam s (.pair r c) amp center = some g ∧ recenter (r, c) (grid s.val r c amp) center = some g ∧ HasShape g r c := by
  obtain ⟨g, h1, h2⟩ := c22_total (grid s.val r c amp) r c (grid_shape _ _ _ _) hr hc center
  exact ⟨g, h1, h1, h2⟩

theorem flat_sum (s : ℝ) (r c : Nat) (amp : ℝ) :
    (grid s r c amp).flatten.sum = ∑ x ∈ Finset.range r, ∑ y ∈ Finset.range c, gauss s r c amp x y := by
  rw [List.sum_flatten, grid, List.map_map, Finset.sum_range, ← List.sum_ofFn, List.ofFn_eq_map]
  rw [← List.map_coe_finRange_eq_range (n := r), List.map_map]
  congr 1

theorem gauss_pos {s : ℝ} {r c : Nat} {amp : ℝ} (ha : 0 < amp) (x y : Nat) : 0 < gauss s r c amp x y := mul_pos (Real.exp_pos _) ha

theorem gauss_zero (s : ℝ) (r c : Nat) (amp : ℝ) : gauss s r c amp 0 0 = amp := by simp [gauss, wrapped]

theorem foldl_max_spec : ∀ (xs : List ℝ) (x : ℝ), x ≤ xs.foldl max x ∧ (∀ y ∈ xs, y ≤ xs.foldl max x) ∧ (xs.foldl max x = x ∨ xs.foldl max x ∈ xs)
  | [], x => by simp
  | y :: ys, x => by
    obtain ⟨h1, h2, h3⟩ := foldl_max_spec ys (max x y)
    rw [List.foldl_cons]
    refine ⟨le_trans (le_max_left _ _) h1, ?_, ?_⟩
    · intro z hz
      rcases List.mem_cons.1 hz with rfl | hz
      · exact le_trans (le_max_right _ _) h1
      · exact h2 z hz
    · rcases h3 with h3 | h3
      · rcases max_choice x y with h | h
        · left; rw [h3, h]
        · right; rw [h3, h]; simp
      · right; exact List.mem_cons_of_mem _ h3

/-! ## C119 -/

/-- C119: `convolve2d` is the circular convolution; indices are taken modulo the shape (the subtraction of `Fin`). -/
theorem c119_convolve {n m : Nat} (a b : Mat n m) (i : Fin (n + 1)) (j : Fin (m + 1)) :
    convolve2d a b i j = ∑ x, ∑ y, a x y * b (i - x) (j - y) := by
  unfold convolve2d
  have : (fun k l => fft2 a k l * fft2 b k l) = fft2 (fun i j => ∑ x, ∑ y, a x y * b (i - x) (j - y)) := by
    funext k l
    exact (fft2_conv a b k l).symm
  rw [this, ifft2_fft2]

/-- C119: `beam_gain` is the largest absolute value. -/
theorem c119_gain {bm : List (List ℝ)} (h : ∃ row ∈ bm, row ≠ []) :
    ∃ g, beamGain bm = some g ∧ (∀ row ∈ bm, ∀ x ∈ row, |x| ≤ g) ∧ ∃ row ∈ bm, ∃ x ∈ row, |x| = g := by
  have hne : bm.flatten.map abs ≠ [] := by
    obtain ⟨row, h1, h2⟩ := h
    intro hc
    rw [List.map_eq_nil_iff, List.flatten_eq_nil_iff] at hc
    exact h2 (hc row h1)
  cases hl : bm.flatten.map abs with
  | nil => exact absurd hl hne
  | cons x xs =>
    obtain ⟨h1, h2, h3⟩ := foldl_max_spec xs x
    have hm : ∀ y ∈ x :: xs, y ≤ xs.foldl max x := by
      intro y hy
      rcases List.mem_cons.1 hy with rfl | hy
      · exact h1
      · exact h2 y hy
    refine ⟨xs.foldl max x, by unfold beamGain; rw [hl], ?_, ?_⟩
    · intro row hr z hz
      apply hm
      rw [← hl]
      exact List.mem_map.2 ⟨z, List.mem_flatten.2 ⟨row, hr, hz⟩, rfl⟩
    · have : xs.foldl max x ∈ bm.flatten.map abs := by
        rw [hl]
        rcases h3 with h3 | h3
        · rw [h3]; simp
        · exact List.mem_cons_of_mem _ h3
      obtain ⟨z, hz, hz'⟩ := List.mem_map.1 this
      obtain ⟨row, hr, hz⟩ := List.mem_flatten.1 hz
      exact ⟨row, hr, z, hz, hz'⟩

/-- C119: `gaussian_beam` of a shape, around the pixel `-center`: `amp` there, down by `1/e` at distance `sigma`. -/
theorem c119_gaussian_partial {s : Sigma} {r c : Nat} (hr : r ≠ 0) (hc : c ≠ 0) (amp : ℝ) (center : Int × Int) :
    ∃ g, gaussianBeam s (.pair r c) amp center = some g ∧ HasShape g r c ∧
      ∀ dx dy : Int, 2 * dx ≤ r → -(r : Int) < 2 * dx → 2 * dy ≤ c → -(c : Int) < 2 * dy →
        at2 g ((dx - center.1) % r).toNat ((dy - center.2) % c).toNat = some (amp * Real.exp (-((dx : ℝ) ^ 2 + (dy : ℝ) ^ 2) / s.val ^ 2)) := by
  obtain ⟨g, h1, h2, h3⟩ := beam_some (s := s) hr hc amp center
  refine ⟨g, h1, h3, ?_⟩
  intro dx dy a1 a2 a3 a4
  have hx : (dx % (r : Int)).toNat < r := emod_lt_nat hr
  have hy : (dy % (c : Int)).toNat < c := emod_lt_nat hc
  have hm := c22_moves (grid s.val r c amp) g r c (grid_shape _ _ _ _) center h2 _ _ hx hy
  have e1 : (((dx % (r : Int)).toNat : Int) - center.1) % r = (dx - center.1) % r := by
    rw [Int.toNat_of_nonneg (Int.emod_nonneg _ (by exact_mod_cast hr)), Int.emod_sub_emod]
  have e2 : (((dy % (c : Int)).toNat : Int) - center.2) % c = (dy - center.2) % c := by
    rw [Int.toNat_of_nonneg (Int.emod_nonneg _ (by exact_mod_cast hc)), Int.emod_sub_emod]
  rw [e1, e2, grid_at hx hy] at hm
  rw [hm]
  unfold gauss
  rw [wrapped_emod a1 a2, wrapped_emod a3 a4, mul_comm]

/-- C119: the pixel at `center` has not the value `amp`, unless `center` is its own negative in the shape. -/
theorem c119_center_violated {s : Sigma} {r c : Nat} (hr : r ≠ 0) (hc : c ≠ 0) {amp : ℝ} (ha : amp ≠ 0) (hs : s.val ≠ 0) {center : Int × Int}
    (hne : ¬ ((r : Int) ∣ 2 * center.1 ∧ (c : Int) ∣ 2 * center.2)) :
    ∃ g v, gaussianBeam s (.pair r c) amp center = some g ∧ at2 g (center.1 % r).toNat (center.2 % c).toNat = some v ∧ v ≠ amp ∧
      at2 g ((-center.1) % r).toNat ((-center.2) % c).toNat = some amp := by
  obtain ⟨g, h1, h2, h3⟩ := c119_gaussian_partial (s := s) hr hc amp center
  -- the representative of `2 c` modulo `n` nearest to zero
  have rep : ∀ (n : Nat) (z : Int), n ≠ 0 → ∃ d : Int, 2 * d ≤ n ∧ -(n : Int) < 2 * d ∧ (d - z) % n = z % n ∧ (d = 0 → (n : Int) ∣ 2 * z) := by
    intro n z hn
    have hp : (0 : Int) < n := by omega
    have b1 := Int.emod_nonneg (2 * z) (ne_of_gt hp)
    have b2 := Int.emod_lt_of_pos (2 * z) hp
    by_cases hh : 2 * ((2 * z) % n) ≤ n
    · refine ⟨(2 * z) % n, hh, by omega, ?_, fun h => Int.dvd_of_emod_eq_zero h⟩
      rw [Int.emod_sub_emod]; congr 1; ring
    · refine ⟨(2 * z) % n - n, by omega, by omega, ?_, fun h => by omega⟩
      have : (2 * z) % (n : Int) - n - z = ((2 * z) % (n : Int) - z) + n * (-1) := by ring
      rw [this, Int.add_mul_emod_self_left, Int.emod_sub_emod]
      congr 1; ring
  obtain ⟨dx, x1, x2, x3, x4⟩ := rep r center.1 hr
  obtain ⟨dy, y1, y2, y3, y4⟩ := rep c center.2 hc
  have hv := h3 dx dy x1 x2 y1 y2
  rw [x3, y3] at hv
  have h0 := h3 0 0 (by omega) (by omega) (by omega) (by omega)
  refine ⟨g, _, h1, hv, ?_, ?_⟩
  · intro he
    have : Real.exp (-((dx : ℝ) ^ 2 + (dy : ℝ) ^ 2) / s.val ^ 2) = 1 := mul_left_cancel₀ ha (by rw [he, mul_one])
    rw [Real.exp_eq_one_iff, div_eq_zero_iff] at this
    rcases this with h | h
    · have hx : (dx : ℝ) ^ 2 = 0 := by nlinarith [sq_nonneg (dx : ℝ), sq_nonneg (dy : ℝ)]
      have hy : (dy : ℝ) ^ 2 = 0 := by nlinarith [sq_nonneg (dx : ℝ), sq_nonneg (dy : ℝ)]
      have hx : dx = 0 := by exact_mod_cast pow_eq_zero_iff (two_ne_zero) |>.1 hx
      have hy : dy = 0 := by exact_mod_cast pow_eq_zero_iff (two_ne_zero) |>.1 hy
      exact hne ⟨x4 hx, y4 hy⟩
    · exact hs (pow_eq_zero_iff (two_ne_zero) |>.1 h)
  · simpa using h0

/-- C119: the area is not `amp`: any beam of more than one pixel has more. -/
theorem c119_area_violated {s : Sigma} {r c : Nat} (hrc : 1 < r * c) {amp : ℝ} (ha : 0 < amp) (center : Int × Int) :
    ∃ g, gaussianBeam s (.pair r c) amp center = some g ∧ amp < g.flatten.sum := by
  have hr : r ≠ 0 := by rintro rfl; simp at hrc
  have hc : c ≠ 0 := by rintro rfl; simp at hrc
  obtain ⟨g, h1, h2, _⟩ := beam_some (s := s) hr hc amp center
  refine ⟨g, h1, ?_⟩
  rw [(c22_permutation _ _ _ _ h2).sum_eq, flat_sum, ← Finset.sum_product']
  have hm : ((0, 0) : Nat × Nat) ∈ Finset.range r ×ˢ Finset.range c := by simp; omega
  obtain ⟨q, hq, hq0⟩ : ∃ q ∈ Finset.range r ×ˢ Finset.range c, q ≠ (0, 0) := by
    by_contra hcon
    push Not at hcon
    have hsub : Finset.range r ×ˢ Finset.range c ⊆ {(0, 0)} := by
      intro q hq
      rw [hcon q hq]; simp
    have := Finset.card_le_card hsub
    simp at this
    omega
  have hlt : gauss s.val r c amp 0 0 + gauss s.val r c amp q.1 q.2 ≤ ∑ p ∈ Finset.range r ×ˢ Finset.range c, gauss s.val r c amp p.1 p.2 := by
    rw [← Finset.sum_pair (f := fun p : Nat × Nat => gauss s.val r c amp p.1 p.2) (a := (0, 0)) (b := q) (Ne.symm hq0)]
    apply Finset.sum_le_sum_of_subset_of_nonneg
    · intro z hz
      rcases Finset.mem_insert.1 hz with rfl | hz
      · exact hm
      · rw [Finset.mem_singleton.1 hz]; exact hq
    · intro i _ _
      exact le_of_lt (gauss_pos ha _ _)
  have hp : 0 < gauss s.val r c amp q.1 q.2 := gauss_pos ha _ _
  rw [gauss_zero] at hlt
  linarith

/-- C119: `beam_gain` of a Gaussian beam is the absolute value of `amp`. -/
theorem c119_peak {s : Sigma} {r c : Nat} (hr : r ≠ 0) (hc : c ≠ 0) (amp : ℝ) (center : Int × Int) :
    (gaussianBeam s (.pair r c) amp center).bind beamGain = some |amp| := by
  obtain ⟨g, h1, h2, h3⟩ := beam_some (s := s) hr hc amp center
  rw [h1, Option.bind_some]
  have hperm := c22_permutation _ _ _ _ h2
  have hmem : ∀ v, v ∈ g.flatten ↔ ∃ x < r, ∃ y < c, gauss s.val r c amp x y = v := by
    intro v
    rw [hperm.mem_iff]
    simp [grid, List.mem_flatten]
  obtain ⟨b, hb, hle, row, hrow, x, hx, hxb⟩ := c119_gain (bm := g) (by
    have : amp ∈ g.flatten := (hmem amp).2 ⟨0, by omega, 0, by omega, gauss_zero _ _ _ _⟩
    obtain ⟨row, hr, hm⟩ := List.mem_flatten.1 this
    exact ⟨row, hr, List.ne_nil_of_mem hm⟩)
  rw [hb]
  congr 1
  apply le_antisymm
  · rw [← hxb]
    obtain ⟨i, _, j, _, rfl⟩ := (hmem x).1 (List.mem_flatten.2 ⟨row, hrow, hx⟩)
    unfold gauss
    rw [abs_mul, abs_of_pos (Real.exp_pos _)]
    apply mul_le_of_le_one_left (abs_nonneg _)
    rw [Real.exp_le_one_iff]
    apply div_nonpos_of_nonpos_of_nonneg
    · nlinarith [sq_nonneg (wrapped r i : ℝ), sq_nonneg (wrapped c j : ℝ)]
    · exact sq_nonneg _
  · have : amp ∈ g.flatten := (hmem amp).2 ⟨0, by omega, 0, by omega, gauss_zero _ _ _ _⟩
    obtain ⟨row, hr, hm⟩ := List.mem_flatten.1 this
    exact hle row hr amp hm

/-- C119: an integer `shape` is not used: whatever it is the beam is `2 sigma` wide, and without a pair a float `sigma` raises. -/
theorem c119_shape_violated (amp : ℝ) (center : Int × Int) :
    (∀ (s : Sigma) (a b : Int), gaussianBeam s (.int a) amp center = gaussianBeam s (.int b) amp center) ∧
    (∀ (k : Nat) (a : Int), 0 < k → ∃ g, gaussianBeam (.int k) (.int a) amp center = some g ∧ HasShape g (2 * k) (2 * k)) ∧
    ∀ (x : ℝ) (a : Int), gaussianBeam (.float x) (.int a) amp center = none := by
  refine ⟨fun s a b => rfl, ?_, fun x a => rfl⟩
  intro k a hk
  obtain ⟨g, h1, _, h3⟩ := beam_some (s := .int k) (r := 2 * k) (c := 2 * k) (by omega) (by omega) amp center
  refine ⟨g, ?_, h3⟩
  rw [← h1]
  have : shapeOf (.int k) (.int a) = shapeOf (.int k) (.pair (2 * k) (2 * k)) := by
    show (if 0 ≤ 2 * (k : Int) then some ((2 * (k : Int)).toNat, (2 * (k : Int)).toNat) else none) = some (2 * k, 2 * k)
    rw [if_pos (by omega)]
    congr
  unfold gaussianBeam
  rw [this]

/-! ## Cases -/

example : convolve2d (n := 1) (m := 1) (fun _ _ => 1) (fun _ _ => 1) 0 0 = 4 := by
  rw [c119_convolve]; norm_num
example := c119_gain (bm := [[1, -3], [2, 0]]) ⟨[1, -3], by simp, by simp⟩
example := c119_gaussian_partial (s := .float 2) (r := 5) (c := 4) (by decide) (by decide) 3 (1, -1)
example := c119_center_violated (s := .float 2) (r := 5) (c := 4) (by decide) (by decide) (amp := 3) (by norm_num) (by show (2 : ℝ) ≠ 0; norm_num) (center := (1, 0)) (by decide)
example := c119_area_violated (s := .float 2) (r := 5) (c := 4) (by decide) (amp := 3) (by norm_num) (1, 0)
example := c119_peak (s := .float 2) (r := 5) (c := 4) (by decide) (by decide) (-3) (1, 0)
example := c119_shape_violated 1 (0, 0)

end Verif.Img.GaussBeam
