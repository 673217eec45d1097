import Verif.Img.ClImg
import Mathlib.Data.List.Sort
/-!
# C128: the restoring beam of cl_img.py

Model of `/repo/aipy/twodgauss.py` 9-55 (`moments`, `twodgaussian`) and of `/repo/scripts/cl_img.py` 126-144: a Gaussian is made from the middle
of the dirty beam and the clean image is convolved with it.  Images are square, with at least 30 pixels a side, and exact.  The indices
`(DIM-30)/2`, `(DIM+30)/2` are floats, which numpy cut to integers up to version 1.11 (modelled) and rejects since.
-/
set_option linter.unusedSectionVars false
namespace Verif.Img.Restore
open Verif.Img.GaussBeam Verif.Img.ClImg Verif.Dsp

/-! ## Model -/

/-- a matrix of real numbers, neither axis empty -/
abbrev Dat (R C : Nat) := Fin (R + 1) → Fin (C + 1) → ℝ

open Classical in
/-- `np.argmax`: the first of the largest -/
noncomputable def argmax {k : Nat} (f : Fin (k + 1) → ℝ) : Fin (k + 1) :=
  (List.finRange (k + 1)).foldl (fun b i => if f b < f i then i else b) 0

open Classical in
/-- `np.median` of a list that is not empty -/
noncomputable def median (l : List ℝ) : ℝ :=
  let s := l.insertionSort (· ≤ ·)
  if s.length % 2 = 1 then s.getD (s.length / 2) 0 else (s.getD (s.length / 2 - 1) 0 + s.getD (s.length / 2) 0) / 2

/-- the list `[height, amplitude, x, y, width_x, width_y]` -/
structure Pars where
  height : ℝ
  amp : ℝ
  x : ℝ
  y : ℝ
  wx : ℝ
  wy : ℝ

/-- `data.max()` -/
noncomputable def maxOf {R C : Nat} (d : Dat R C) : ℝ :=
  Finset.univ.sup' ⟨((0 : Fin (R + 1)), (0 : Fin (C + 1))), Finset.mem_univ _⟩ fun p : Fin (R + 1) × Fin (C + 1) => d p.1 p.2

/-- `y` of `moments`, twodgauss.py 12 -/
noncomputable def rowOf {R C : Nat} (d : Dat R C) : Fin (R + 1) := argmax fun r => (∑ c : Fin (C + 1), ((c : Nat) : ℝ) * |d r c|) / ∑ r, ∑ c, |d r c|

/-- `x` of `moments`, twodgauss.py 13 -/
noncomputable def colOf {R C : Nat} (d : Dat R C) : Fin (C + 1) := argmax fun c => (∑ r : Fin (R + 1), ((r : Nat) : ℝ) * |d r c|) / ∑ r, ∑ c, |d r c|

open Classical in
/-- `moments`, twodgauss.py 9-27; `none` is the ValueError raised when a width is not a number -/
noncomputable def moments {R C : Nat} (d : Dat R C) : Option Pars :=
  let y := rowOf d
  let x := colOf d
  if (∑ c, |d y c|) = 0 ∨ (∑ r, |d r x|) = 0 then none
  else
    let wx := Real.sqrt ((∑ c : Fin (C + 1), |(((c : Nat) : ℝ) - ((y : Nat) : ℝ)) * d y c|) / ∑ c, |d y c|)
    let wy := Real.sqrt ((∑ r : Fin (R + 1), |(((r : Nat) : ℝ) - ((x : Nat) : ℝ)) * d r x|) / ∑ r, |d r x|)
    let height := median ((List.finRange (R + 1) ×ˢ List.finRange (C + 1)).map fun q => d q.1 q.2)
    some ⟨height, maxOf d - height, ((x : Nat) : ℝ), ((y : Nat) : ℝ), wx, wy⟩

/-- `twodgaussian(inpars, shape)` at row `r` and column `c`, twodgauss.py 29-55: `center_y, center_x` take the list's `x, y`, and `np.indices`
gives the row first -/
noncomputable def twodgaussian (p : Pars) (r c : Nat) : ℝ := p.amp * Real.exp (-(((p.y - r) / p.wx) ^ 2 + ((p.x - c) / p.wy) ^ 2) / 2)

/-- an index of an axis of `n + 1` pixels -/
def idx (n i : Nat) : Fin (n + 1) := ⟨i % (n + 1), Nat.mod_lt _ (Nat.succ_pos n)⟩

/-- `np.fft.fftshift` -/
def fftshift {n : Nat} (a : Im n) : Im n := fun i j => a (i - idx n ((n + 1) / 2)) (j - idx n ((n + 1) / 2))

/-- `np.fft.fftshift` of complex numbers -/
def fftshiftC {n : Nat} (a : Fin (n + 1) → Fin (n + 1) → ℂ) : Fin (n + 1) → Fin (n + 1) → ℂ := fun i j => a (i - idx n ((n + 1) / 2)) (j - idx n ((n + 1) / 2))

/-- `dbm_fit`, cl_img.py 127-130 -/
def dbmFit {n : Nat} (dbm : Im n) : Dat 29 29 := fun r c => fftshift dbm (idx n ((n + 1 - 30) / 2 + r)) (idx n ((n + 1 - 30) / 2 + c))

/-- `cbm` before it is divided by its sum, cl_img.py 136, 137 (`np.ceil((DIM+30)/2)`; recenter, img.py 47-59) -/
noncomputable def cbm0 {n : Nat} (p : Pars) : Im n := fun i j =>
  twodgaussian p (i + idx n ((n + 1 + 30 + 1) / 2) : Fin (n + 1)) (j + idx n ((n + 1 + 30 + 1) / 2) : Fin (n + 1))

/-- `cbm`, cl_img.py 138 -/
noncomputable def cbm {n : Nat} (p : Pars) : Im n := fun i j => cbm0 p i j / ∑ i : Fin (n + 1), ∑ j : Fin (n + 1), cbm0 p i j

open Classical in
/-- `cimc`, cl_img.py 136-140; `none` is the exception of `moments`, or the image of NaNs that 0/0 leaves when a width or the amplitude is 0 -/
noncomputable def cimc {n : Nat} (cim dbm : Im n) : Option (Im n) :=
  match moments (dbmFit dbm) with
  | none => none
  | some p =>
    if p.amp = 0 ∨ p.wx = 0 ∨ p.wy = 0 then none
    else some fun i j => (fftshiftC (convolve2d (toC cim) (toC (cbm p))) i j).re

/-- `bim`, cl_img.py 131-144, for the deconvolver `none` (131-133) and the others (134-144); `rim` is `info['res']` -/
noncomputable def bim {n : Nat} (deconvolved : Bool) (gain : ℝ) (cim rim dbm : Im n) : Option (Im n) :=
  if deconvolved then (cimc cim dbm).map fun c i j => rim i j / gain + c i j
  else some fun i j => rim i j / gain + cim i j

/-! ## Specification -/

/-- how far the pixel `d` of an axis of `N` pixels, counted around, is from 0, when the last 15 are before 0 -/
def dist (N d : Nat) : Int := if d + 15 < N then d else (d : Int) - N

/-- the first pixel is the brightest and the magnitudes are a product of one profile along each axis -/
def Beam {n : Nat} (d : Im n) : Prop :=
  ∃ g h : Fin (n + 1) → ℝ, (∀ i j, |d i j| = g i * h j) ∧ (∀ i, 0 ≤ g i) ∧ (∀ j, 0 ≤ h j) ∧ (∀ i, i ≠ 0 → g i < g 0) ∧ ∀ j, j ≠ 0 → h j < h 0

/-- a Gaussian of the widths `a` along the first axis and `b` along the second, around the pixel (0, 0) of an image of `n + 1` pixels a side -/
noncomputable def blur (n : Nat) (a b : ℝ) : Im n := fun d e => Real.exp (-(((dist (n + 1) d : ℝ) / a) ^ 2 + ((dist (n + 1) e : ℝ) / b) ^ 2) / 2)

/-- the mean distance of the magnitudes from the 16th pixel of a cut of 30 pixels -/
noncomputable def spread (f : Fin 30 → ℝ) : ℝ := (∑ k : Fin 30, |((k : Nat) : ℝ) - 15| * |f k|) / ∑ k, |f k|

/-- the data have one largest row and one largest column, and are a product of the two -/
structure Peaked {R C : Nat} (d : Dat R C) (r0 : Fin (R + 1)) (c0 : Fin (C + 1)) : Prop where
  product : ∃ (g : Fin (R + 1) → ℝ) (h : Fin (C + 1) → ℝ), (∀ r c, |d r c| = g r * h c) ∧ (∀ r, 0 ≤ g r) ∧ (∀ c, 0 ≤ h c) ∧
    (∀ r, r ≠ r0 → g r < g r0) ∧ (∀ c, c ≠ c0 → h c < h c0) ∧ (∃ r : Fin (R + 1), 0 < (r : Nat) ∧ 0 < g r) ∧ ∃ c : Fin (C + 1), 0 < (c : Nat) ∧ 0 < h c

/-! ## Lemmas -/

theorem argmax_fold {k : Nat} (f : Fin (k + 1) → ℝ) (m : Fin (k + 1)) (hm : ∀ i, i ≠ m → f i < f m) : ∀ (l : List (Fin (k + 1))) (b : Fin (k + 1)),
    (m ∈ l ∨ b = m) → l.foldl (fun b i => if f b < f i then i else b) b = m := by
  intro l
  induction l with
  | nil =>
    intro b h
    rcases h with h | h
    · cases h
    · exact h
  | cons i l ih =>
    intro b h
    rw [List.foldl_cons]
    apply ih
    by_cases hb : b = m
    · right
      subst hb
      by_cases hi : i = b
      · subst hi; simp
      · rw [if_neg (not_lt.2 (hm i hi).le)]
    · rcases h with h | h
      · rcases List.mem_cons.1 h with rfl | h
        · right
          rw [if_pos (hm b hb)]
        · exact Or.inl h
      · exact absurd h hb

theorem argmax_eq {k : Nat} (f : Fin (k + 1) → ℝ) (m : Fin (k + 1)) (hm : ∀ i, i ≠ m → f i < f m) : argmax f = m := by
  classical
  unfold argmax
  convert argmax_fold f m hm (List.finRange (k + 1)) 0 (Or.inl (List.mem_finRange m)) using 3

theorem Peaked.total {R C : Nat} {d : Dat R C} {r0 : Fin (R + 1)} {c0 : Fin (C + 1)} (h : Peaked d r0 c0) : 0 < ∑ r, ∑ c, |d r c| := by
  obtain ⟨g, e, h1, h2, h3, h4, h5, ⟨r, hr, hgr⟩, ⟨c, hc, hec⟩⟩ := h.product
  have : 0 < |d r c| := by rw [h1]; exact mul_pos hgr hec
  apply Finset.sum_pos' (fun _ _ => Finset.sum_nonneg fun _ _ => abs_nonneg _) ⟨r, Finset.mem_univ _, ?_⟩
  exact Finset.sum_pos' (fun _ _ => abs_nonneg _) ⟨c, Finset.mem_univ _, this⟩

theorem rowOf_peaked {R C : Nat} {d : Dat R C} {r0 : Fin (R + 1)} {c0 : Fin (C + 1)} (h : Peaked d r0 c0) : rowOf d = r0 := by
  have ht := h.total
  obtain ⟨g, e, h1, h2, h3, h4, h5, ⟨r, hr, hgr⟩, ⟨c, hc, hec⟩⟩ := h.product
  unfold rowOf
  apply argmax_eq
  intro i hi
  apply div_lt_div_of_pos_right _ ht
  have key : ∀ i, (∑ c : Fin (C + 1), ((c : Nat) : ℝ) * |d i c|) = g i * ∑ c : Fin (C + 1), ((c : Nat) : ℝ) * e c := by
    intro i
    rw [Finset.mul_sum]
    apply Finset.sum_congr rfl
    intro c _
    rw [h1]; ring
  rw [key, key]
  apply mul_lt_mul_of_pos_right (h4 i hi)
  exact Finset.sum_pos' (fun c _ => mul_nonneg (Nat.cast_nonneg _) (h3 c)) ⟨c, Finset.mem_univ _, mul_pos (by exact_mod_cast hc) hec⟩

theorem colOf_peaked {R C : Nat} {d : Dat R C} {r0 : Fin (R + 1)} {c0 : Fin (C + 1)} (h : Peaked d r0 c0) : colOf d = c0 := by
  have ht := h.total
  obtain ⟨g, e, h1, h2, h3, h4, h5, ⟨r, hr, hgr⟩, ⟨c, hc, hec⟩⟩ := h.product
  unfold colOf
  apply argmax_eq
  intro i hi
  apply div_lt_div_of_pos_right _ ht
  have key : ∀ i, (∑ r : Fin (R + 1), ((r : Nat) : ℝ) * |d r i|) = e i * ∑ r : Fin (R + 1), ((r : Nat) : ℝ) * g r := by
    intro i
    rw [Finset.mul_sum]
    apply Finset.sum_congr rfl
    intro r _
    rw [h1]; ring
  rw [key, key]
  apply mul_lt_mul_of_pos_right (h5 i hi)
  exact Finset.sum_pos' (fun r _ => mul_nonneg (Nat.cast_nonneg _) (h2 r)) ⟨r, Finset.mem_univ _, mul_pos (by exact_mod_cast hr) hgr⟩

theorem conv_real {n : Nat} (a b : Im n) (i j : Fin (n + 1)) : (convolve2d (toC a) (toC b) i j).re = ∑ x, ∑ y, a x y * b (i - x) (j - y) := by
  rw [c119_convolve]
  simp only [Complex.re_sum, toC]
  apply Finset.sum_congr rfl
  intro x _
  apply Finset.sum_congr rfl
  intro y _
  rw [Complex.re_ofReal_mul, Complex.ofReal_re]

theorem cimc_some {n : Nat} {cim dbm : Im n} {c : Im n} (h : cimc cim dbm = some c) :
    ∃ p, moments (dbmFit dbm) = some p ∧ p.amp ≠ 0 ∧ p.wx ≠ 0 ∧ p.wy ≠ 0 ∧
      ∀ i j, c i j = ∑ x, ∑ y, cim x y * cbm p (i - idx n ((n + 1) / 2) - x) (j - idx n ((n + 1) / 2) - y) := by
  unfold cimc at h
  cases hp : moments (dbmFit dbm) with
  | none => rw [hp] at h; cases h
  | some p =>
    rw [hp] at h
    simp only at h
    by_cases h0 : p.amp = 0 ∨ p.wx = 0 ∨ p.wy = 0
    · rw [if_pos h0] at h; cases h
    · rw [if_neg h0] at h
      push Not at h0
      refine ⟨p, rfl, h0.1, h0.2.1, h0.2.2, fun i j => ?_⟩
      rw [← Option.some.inj h]
      exact conv_real _ _ _ _

theorem idx_val {n i : Nat} : ((idx n i : Fin (n + 1)) : Nat) = i % (n + 1) := rfl

theorem idx_add {n : Nat} (a b : Nat) : idx n a + idx n b = idx n (a + b) := by
  apply Fin.ext
  simp [idx, Fin.val_add]

theorem idx_self {n : Nat} : idx n (n + 1) = 0 := by
  apply Fin.ext
  simp [idx]

theorem idx_of_lt {n i : Nat} (h : i < n + 1) : ((idx n i : Fin (n + 1)) : Nat) = i := Nat.mod_eq_of_lt h

/-- the window's pixel `k` of a shifted axis -/
theorem win_eq {n : Nat} (hn : 30 ≤ n + 1) (k : Nat) : idx n ((n + 1 - 30) / 2 + k) - idx n ((n + 1) / 2) = idx n k - idx n 15 := by
  rw [sub_eq_sub_iff_add_eq_add, idx_add, idx_add]
  congr 1
  omega

theorem dbmFit_eq {n : Nat} (hn : 30 ≤ n + 1) (d : Im n) (r c : Fin 30) : dbmFit d r c = d (idx n r - idx n 15) (idx n c - idx n 15) := by
  unfold dbmFit fftshift
  rw [win_eq hn, win_eq hn]

theorem off_ne {n : Nat} (hn : 30 ≤ n + 1) {r : Fin 30} (h : r ≠ 15) : idx n r - idx n 15 ≠ 0 := by
  intro h0
  apply h
  rw [sub_eq_zero] at h0
  have := congrArg Fin.val h0
  rw [idx_of_lt (by omega), idx_of_lt (by omega)] at this
  exact Fin.ext this

theorem beam_peaked {n : Nat} (hn : 30 ≤ n + 1) {d : Im n} (h : Beam d) : Peaked (dbmFit d) (15 : Fin 30) (15 : Fin 30) := by
  obtain ⟨g, e, h1, h2, h3, h4, h5⟩ := h
  have hne : (idx n 1 : Fin (n + 1)) ≠ 0 := by
    intro h0
    have := congrArg Fin.val h0
    rw [idx_of_lt (by omega)] at this
    simp at this
  refine ⟨fun r => g (idx n r - idx n 15), fun c => e (idx n c - idx n 15), ?_, fun r => h2 _, fun c => h3 _, ?_, ?_, ⟨15, by decide, ?_⟩, ⟨15, by decide, ?_⟩⟩
  · intro r c
    rw [dbmFit_eq hn]
    exact h1 _ _
  · intro r hr
    have : idx n ((15 : Fin 30) : Nat) - idx n 15 = 0 := sub_self _
    simp only [this]
    exact h4 _ (off_ne hn hr)
  · intro r hr
    have : idx n ((15 : Fin 30) : Nat) - idx n 15 = 0 := sub_self _
    simp only [this]
    exact h5 _ (off_ne hn hr)
  · have : idx n ((15 : Fin 30) : Nat) - idx n 15 = 0 := sub_self _
    simp only [this]
    exact lt_of_le_of_lt (h2 _) (h4 _ hne)
  · have : idx n ((15 : Fin 30) : Nat) - idx n 15 = 0 := sub_self _
    simp only [this]
    exact lt_of_le_of_lt (h3 _) (h5 _ hne)

theorem moments_peaked {d : Dat 29 29} {p : Pars} (h : Peaked d (15 : Fin 30) (15 : Fin 30)) (hp : moments d = some p) :
    p.x = 15 ∧ p.y = 15 ∧ p.wx = Real.sqrt (spread fun c => d 15 c) ∧ p.wy = Real.sqrt (spread fun r => d r 15) := by
  unfold moments at hp
  rw [rowOf_peaked h, colOf_peaked h] at hp
  simp only at hp
  by_cases h0 : (∑ c, |d 15 c|) = 0 ∨ (∑ r, |d r 15|) = 0
  · rw [if_pos h0] at hp; cases hp
  · rw [if_neg h0] at hp
    rw [← Option.some.inj hp]
    refine ⟨by norm_num, by norm_num, ?_, ?_⟩ <;> simp [spread, abs_mul]

/-- the sum over the image does not change when it is moved -/
theorem sum_moved {n : Nat} (f : Im n) (a b : Fin (n + 1)) : (∑ i, ∑ j, f (i + a) (j + b)) = ∑ i, ∑ j, f i j := by
  rw [← Equiv.sum_comp (Equiv.addRight a) fun i => ∑ j, f i j]
  apply Finset.sum_congr rfl
  intro i _
  exact Equiv.sum_comp (Equiv.addRight b) fun j => f (i + a) j

/-- how far everything is moved: not at all if the number of pixels is even, one pixel back if it is odd -/
def slip (n : Nat) : Fin (n + 1) := idx n ((n + 1) % 2)

theorem place {n : Nat} (i x : Fin (n + 1)) : i - idx n ((n + 1) / 2) - x + idx n ((n + 1 + 30 + 1) / 2) = i - x + slip n + idx n 15 := by
  have : idx n ((n + 1 + 30 + 1) / 2) = idx n ((n + 1) / 2) + (slip n + idx n 15) := by
    unfold slip
    rw [idx_add, idx_add]
    congr 1
    omega
  rw [this]
  abel

theorem gauss_at {n : Nat} (hn : 30 ≤ n + 1) (p : Pars) (hx : p.x = 15) (hy : p.y = 15) (d e : Fin (n + 1)) :
    twodgaussian p (d + idx n 15 : Fin (n + 1)) (e + idx n 15 : Fin (n + 1)) = p.amp * blur n p.wx p.wy d e := by
  have key : ∀ d : Fin (n + 1), ∀ w : ℝ, ((15 - (((d + idx n 15 : Fin (n + 1)) : Nat) : ℝ)) / w) ^ 2 = ((dist (n + 1) d : ℝ) / w) ^ 2 := by
    intro d w
    have : (15 - (((d + idx n 15 : Fin (n + 1)) : Nat) : ℝ)) = -(dist (n + 1) d : ℝ) := by
      rw [Fin.val_add, idx_of_lt (by omega : 15 < n + 1)]
      unfold dist
      by_cases h : (d : Nat) + 15 < n + 1
      · rw [if_pos h, Nat.mod_eq_of_lt h]
        push_cast
        ring
      · rw [if_neg h]
        have : ((d : Nat) + 15) % (n + 1) = d + 15 - (n + 1) := by
          rw [Nat.mod_eq_sub_mod (by omega), Nat.mod_eq_of_lt (by omega)]
        rw [this, Nat.cast_sub (by omega)]
        push_cast
        ring
    rw [this, neg_div, neg_sq]
  unfold twodgaussian blur
  rw [hx, hy, key, key]

theorem cbm_at {n : Nat} (hn : 30 ≤ n + 1) (p : Pars) (ha : p.amp ≠ 0) (hx : p.x = 15) (hy : p.y = 15) (i j x y : Fin (n + 1)) :
    cbm p (i - idx n ((n + 1) / 2) - x) (j - idx n ((n + 1) / 2) - y) =
      blur n p.wx p.wy (i - x + slip n) (j - y + slip n) / ∑ d, ∑ e, blur n p.wx p.wy d e := by
  unfold cbm
  have hs : (∑ i : Fin (n + 1), ∑ j : Fin (n + 1), cbm0 p i j) = p.amp * ∑ d, ∑ e, blur n p.wx p.wy d e := by
    unfold cbm0
    rw [sum_moved (fun a b : Fin (n + 1) => twodgaussian p a b), ← sum_moved (fun a b : Fin (n + 1) => twodgaussian p a b) (idx n 15) (idx n 15)]
    simp only [gauss_at hn p hx hy, Finset.mul_sum]
  rw [hs]
  unfold cbm0
  rw [place, place, gauss_at hn p hx hy, mul_div_mul_left _ _ ha]

theorem blur_pos {n : Nat} (a b : ℝ) (d e : Fin (n + 1)) : 0 < blur n a b d e := Real.exp_pos _

theorem blur_sum_pos {n : Nat} (a b : ℝ) : 0 < ∑ d, ∑ e, blur n a b d e :=
  Finset.sum_pos (fun d _ => Finset.sum_pos (fun e _ => blur_pos a b d e) ⟨0, Finset.mem_univ _⟩) ⟨0, Finset.mem_univ _⟩

theorem dist_zero {n : Nat} (hn : 30 ≤ n + 1) : dist (n + 1) ((0 : Fin (n + 1)) : Nat) = 0 := by
  unfold dist
  rw [if_pos (by simp; omega)]
  rfl

theorem dist_ne {n : Nat} {d : Fin (n + 1)} (h : d ≠ 0) : dist (n + 1) d ≠ 0 := by
  have h1 : (d : Nat) ≠ 0 := fun h0 => h (Fin.ext h0)
  have := d.isLt
  unfold dist
  split <;> omega

theorem blur_lt {n : Nat} (hn : 30 ≤ n + 1) {a b : ℝ} (ha : a ≠ 0) (hb : b ≠ 0) {d e : Fin (n + 1)} (h : d ≠ 0 ∨ e ≠ 0) :
    blur n a b d e < blur n a b 0 0 := by
  unfold blur
  rw [Real.exp_lt_exp, dist_zero hn]
  have h1 : 0 ≤ ((dist (n + 1) d : ℝ) / a) ^ 2 := sq_nonneg _
  have h2 : 0 ≤ ((dist (n + 1) e : ℝ) / b) ^ 2 := sq_nonneg _
  have h3 : 0 < ((dist (n + 1) d : ℝ) / a) ^ 2 ∨ 0 < ((dist (n + 1) e : ℝ) / b) ^ 2 := by
    rcases h with h | h
    · left
      have : (dist (n + 1) d : ℝ) ≠ 0 := by exact_mod_cast dist_ne h
      positivity
    · right
      have : (dist (n + 1) e : ℝ) ≠ 0 := by exact_mod_cast dist_ne h
      positivity
  norm_num
  rcases h3 with h3 | h3 <;> linarith

/-- what `cimc` is for a beam with its peak at the first pixel -/
theorem cimc_beam {n : Nat} (hn : 30 ≤ n + 1) {cim dbm c : Im n} (hb : Beam dbm) (h : cimc cim dbm = some c) :
    ∃ a b : ℝ, 0 < a ∧ 0 < b ∧ a = Real.sqrt (spread fun k => dbmFit dbm 15 k) ∧ b = Real.sqrt (spread fun k => dbmFit dbm k 15) ∧
      ∀ i j, c i j = ∑ x, ∑ y, cim x y * (blur n a b (i - x + slip n) (j - y + slip n) / ∑ d, ∑ e, blur n a b d e) := by
  obtain ⟨p, hp, h1, h2, h3, h4⟩ := cimc_some h
  obtain ⟨e1, e2, e3, e4⟩ := moments_peaked (beam_peaked hn hb) hp
  refine ⟨p.wx, p.wy, ?_, ?_, e3, e4, ?_⟩
  · exact lt_of_le_of_ne (by rw [e3]; exact Real.sqrt_nonneg _) (Ne.symm h2)
  · exact lt_of_le_of_ne (by rw [e4]; exact Real.sqrt_nonneg _) (Ne.symm h3)
  · intro i j
    rw [h4]
    simp only [cbm_at hn p h1 e1 e2]

/-- a single source -/
def point {n : Nat} (f : ℝ) (x y : Fin (n + 1)) : Im n := fun i j => if i = x ∧ j = y then f else 0

theorem point_sum {n : Nat} (f : ℝ) (x0 y0 : Fin (n + 1)) (F : Fin (n + 1) → Fin (n + 1) → ℝ) : (∑ x, ∑ y, point f x0 y0 x y * F x y) = f * F x0 y0 := by
  rw [Finset.sum_eq_single x0 (fun x _ hx => ?_) (fun h => absurd (Finset.mem_univ _) h)]
  · rw [Finset.sum_eq_single y0 (fun y _ hy => ?_) (fun h => absurd (Finset.mem_univ _) h)]
    · simp [point]
    · simp [point, hy]
  · apply Finset.sum_eq_zero
    intro y _
    simp [point, hx]

theorem slip_even {n : Nat} (h : (n + 1) % 2 = 0) : slip n = 0 := by
  unfold slip
  rw [h]
  rfl

theorem slip_odd {n : Nat} (h : (n + 1) % 2 = 1) : slip n = idx n 1 := by
  unfold slip
  rw [h]

/-! ## Properties -/

/-- **C128** (no flux is made or lost, whatever the beam and the number of pixels) -/
theorem c128_flux {n : Nat} (cim dbm c : Im n) (h : cimc cim dbm = some c) : (∑ i, ∑ j, c i j) = ∑ i, ∑ j, cim i j := by
  obtain ⟨p, hp, h1, h2, h3, h4⟩ := cimc_some h
  have hpos : (∑ i : Fin (n + 1), ∑ j : Fin (n + 1), cbm0 p i j) ≠ 0 := by
    unfold cbm0 twodgaussian
    simp only [← Finset.mul_sum]
    apply mul_ne_zero h1
    apply ne_of_gt
    exact Finset.sum_pos (fun d _ => Finset.sum_pos (fun e _ => Real.exp_pos _) ⟨0, Finset.mem_univ _⟩) ⟨0, Finset.mem_univ _⟩
  have hs : ∀ x y, (∑ i, ∑ j, cbm p (i - idx n ((n + 1) / 2) - x) (j - idx n ((n + 1) / 2) - y)) = 1 := by
    intro x y
    have := sum_moved (cbm (n := n) p) (-idx n ((n + 1) / 2) - x) (-idx n ((n + 1) / 2) - y)
    have e : ∀ i x : Fin (n + 1), i + (-idx n ((n + 1) / 2) - x) = i - idx n ((n + 1) / 2) - x := fun i x => by abel
    simp only [e] at this
    rw [this]
    unfold cbm
    simp only [← Finset.sum_div]
    exact div_self hpos
  calc (∑ i, ∑ j, c i j)
      = ∑ i, ∑ j, ∑ x, ∑ y, cim x y * cbm p (i - idx n ((n + 1) / 2) - x) (j - idx n ((n + 1) / 2) - y) := by simp only [h4]
    _ = ∑ x, ∑ y, ∑ i, ∑ j, cim x y * cbm p (i - idx n ((n + 1) / 2) - x) (j - idx n ((n + 1) / 2) - y) := by
        have : ∀ i, (∑ j, ∑ x, ∑ y, cim x y * cbm p (i - idx n ((n + 1) / 2) - x) (j - idx n ((n + 1) / 2) - y)) =
            ∑ x, ∑ y, ∑ j, cim x y * cbm p (i - idx n ((n + 1) / 2) - x) (j - idx n ((n + 1) / 2) - y) := by
          intro i
          rw [Finset.sum_comm]
          apply Finset.sum_congr rfl
          intro x _
          rw [Finset.sum_comm]
        simp only [this]
        rw [Finset.sum_comm]
        apply Finset.sum_congr rfl
        intro x _
        rw [Finset.sum_comm]
    _ = ∑ x, ∑ y, cim x y := by
        simp only [← Finset.mul_sum, hs, mul_one]

/-- **C128** (with an even number of pixels and a beam with its peak at the first pixel, every source is spread around where it is, by a Gaussian
that depends only on how far away a pixel is along the two axes) -/
theorem c128_place_partial {n : Nat} (hn : 30 ≤ n + 1) (he : (n + 1) % 2 = 0) (cim dbm c : Im n) (hb : Beam dbm) (h : cimc cim dbm = some c) :
    ∃ a b : ℝ, 0 < a ∧ 0 < b ∧ ∀ i j, c i j = (∑ x, ∑ y, cim x y * blur n a b (i - x) (j - y)) / ∑ d, ∑ e, blur n a b d e := by
  obtain ⟨a, b, ha, hb', -, -, hc⟩ := cimc_beam hn hb h
  refine ⟨a, b, ha, hb', fun i j => ?_⟩
  rw [hc, slip_even he, Finset.sum_div]
  apply Finset.sum_congr rfl
  intro x _
  rw [Finset.sum_div]
  apply Finset.sum_congr rfl
  intro y _
  rw [add_zero, add_zero, mul_div_assoc]

/-- **C128** (so the brightest pixel of a restored source is the source's) -/
theorem c128_peak_partial {n : Nat} (hn : 30 ≤ n + 1) (he : (n + 1) % 2 = 0) (f : ℝ) (hf : 0 < f) (x y : Fin (n + 1)) (dbm c : Im n) (hb : Beam dbm)
    (h : cimc (point f x y) dbm = some c) (i j : Fin (n + 1)) (hij : i ≠ x ∨ j ≠ y) : c i j < c x y := by
  obtain ⟨a, b, ha, hb', -, -, hc⟩ := cimc_beam hn hb h
  rw [hc, hc, point_sum, point_sum, slip_even he]
  apply mul_lt_mul_of_pos_left _ hf
  apply div_lt_div_of_pos_right _ (blur_sum_pos a b)
  simp only [add_zero, sub_self]
  apply blur_lt hn ha.ne' hb'.ne'
  rw [sub_ne_zero, sub_ne_zero]
  exact hij

/-- **C128** (violated: with an odd number of pixels every source comes out one pixel before where it is along both axes) -/
theorem c128_odd_violated {n : Nat} (hn : 30 ≤ n + 1) (ho : (n + 1) % 2 = 1) (f : ℝ) (hf : 0 < f) (x y : Fin (n + 1)) (dbm c : Im n) (hb : Beam dbm)
    (h : cimc (point f x y) dbm = some c) (i j : Fin (n + 1)) (hij : i ≠ x - 1 ∨ j ≠ y - 1) : c i j < c (x - 1) (y - 1) := by
  obtain ⟨a, b, ha, hb', -, -, hc⟩ := cimc_beam hn hb h
  have h1 : idx n 1 = 1 := by
    apply Fin.ext
    rw [idx_of_lt (by omega)]
    rw [Fin.val_one', Nat.mod_eq_of_lt (by omega)]
  rw [hc, hc, point_sum, point_sum, slip_odd ho, h1]
  apply mul_lt_mul_of_pos_left _ hf
  apply div_lt_div_of_pos_right _ (blur_sum_pos a b)
  have e : ∀ x : Fin (n + 1), x - 1 - x + 1 = 0 := fun x => by abel
  rw [e, e]
  apply blur_lt hn ha.ne' hb'.ne'
  have e2 : ∀ i x : Fin (n + 1), i ≠ x - 1 → i - x + 1 ≠ 0 := by
    intro i x hne h0
    apply hne
    have : i - x + 1 = i - (x - 1) := by abel
    rw [this, sub_eq_zero] at h0
    exact h0
  exact hij.imp (e2 i x) (e2 j y)

/-- **C128** (violated: the widths are exchanged; where the beam is longer along the first axis the restored source is longer along the second) -/
theorem c128_width_violated {n : Nat} (hn : 30 ≤ n + 1) (he : (n + 1) % 2 = 0) (f : ℝ) (hf : 0 < f) (x y : Fin (n + 1)) (dbm c : Im n) (hb : Beam dbm)
    (h : cimc (point f x y) dbm = some c) (hlong : (spread fun k => dbmFit dbm 15 k) < spread fun k => dbmFit dbm k 15)
    (k : Nat) (hk : 0 < k) (hk' : k + 15 < n + 1) : c (x + idx n k) y < c x (y + idx n k) := by
  obtain ⟨a, b, ha, hb', ea, eb, hc⟩ := cimc_beam hn hb h
  have hab : a < b := by
    rw [ea, eb]
    apply Real.sqrt_lt_sqrt _ hlong
    unfold spread
    exact div_nonneg (Finset.sum_nonneg fun _ _ => mul_nonneg (abs_nonneg _) (abs_nonneg _)) (Finset.sum_nonneg fun _ _ => abs_nonneg _)
  rw [hc, hc, point_sum, point_sum, slip_even he]
  apply mul_lt_mul_of_pos_left _ hf
  apply div_lt_div_of_pos_right _ (blur_sum_pos a b)
  simp only [add_zero, add_sub_cancel_left, sub_self]
  have hd : dist (n + 1) (idx n k : Fin (n + 1)) = k := by
    rw [idx_of_lt (by omega)]
    unfold dist
    rw [if_pos hk']
  unfold blur
  rw [Real.exp_lt_exp, hd, dist_zero hn]
  have hk0 : (0 : ℝ) < k := by exact_mod_cast hk
  have : ((k : ℝ) / b) ^ 2 < ((k : ℝ) / a) ^ 2 := by
    apply pow_lt_pow_left₀ _ (by positivity) (by decide)
    exact div_lt_div_of_pos_left hk0 ha hab
  push_cast
  norm_num
  linarith

theorem argmax_congr {k : Nat} {f g : Fin (k + 1) → ℝ} (h : ∀ i j, f i < f j ↔ g i < g j) : argmax f = argmax g := by
  unfold argmax
  simp only [h]

theorem moments_total {R C : Nat} {d : Dat R C} {p : Pars} (h : moments d = some p) : 0 < (∑ r, ∑ c, |d r c|) ∧ p.y = ((rowOf d : Nat) : ℝ) := by
  unfold moments at h
  simp only at h
  by_cases h0 : (∑ c, |d (rowOf d) c|) = 0 ∨ (∑ r, |d r (colOf d)|) = 0
  · rw [if_pos h0] at h; cases h
  · rw [if_neg h0] at h
    push Not at h0
    refine ⟨?_, by rw [← Option.some.inj h]⟩
    apply Finset.sum_pos' (fun _ _ => Finset.sum_nonneg fun _ _ => abs_nonneg _) ⟨rowOf d, Finset.mem_univ _, ?_⟩
    exact lt_of_le_of_ne (Finset.sum_nonneg fun _ _ => abs_nonneg _) (Ne.symm h0.1)

/-- **C128** (violated: the row of the peak is looked for with the columns' numbers as weights, so that nothing in the first column counts,
however bright) -/
theorem c128_column_violated {R C : Nat} (d d' : Dat R C) (p p' : Pars) (hdd : ∀ r c, c ≠ 0 → d r c = d' r c) (h : moments d = some p)
    (h' : moments d' = some p') : p.y = p'.y := by
  obtain ⟨h1, h2⟩ := moments_total h
  obtain ⟨h3, h4⟩ := moments_total h'
  rw [h2, h4]
  have : rowOf d = rowOf d' := by
    unfold rowOf
    apply argmax_congr
    intro i j
    rw [div_lt_div_iff_of_pos_right h1, div_lt_div_iff_of_pos_right h3]
    have e : ∀ r, (∑ c : Fin (C + 1), ((c : Nat) : ℝ) * |d r c|) = ∑ c : Fin (C + 1), ((c : Nat) : ℝ) * |d' r c| := by
      intro r
      apply Finset.sum_congr rfl
      intro c _
      by_cases hc : c = 0
      · subst hc; simp
      · rw [hdd r c hc]
    rw [e, e]
  rw [this]

/-- **C128** (violated: a single bright pixel in the first column, not in the first row, raises) -/
theorem c128_edge_violated {R C : Nat} (v : ℝ) (r0 : Fin (R + 1)) (hr : r0 ≠ 0) : moments (fun (r : Fin (R + 1)) (c : Fin (C + 1)) => if r = r0 ∧ c = 0 then v else 0) = none := by
  have h0 : rowOf (fun (r : Fin (R + 1)) (c : Fin (C + 1)) => if r = r0 ∧ c = 0 then v else 0) = 0 := by
    have hz : ∀ r : Fin (R + 1), (∑ c : Fin (C + 1), ((c : Nat) : ℝ) * |if r = r0 ∧ c = 0 then v else 0|) = 0 := by
      intro r
      apply Finset.sum_eq_zero
      intro c _
      by_cases hc : c = 0
      · subst hc; simp
      · simp [hc]
    unfold rowOf argmax
    simp only [hz, zero_div, lt_irrefl, if_false]
    generalize List.finRange (R + 1) = l
    induction l with
    | nil => rfl
    | cons a l ih => rw [List.foldl_cons]; exact ih
  unfold moments
  simp only [h0]
  rw [if_pos]
  left
  apply Finset.sum_eq_zero
  intro c _
  simp [Ne.symm hr]

theorem moments_at {R C : Nat} {d : Dat R C} {y : Fin (R + 1)} {x : Fin (C + 1)} (h1 : rowOf d = y) (h2 : colOf d = x) (h3 : (∑ c, |d y c|) ≠ 0)
    (h4 : (∑ r, |d r x|) ≠ 0) : ∃ p, moments d = some p ∧ p.y = ((y : Nat) : ℝ) ∧ p.x = ((x : Nat) : ℝ) ∧
      p.wx = Real.sqrt ((∑ c : Fin (C + 1), |(((c : Nat) : ℝ) - ((y : Nat) : ℝ)) * d y c|) / ∑ c, |d y c|) ∧
      p.wy = Real.sqrt ((∑ r : Fin (R + 1), |(((r : Nat) : ℝ) - ((x : Nat) : ℝ)) * d r x|) / ∑ r, |d r x|) := by
  subst h1 h2
  unfold moments
  simp only
  rw [if_neg (by push Not; exact ⟨h3, h4⟩)]
  exact ⟨_, rfl, rfl, rfl, rfl, rfl⟩

/-- **C128** (violated: the widths are measured from the wrong coordinate of the peak.  A single bright pixel has no width; the width given is the
square root of the difference of its row and its column) -/
theorem c128_pixel_violated {R C : Nat} (v : ℝ) (hv : 0 < v) (r0 : Fin (R + 1)) (c0 : Fin (C + 1)) (hr : r0 ≠ 0) (hc : c0 ≠ 0) :
    ∃ p, moments (fun (r : Fin (R + 1)) (c : Fin (C + 1)) => if r = r0 ∧ c = c0 then v else 0) = some p ∧ p.y = ((r0 : Nat) : ℝ) ∧ p.x = ((c0 : Nat) : ℝ) ∧
      p.wx = Real.sqrt |((c0 : Nat) : ℝ) - ((r0 : Nat) : ℝ)| ∧ p.wy = Real.sqrt |((r0 : Nat) : ℝ) - ((c0 : Nat) : ℝ)| := by
  have hr' : 0 < (r0 : Nat) := Nat.pos_of_ne_zero fun h => hr (Fin.ext h)
  have hc' : 0 < (c0 : Nat) := Nat.pos_of_ne_zero fun h => hc (Fin.ext h)
  have habs : ∀ (r : Fin (R + 1)) (c : Fin (C + 1)), |if r = r0 ∧ c = c0 then v else 0| = if r = r0 then (if c = c0 then v else 0) else 0 := by
    intro r c
    by_cases h1 : r = r0
    · by_cases h2 : c = c0
      · simp [h1, h2, abs_of_pos hv]
      · simp [h1, h2]
    · simp [h1]
  have htot : (∑ r : Fin (R + 1), ∑ c : Fin (C + 1), |if r = r0 ∧ c = c0 then v else 0|) = v := by
    simp only [habs]
    rw [Finset.sum_eq_single r0 (fun b _ hb => by simp [hb]) (by simp)]
    simp
  have hrow : ∀ r : Fin (R + 1), (∑ c : Fin (C + 1), ((c : Nat) : ℝ) * |if r = r0 ∧ c = c0 then v else 0|) = if r = r0 then ((c0 : Nat) : ℝ) * v else 0 := by
    intro r
    simp only [habs]
    by_cases h : r = r0
    · simp [h]
    · simp [h]
  have hcol : ∀ c : Fin (C + 1), (∑ r : Fin (R + 1), ((r : Nat) : ℝ) * |if r = r0 ∧ c = c0 then v else 0|) = if c = c0 then ((r0 : Nat) : ℝ) * v else 0 := by
    intro c
    simp only [habs]
    by_cases h : c = c0
    · simp [h]
    · simp [h]
  have e1 : rowOf (fun (r : Fin (R + 1)) (c : Fin (C + 1)) => if r = r0 ∧ c = c0 then v else 0) = r0 := by
    unfold rowOf
    apply argmax_eq
    intro i hi
    rw [htot, hrow, hrow, if_neg hi, if_pos rfl, zero_div]
    have : (0 : ℝ) < ((c0 : Nat) : ℝ) := by exact_mod_cast hc'
    positivity
  have e2 : colOf (fun (r : Fin (R + 1)) (c : Fin (C + 1)) => if r = r0 ∧ c = c0 then v else 0) = c0 := by
    unfold colOf
    apply argmax_eq
    intro i hi
    rw [htot, hcol, hcol, if_neg hi, if_pos rfl, zero_div]
    have : (0 : ℝ) < ((r0 : Nat) : ℝ) := by exact_mod_cast hr'
    positivity
  have s1 : (∑ c : Fin (C + 1), |if r0 = r0 ∧ c = c0 then v else 0|) = v := (Finset.sum_congr rfl fun c _ => habs r0 c).trans (by simp)
  have s2 : (∑ r : Fin (R + 1), |if r = r0 ∧ c0 = c0 then v else 0|) = v := (Finset.sum_congr rfl fun r _ => habs r c0).trans (by simp)
  have w1 : (∑ c : Fin (C + 1), |(((c : Nat) : ℝ) - ((r0 : Nat) : ℝ)) * (if r0 = r0 ∧ c = c0 then v else 0)|) = |((c0 : Nat) : ℝ) - ((r0 : Nat) : ℝ)| * v :=
    (Finset.sum_congr rfl fun c _ => by rw [abs_mul, habs r0 c]).trans (by simp)
  have w2 : (∑ r : Fin (R + 1), |(((r : Nat) : ℝ) - ((c0 : Nat) : ℝ)) * (if r = r0 ∧ c0 = c0 then v else 0)|) = |((r0 : Nat) : ℝ) - ((c0 : Nat) : ℝ)| * v :=
    (Finset.sum_congr rfl fun r _ => by rw [abs_mul, habs r c0]).trans (by simp)
  obtain ⟨p, hp, hy, hx, h1, h2⟩ := moments_at e1 e2 (by rw [s1]; exact ne_of_gt hv) (by rw [s2]; exact ne_of_gt hv)
  refine ⟨p, hp, hy, hx, ?_, ?_⟩
  · rw [h1, s1, w1, mul_div_assoc, div_self (ne_of_gt hv), mul_one]
  · rw [h2, s2, w2, mul_div_assoc, div_self (ne_of_gt hv), mul_one]

/-- a bright pixel in row 2 and column 11 is given widths of 3 -/
example : ∃ p, moments (fun (r c : Fin 30) => if r = 2 ∧ c = 11 then 5 else 0) = some p ∧ p.wx = 3 ∧ p.wy = 3 := by
  obtain ⟨p, h, -, -, h1, h2⟩ := c128_pixel_violated (R := 29) (C := 29) 5 (by norm_num) 2 11 (by decide) (by decide)
  refine ⟨p, h, ?_, ?_⟩
  · rw [h1]
    have : |(((11 : Fin 30) : Nat) : ℝ) - (((2 : Fin 30) : Nat) : ℝ)| = 3 ^ 2 := by
      have e : ((11 : Fin 30) : Nat) = 11 ∧ ((2 : Fin 30) : Nat) = 2 := by decide
      rw [e.1, e.2]; norm_num
    rw [this, Real.sqrt_sq (by norm_num)]
  · rw [h2]
    have : |(((2 : Fin 30) : Nat) : ℝ) - (((11 : Fin 30) : Nat) : ℝ)| = 3 ^ 2 := by
      have e : ((11 : Fin 30) : Nat) = 11 ∧ ((2 : Fin 30) : Nat) = 2 := by decide
      rw [e.1, e.2]; norm_num
    rw [this, Real.sqrt_sq (by norm_num)]

theorem getD_of_lt {l : List ℝ} {i : Nat} (h : i < l.length) : l.getD i 0 = l[i] := by simp [List.getD, h]

theorem median_lt {l : List ℝ} {M : ℝ} (hle : ∀ x ∈ l, x ≤ M) (hc : 2 * l.count M < l.length) : median l < M := by
  classical
  unfold median
  simp only
  have hperm := List.perm_insertionSort (fun a b : ℝ => a ≤ b) l
  have hsorted := List.pairwise_insertionSort (fun a b : ℝ => a ≤ b) l
  generalize l.insertionSort (fun a b : ℝ => a ≤ b) = s at *
  have hlen := hperm.length_eq
  have hcount : s.count M = l.count M := hperm.count_eq M
  have hle' : ∀ x ∈ s, x ≤ M := fun x hx => hle x (hperm.mem_iff.1 hx)
  have hpos : s.length / 2 < s.length := by omega
  have hmid : s.getD (s.length / 2) 0 < M := by
    rw [getD_of_lt hpos]
    apply lt_of_le_of_ne (hle' _ (List.getElem_mem hpos))
    intro h
    have hall : ∀ x ∈ s.drop (s.length / 2), x = M := by
      intro x hx
      obtain ⟨i, hi, rfl⟩ := List.getElem_of_mem hx
      rw [List.getElem_drop]
      rw [List.length_drop] at hi
      apply le_antisymm (hle' _ (List.getElem_mem _))
      rw [← h]
      rcases Nat.eq_zero_or_pos i with rfl | hi'
      · simp
      · exact List.pairwise_iff_getElem.1 hsorted _ _ _ _ (by omega)
    have h1 : (s.drop (s.length / 2)).count M = s.length - s.length / 2 := by
      rw [← List.length_drop]
      exact List.count_eq_length.2 fun x hx => (hall x hx).symm
    have h2 : (s.drop (s.length / 2)).count M ≤ s.count M := (List.drop_sublist _ _).count_le M
    omega
  by_cases ho : s.length % 2 = 1
  · rw [if_pos ho]
    exact hmid
  · rw [if_neg ho]
    have hpos' : s.length / 2 - 1 < s.length := by omega
    have : s.getD (s.length / 2 - 1) 0 ≤ M := by
      rw [getD_of_lt hpos']
      exact hle' _ (List.getElem_mem hpos')
    linarith

/-- a list of values with one largest among at least three has its median below it -/
theorem median_lt_max {R C : Nat} {d : Dat R C} {r0 : Fin (R + 1)} {c0 : Fin (C + 1)} (h : ∀ r c, r ≠ r0 ∨ c ≠ c0 → d r c < d r0 c0)
    (hsz : 3 ≤ (R + 1) * (C + 1)) : median ((List.finRange (R + 1) ×ˢ List.finRange (C + 1)).map fun q => d q.1 q.2) < maxOf d := by
  have hmax : maxOf d = d r0 c0 := by
    unfold maxOf
    apply le_antisymm
    · apply Finset.sup'_le
      intro q _
      by_cases hq : q.1 ≠ r0 ∨ q.2 ≠ c0
      · exact (h _ _ hq).le
      · push Not at hq
        rw [hq.1, hq.2]
    · exact Finset.le_sup' (fun p : Fin (R + 1) × Fin (C + 1) => d p.1 p.2) (Finset.mem_univ (r0, c0))
  rw [hmax]
  apply median_lt
  · intro x hx
    obtain ⟨q, -, rfl⟩ := List.mem_map.1 hx
    by_cases hq : q.1 ≠ r0 ∨ q.2 ≠ c0
    · exact (h _ _ hq).le
    · push Not at hq
      rw [hq.1, hq.2]
  · have h1 : ((List.finRange (R + 1) ×ˢ List.finRange (C + 1)).map fun q => d q.1 q.2).count (d r0 c0) ≤
        (List.finRange (R + 1) ×ˢ List.finRange (C + 1)).count (r0, c0) := by
      rw [List.count, List.countP_map, List.count]
      apply List.countP_mono_left
      intro q _ hq
      simp only [Function.comp, beq_iff_eq] at hq
      rw [beq_iff_eq]
      by_contra hne
      have : q.1 ≠ r0 ∨ q.2 ≠ c0 := by
        by_contra h2
        push Not at h2
        exact hne (Prod.ext h2.1 h2.2)
      exact absurd hq (h _ _ this).ne
    have h2 : (List.finRange (R + 1) ×ˢ List.finRange (C + 1)).count (r0, c0) ≤ 1 :=
      List.nodup_iff_count_le_one.1 ((List.nodup_finRange _).product (List.nodup_finRange _)) _
    rw [List.length_map, List.length_product, List.length_finRange, List.length_finRange]
    omega

theorem spread_pos {f : Fin 30 → ℝ} {k : Fin 30} (hk : k ≠ 15) (h : f k ≠ 0) : 0 < spread f := by
  unfold spread
  apply div_pos
  · apply Finset.sum_pos' (fun _ _ => mul_nonneg (abs_nonneg _) (abs_nonneg _)) ⟨k, Finset.mem_univ _, ?_⟩
    apply mul_pos (abs_pos.2 _) (abs_pos.2 h)
    intro h0
    apply hk
    have : ((k : Nat) : ℝ) = ((15 : Nat) : ℝ) := by push_cast; linarith
    exact Fin.ext (by exact_mod_cast this)
  · exact Finset.sum_pos' (fun _ _ => abs_nonneg _) ⟨k, Finset.mem_univ _, abs_pos.2 h⟩

/-- **C128** (a restored image is made for every beam with its peak, positive, at the first pixel, and with some other pixel that is not 0 within
15 of it along each axis) -/
theorem c128_defined {n : Nat} (hn : 30 ≤ n + 1) (cim dbm : Im n) (hb : Beam dbm) (h0 : 0 < dbm 0 0) (k l : Nat) (hk : 0 < k ∧ k < 15) (hl : 0 < l ∧ l < 15)
    (hd : dbm (idx n k) 0 ≠ 0) (he : dbm 0 (idx n l) ≠ 0) : ∃ c, cimc cim dbm = some c := by
  have hpk := beam_peaked hn hb
  have hz : idx n ((15 : Fin 30) : Nat) - idx n 15 = 0 := sub_self _
  have hat : ∀ (m : Nat) (hm : m < 15), idx n (((⟨15 + m, by omega⟩ : Fin 30)) : Nat) - idx n 15 = idx n m := by
    intro m hm
    rw [sub_eq_iff_eq_add, idx_add]
    congr 1
    show 15 + m = m + 15
    omega
  have hrow : dbmFit dbm ⟨15 + k, by omega⟩ 15 ≠ 0 := by
    rw [dbmFit_eq hn, hat k hk.2, hz]
    exact hd
  have hcol : dbmFit dbm 15 ⟨15 + l, by omega⟩ ≠ 0 := by
    rw [dbmFit_eq hn, hat l hl.2, hz]
    exact he
  have hwx : 0 < Real.sqrt (spread fun c => dbmFit dbm 15 c) :=
    Real.sqrt_pos.2 (spread_pos (f := fun c => dbmFit dbm 15 c) (k := ⟨15 + l, by omega⟩) (fun h => by have := congrArg Fin.val h; simp at this; omega) hcol)
  have hwy : 0 < Real.sqrt (spread fun r => dbmFit dbm r 15) :=
    Real.sqrt_pos.2 (spread_pos (f := fun r => dbmFit dbm r 15) (k := ⟨15 + k, by omega⟩) (fun h => by have := congrArg Fin.val h; simp at this; omega) hrow)
  have hbig : ∀ r c : Fin 30, r ≠ 15 ∨ c ≠ 15 → dbmFit dbm r c < dbmFit dbm 15 15 := by
    intro r c hrc
    obtain ⟨g, e, b1, b2, b3, b4, b5⟩ := hb
    rw [dbmFit_eq hn, dbmFit_eq hn, hz]
    apply lt_of_le_of_lt (le_abs_self _)
    rw [← abs_of_pos h0, b1, b1]
    have hg0 : 0 < g 0 := lt_of_le_of_ne (b2 0) (by intro hg; have := b1 0 0; rw [← hg, zero_mul, abs_of_pos h0] at this; linarith)
    have he0 : 0 < e 0 := lt_of_le_of_ne (b3 0) (by intro hg; have := b1 0 0; rw [← hg, mul_zero, abs_of_pos h0] at this; linarith)
    have hgle : ∀ i, g i ≤ g 0 := fun i => by
      by_cases hi : i = 0
      · rw [hi]
      · exact (b4 i hi).le
    have hele : ∀ i, e i ≤ e 0 := fun i => by
      by_cases hi : i = 0
      · rw [hi]
      · exact (b5 i hi).le
    rcases hrc with hr | hr
    · exact lt_of_le_of_lt (mul_le_mul_of_nonneg_left (hele _) (b2 _)) (mul_lt_mul_of_pos_right (b4 _ (off_ne hn hr)) he0)
    · exact lt_of_le_of_lt (mul_le_mul_of_nonneg_right (hgle _) (b3 _)) (mul_lt_mul_of_pos_left (b5 _ (off_ne hn hr)) hg0)
  have hm : ∃ p, moments (dbmFit dbm) = some p ∧ p.amp ≠ 0 := by
    unfold moments
    rw [rowOf_peaked hpk, colOf_peaked hpk]
    simp only
    rw [if_neg]
    · refine ⟨_, rfl, ?_⟩
      simp only
      rw [sub_ne_zero]
      exact (median_lt_max hbig (by decide)).ne'
    · push Not
      constructor
      · exact (Finset.sum_pos' (f := fun c => |dbmFit dbm 15 c|) (fun _ _ => abs_nonneg _) ⟨⟨15 + l, by omega⟩, Finset.mem_univ _, abs_pos.2 hcol⟩).ne'
      · exact (Finset.sum_pos' (f := fun r => |dbmFit dbm r 15|) (fun _ _ => abs_nonneg _) ⟨⟨15 + k, by omega⟩, Finset.mem_univ _, abs_pos.2 hrow⟩).ne'
  obtain ⟨p, hp, ha⟩ := hm
  obtain ⟨-, -, e3, e4⟩ := moments_peaked hpk hp
  unfold cimc
  rw [hp]
  simp only
  rw [if_neg]
  · exact ⟨_, rfl⟩
  · push Not
    exact ⟨ha, by rw [e3]; exact hwx.ne', by rw [e4]; exact hwy.ne'⟩

/-- a profile: 1, then 1/2, then nothing -/
noncomputable def prof {n : Nat} (i : Fin (n + 1)) : ℝ := if (i : Nat) = 0 then 1 else if (i : Nat) = 1 then 1 / 2 else 0

/-- a profile as above and longer -/
noncomputable def longProf {n : Nat} (i : Fin (n + 1)) : ℝ := if (i : Nat) = 0 then 1 else if (i : Nat) = 1 then 1 / 2 else if (i : Nat) = 14 then 1 / 2 else 0

theorem prof_beam {n : Nat} : Beam (n := n) fun i j => longProf i * prof j := by
  have h1 : ∀ i : Fin (n + 1), 0 ≤ longProf i := fun i => by unfold longProf; split_ifs <;> norm_num
  have h2 : ∀ i : Fin (n + 1), 0 ≤ prof i := fun i => by unfold prof; split_ifs <;> norm_num
  refine ⟨longProf, prof, fun i j => abs_of_nonneg (mul_nonneg (h1 i) (h2 j)), h1, h2, ?_, ?_⟩
  · intro i hi
    have : (i : Nat) ≠ 0 := fun h => hi (Fin.ext h)
    unfold longProf
    rw [if_neg this]
    split_ifs <;> norm_num <;> simp_all
  · intro i hi
    have : (i : Nat) ≠ 0 := fun h => hi (Fin.ext h)
    unfold prof
    rw [if_neg this]
    split_ifs <;> norm_num <;> simp_all

/-- beams that meet the hypotheses of all theorems above, with an even and an odd number of pixels -/
theorem prof_some (n : Nat) (hn : 30 ≤ n + 1) (cim : Im n) : ∃ c, cimc cim (fun i j => longProf i * prof j) = some c :=
  c128_defined hn cim _ prof_beam (by simp [longProf, prof]) 1 1 (by decide) (by decide)
    (by simp only [longProf, prof, idx_of_lt (show 1 < n + 1 by omega)]; simp)
    (by simp only [longProf, prof, idx_of_lt (show 1 < n + 1 by omega)]; simp)

example : ∃ c, cimc (point 3 5 7) (fun i j : Fin 40 => longProf i * prof j) = some c ∧ ∀ i j, i ≠ 5 ∨ j ≠ 7 → c i j < c 5 7 := by
  obtain ⟨c, hc⟩ := prof_some 39 (by decide) (point 3 5 7)
  exact ⟨c, hc, c128_peak_partial (by decide) (by decide) 3 (by norm_num) 5 7 _ c prof_beam hc⟩

example : ∃ c, cimc (point 3 5 7) (fun i j : Fin 41 => longProf i * prof j) = some c ∧ c 5 7 < c 4 6 := by
  obtain ⟨c, hc⟩ := prof_some 40 (by decide) (point 3 5 7)
  exact ⟨c, hc, c128_odd_violated (by decide) (by decide) 3 (by norm_num) 5 7 _ c prof_beam hc 5 7 (by decide)⟩

example : ∃ c, cimc (point 3 5 7) (fun i j : Fin 40 => longProf i * prof j) = some c ∧ (∑ i, ∑ j, c i j) = 3 ∧ c 6 7 < c 5 8 := by
  obtain ⟨c, hc⟩ := prof_some 39 (by decide) (point 3 5 7)
  refine ⟨c, hc, ?_, ?_⟩
  · rw [c128_flux _ _ _ hc]
    have := point_sum (n := 39) 3 5 7 fun _ _ => 1
    simpa using this
  · refine c128_width_violated (n := 39) (by decide) (by decide) 3 (by norm_num) 5 7 _ c prof_beam hc ?_ 1 (by decide) (by decide)
    simp only [dbmFit_eq (n := 39) (by decide), spread]
    have hv : ∀ k : Fin 30, (((idx 39 k - idx 39 15 : Fin 40) : Nat) = 0 ↔ k = 15) ∧ (((idx 39 k - idx 39 15 : Fin 40) : Nat) = 1 ↔ k = 16) ∧
        (((idx 39 k - idx 39 15 : Fin 40) : Nat) = 14 ↔ k = 29) := by decide
    simp only [longProf, prof, (hv _).1, (hv _).2.1, (hv _).2.2]
    norm_num [Fin.sum_univ_succ, Fin.ext_iff]

/-- **C128** (the sum of the final image is that of the residual over the gain and of the clean components, whether deconvolved or not) -/
theorem c128_bim {n : Nat} (deconvolved : Bool) (gain : ℝ) (cim rim dbm b : Im n) (h : bim deconvolved gain cim rim dbm = some b) :
    (∑ i, ∑ j, b i j) = (∑ i, ∑ j, rim i j) / gain + ∑ i, ∑ j, cim i j := by
  have key : ∀ c : Im n, (∑ i, ∑ j, (rim i j / gain + c i j)) = (∑ i, ∑ j, rim i j) / gain + ∑ i, ∑ j, c i j := by
    intro c
    simp only [Finset.sum_add_distrib, ← Finset.sum_div]
  unfold bim at h
  cases deconvolved with
  | false =>
    rw [← Option.some.inj h]
    exact key cim
  | true =>
    simp only [if_true] at h
    cases hc : cimc cim dbm with
    | none => rw [hc] at h; cases h
    | some c =>
      rw [hc] at h
      rw [← Option.some.inj h, key, c128_flux _ _ _ hc]

example : ∃ b, bim true 2 (point 3 5 7) (fun _ _ => 2) (fun i j : Fin 40 => longProf i * prof j) = some b ∧ (∑ i, ∑ j, b i j) = 1603 := by
  obtain ⟨c, hc⟩ := prof_some 39 (by decide) (point 3 5 7)
  have hb : bim true 2 (point 3 5 7) (fun _ _ => 2) (fun i j : Fin 40 => longProf i * prof j) = some fun i j => (2 : ℝ) / 2 + c i j := by
    unfold bim
    rw [hc]
    rfl
  refine ⟨_, hb, ?_⟩
  rw [c128_bim _ _ _ _ _ _ hb]
  have := point_sum (n := 39) 3 5 7 fun _ _ => 1
  simp only [mul_one] at this
  rw [this]
  norm_num

/-- the peak of 100 is in row 0, the row found is 1 -/
example : ∃ p, moments (fun r c : Fin 2 => if r = 0 ∧ c = 0 then 100 else if r = 1 ∧ c = 1 then 2 else 1) = some p ∧ p.y = 1 := by
  have hr : rowOf (fun r c : Fin 2 => (if r = 0 ∧ c = 0 then 100 else if r = 1 ∧ c = 1 then 2 else 1 : ℝ)) = 1 := by
    unfold rowOf
    apply argmax_eq
    intro i hi
    fin_cases i
    · norm_num [Fin.sum_univ_succ]
    · exact absurd rfl hi
  unfold moments
  rw [hr]
  simp only
  rw [if_neg]
  · exact ⟨_, rfl, by norm_num⟩
  · push Not
    constructor
    · norm_num [Fin.sum_univ_succ]
    · apply ne_of_gt
      apply Finset.sum_pos
      · intro i _
        rw [abs_pos]
        split_ifs <;> norm_num
      · exact ⟨0, Finset.mem_univ _⟩

end Verif.Img.Restore
