import Verif.Img.GaussBeam
import Verif.Util.Text
import Verif.Deconv.CleanProps
import Mathlib.Analysis.Complex.Exponential
/-!
# C127: what cl_img.py deconvolves

Model of `/repo/scripts/cl_img.py` 52-107 and 116-119: reading options, skipping, reweighting in the uv plane, recentring of the beam, and the
switches given to CLEAN.  Images are square (`n + 1` pixels a side) and exact; `np.fft` is the sum it is defined to be.  `res` is the size of a
cell of the uv plane (line 76).  Reading and writing of FITS files is C117, the deconvolution itself C36, restoring is C128.
-/
set_option linter.unusedSectionVars false
namespace Verif.Img.ClImg
open Verif.Img.GaussBeam Verif.Dsp Verif.Util

/-! ## Model -/

/-- an image of real numbers -/
abbrev Im (n : Nat) := Fin (n + 1) → Fin (n + 1) → ℝ

/-- as complex numbers -/
def toC {n : Nat} (a : Im n) : Mat n n := fun i j => (a i j : ℂ)

/-- the ways of `--rewgt` -/
inductive Rewgt where
  | natural
  | uniform (level : ℝ)
  | radial
  | midrange

/-- `opts.rewgt`, cl_img.py 75-98; `float` is python's, `none` is a ValueError -/
def parseRewgt (float : List Char → Option ℝ) (s : List Char) : Option Rewgt :=
  if "natural".toList.isPrefixOf s then some .natural
  else if "uniform".toList.isPrefixOf s then (float ((splitOn '(' s).getLastD []).dropLast).map .uniform
  else if "radial".toList.isPrefixOf s then some .radial
  else if "midrange".toList.isPrefixOf s then some .midrange
  else none

/-- one axis of `get_uv`, img.py 112-117, in cells -/
def cell (N i : Nat) : Int := if i < N / 2 then i else (i : Int) - N

/-- `r`, cl_img.py 70, 71 -/
noncomputable def radius (res : ℝ) (N i j : Nat) : ℝ := Real.sqrt ((cell N i * res) ^ 2 + (cell N j * res) ^ 2)

/-- one axis of `recenter(x - DIM/2, (DIM/2,DIM/2))`, cl_img.py 91, 92 -/
noncomputable def fromMiddle (N i : Nat) : ℝ := (((i + N / 2) % N : Nat) : ℝ) - (N : ℝ) / 2

/-- the weights of `midrange`, cl_img.py 90-97 -/
noncomputable def midWeight (N i j : Nat) : ℝ :=
  let wgt := (fromMiddle N i ^ 2 + fromMiddle N j ^ 2) / ((N : ℝ) / 2) ^ 2
  let wgt := wgt * (1 - wgt)
  if wgt < 0 then 0 else wgt

/-- `np.abs(a).max()` -/
noncomputable def maxAbs {n : Nat} (a : Mat n n) : ℝ :=
  Finset.univ.sup' ⟨((0 : Fin (n + 1)), (0 : Fin (n + 1))), Finset.mem_univ _⟩ fun p : Fin (n + 1) × Fin (n + 1) => ‖a p.1 p.2‖

/-- what `uvs` and `bms` are multiplied with, cl_img.py 75-98 -/
noncomputable def weight {n : Nat} (res : ℝ) (bms : Mat n n) (w : Rewgt) (k l : Fin (n + 1)) : ℝ :=
  match w with
  | .natural => 1
  | .uniform level => 1 / max ‖bms k l‖ (maxAbs bms * level)
  | .radial => radius res (n + 1) k l
  | .midrange => midWeight (n + 1) k l

/-- `mask`, cl_img.py 101-103 -/
noncomputable def mask {n : Nat} (res minuv maxuv : ℝ) (k l : Fin (n + 1)) : ℝ :=
  (if 0 < minuv then 1 - Real.exp (-radius res (n + 1) k l ^ 2 / minuv ^ 2) else 1) *
    (if 0 < maxuv then Real.exp (-radius res (n + 1) k l ^ 2 / maxuv ^ 2) else 1)

/-- `np.fft.ifft2(np.fft.fft2(a) * w).real`, cl_img.py 74 and 104, 105 -/
noncomputable def filtered {n : Nat} (w : Im n) (a : Im n) : Im n := fun i j => (ifft2 (fun k l => fft2 (toC a) k l * (w k l : ℂ)) i j).re

/-- `recenter(a, (DIM/2,DIM/2))`, cl_img.py 107, img.py 47-59 (C22) for an index that is in range -/
def recentred {n : Nat} (a : Im n) : Im n := fun i j =>
  a ⟨(i + (n + 1) / 2) % (n + 1), Nat.mod_lt _ (Nat.succ_pos n)⟩ ⟨(j + (n + 1) / 2) % (n + 1), Nat.mod_lt _ (Nat.succ_pos n)⟩

/-- the options used -/
structure Opts where
  rewgt : List Char
  minuv : ℝ
  maxuv : ℝ
  div : Bool
  posDef : Bool

/-- what becomes of one pair of files -/
inductive Out (n : Nat) where
  | skip
  | error
  | go (dim ker : Im n)

open Classical in
/-- cl_img.py 63-107: the image and the kernel given to the deconvolution -/
noncomputable def prepare {n : Nat} (float : List Char → Option ℝ) (o : Opts) (res : ℝ) (dim dbm : Im n) : Out n :=
  if ∀ i j, dbm i j = 0 then .skip
  else match parseRewgt float o.rewgt with
    | none => .error
    | some w =>
      let f : Im n := fun k l => weight res (fft2 (toC dbm)) w k l * mask res o.minuv o.maxuv k l
      .go (filtered f dim) (recentred (filtered f dbm))

/-- the keywords `stop_if_div` and `pos_def` of CLEAN, cl_img.py 117-119 -/
def cleanSwitches (o : Opts) : Bool × Bool := (!o.div, !o.posDef)

/-! ## Specification -/

/-- the image is the sky seen with the beam, whose middle is its pixel `(0, 0)`; indices wrap -/
def Sees {n : Nat} (sky beam image : Im n) : Prop := ∀ i j, image i j = ∑ x, ∑ y, sky x y * beam (i - x) (j - y)

/-- the frequency in cells that belongs to an index of a transform: the one next to zero -/
def IsFreq (N i : Nat) (u : Int) : Prop := (∃ k : Int, u = i + k * N) ∧ -(N : Int) ≤ 2 * u ∧ 2 * u < N

/-! ## Lemmas -/

theorem fft2_ifft2 {n m : Nat} (a : Mat n m) : fft2 (ifft2 a) = a := by
  funext k l
  unfold ifft2 fft2
  have h : ∀ x : Fin (n + 1), fft (fun j => ifft (fun z => ifft (a z) j) x) l = ifft (fun z => a z l) x := by
    intro x
    have e : (fun j => ifft (fun z => ifft (a z) j) x) = ifft (fun j => ifft (fun z => a z j) x) := by
      funext j
      unfold ifft
      simp only [Finset.sum_mul, Finset.sum_div]
      rw [Finset.sum_comm]
      apply Finset.sum_congr rfl
      intro z _
      apply Finset.sum_congr rfl
      intro w _
      ring
    rw [e, fft_ifft]
  simp only [h]
  rw [show (fun x => ifft (fun z => a z l) x) = ifft (fun z => a z l) from rfl, fft_ifft]

theorem fft2_inj {n m : Nat} {a b : Mat n m} (h : fft2 a = fft2 b) : a = b := by rw [← ifft2_fft2 a, ← ifft2_fft2 b, h]

/-- a filter can be applied to either factor of a convolution -/
theorem filter_conv {n : Nat} (a b w : Mat n n) :
    ifft2 (fun k l => fft2 (fun i j => ∑ x, ∑ y, a x y * b (i - x) (j - y)) k l * w k l) =
      fun i j => ∑ x, ∑ y, a x y * ifft2 (fun k l => fft2 b k l * w k l) (i - x) (j - y) := by
  apply fft2_inj
  rw [fft2_ifft2]
  funext k l
  rw [fft2_conv, fft2_conv, fft2_ifft2]
  ring

theorem filtered_conv {n : Nat} (w a b : Im n) (i j : Fin (n + 1)) :
    filtered w (fun i j => ∑ x, ∑ y, a x y * b (i - x) (j - y)) i j = ∑ x, ∑ y, a x y * filtered w b (i - x) (j - y) := by
  unfold filtered
  have e : toC (fun i j => ∑ x, ∑ y, a x y * b (i - x) (j - y)) = fun i j => ∑ x, ∑ y, toC a x y * toC b (i - x) (j - y) := by
    funext i j
    simp [toC]
  rw [e, filter_conv (toC a) (toC b) (fun k l => (w k l : ℂ))]
  simp only [Complex.re_sum]
  apply Finset.sum_congr rfl
  intro x _
  apply Finset.sum_congr rfl
  intro y _
  exact Complex.re_ofReal_mul _ _

/-- the middle of an axis -/
def mid (n : Nat) : Fin (n + 1) := ⟨(n + 1) / 2 % (n + 1), Nat.mod_lt _ (Nat.succ_pos n)⟩

theorem recentred_eq {n : Nat} (a : Im n) : recentred a = fun i j => a (i + mid n) (j + mid n) := by
  funext i j
  unfold recentred
  congr 1
  · apply Fin.ext; simp [mid, Fin.val_add]
  · apply Fin.ext; simp [mid, Fin.val_add]

/-- a shift is a convolution -/
theorem shift_conv {n : Nat} (a : Im n) (c : Fin (n + 1)) (i j : Fin (n + 1)) :
    a (i + c) (j + c) = ∑ x, ∑ y, (if x = -c ∧ y = -c then (1 : ℝ) else 0) * a (i - x) (j - y) := by
  rw [Finset.sum_eq_single (-c), Finset.sum_eq_single (-c)]
  · simp [sub_neg_eq_add]
  · intro y _ hy; simp [hy]
  · simp
  · intro x _ hx; simp [hx]
  · simp

theorem filtered_shift {n : Nat} (w a : Im n) (c : Fin (n + 1)) :
    filtered w (fun i j => a (i + c) (j + c)) = fun i j => filtered w a (i + c) (j + c) := by
  funext i j
  have e : (fun i j => a (i + c) (j + c)) = fun i j => ∑ x, ∑ y, (if x = -c ∧ y = -c then (1 : ℝ) else 0) * a (i - x) (j - y) := by
    funext i j; exact shift_conv a c i j
  rw [e, filtered_conv w (fun x y => if x = -c ∧ y = -c then (1 : ℝ) else 0) a i j, ← shift_conv (filtered w a) c i j]

theorem filtered_one {n : Nat} (a : Im n) : filtered (fun _ _ => 1) a = a := by
  funext i j
  unfold filtered
  have : (fun k l => fft2 (toC a) k l * ((1 : ℝ) : ℂ)) = fft2 (toC a) := by funext k l; simp
  rw [this, ifft2_fft2]
  simp [toC]

theorem ker_comm {n : Nat} (x k : Fin (n + 1)) : ker n x k = ker n k x := by unfold ker; rw [mul_comm (x.val : ℂ)]

theorem ker_zero {n : Nat} (x : Fin (n + 1)) : ker n x 0 = 1 := by simp [ker]

theorem ker_neg {n : Nat} (x k : Fin (n + 1)) : ker n x (-k) = (starRingEnd ℂ) (ker n x k) := by
  have h1 : ker n x k * ker n x (-k) = 1 := by
    rw [ker_comm x k, ker_comm x (-k), ← ker_add, add_neg_cancel, ker_comm, ker_zero]
  have h2 : ker n x k * (starRingEnd ℂ) (ker n x k) = 1 := by
    unfold ker
    rw [← Complex.exp_conj, ← Complex.exp_add]
    have : -(2 * (Real.pi : ℂ) * Complex.I * ((x.val : ℂ) * k.val) / (n + 1)) +
        (starRingEnd ℂ) (-(2 * (Real.pi : ℂ) * Complex.I * ((x.val : ℂ) * k.val) / (n + 1))) = 0 := by
      rw [map_neg, map_div₀]
      simp only [map_mul, Complex.conj_I, Complex.conj_ofReal, map_add, map_one, Complex.conj_natCast]
      have h2 : (starRingEnd ℂ) 2 = 2 := Complex.conj_ofNat 2
      rw [h2]
      ring
    rw [this, Complex.exp_zero]
  have h3 : ker n x k ≠ 0 := by intro h; rw [h] at h1; simp at h1
  exact mul_left_cancel₀ h3 (h1.trans h2.symm)

theorem fft_eq {n : Nat} (a : Row n) (k : Fin (n + 1)) : fft a k = ∑ x, a x * ker n x k := rfl

theorem fft2_conj {n m : Nat} (a : Mat n m) (k : Fin (n + 1)) (l : Fin (m + 1)) :
    fft2 (fun i j => (starRingEnd ℂ) (a i j)) k l = (starRingEnd ℂ) (fft2 a (-k) (-l)) := by
  unfold fft2
  simp only [fft_eq, map_sum, map_mul]
  apply Finset.sum_congr rfl
  intro x _
  rw [← ker_neg, neg_neg]
  congr 1
  apply Finset.sum_congr rfl
  intro y _
  rw [← ker_neg, neg_neg]

theorem fft2_real {n : Nat} (a : Im n) (k l : Fin (n + 1)) : fft2 (toC a) (-k) (-l) = (starRingEnd ℂ) (fft2 (toC a) k l) := by
  have h := fft2_conj (toC a) (-k) (-l)
  rw [neg_neg, neg_neg] at h
  rw [← h]
  congr 1
  funext i j
  simp [toC]

/-- the transform of a filtered image: of opposite points the mean of the weights counts -/
theorem fft2_filtered_mean {n : Nat} (w a : Im n) (k l : Fin (n + 1)) :
    fft2 (toC (filtered w a)) k l = fft2 (toC a) k l * (((w k l + w (-k) (-l)) / 2 : ℝ) : ℂ) := by
  have hlin : ∀ A B : Mat n n, fft2 (fun i j => (A i j + B i j) / 2) k l = (fft2 A k l + fft2 B k l) / 2 := by
    intro A B
    unfold fft2
    simp only [fft_eq]
    rw [← Finset.sum_add_distrib, Finset.sum_div]
    apply Finset.sum_congr rfl
    intro x _
    rw [← add_mul, ← Finset.sum_add_distrib, mul_div_right_comm, Finset.sum_div]
    congr 1
    apply Finset.sum_congr rfl
    intro y _
    ring
  have e : toC (filtered w a) = fun i j => (ifft2 (fun k l => fft2 (toC a) k l * (w k l : ℂ)) i j +
      (starRingEnd ℂ) (ifft2 (fun k l => fft2 (toC a) k l * (w k l : ℂ)) i j)) / 2 := by
    funext i j
    rw [Complex.add_conj]
    simp [toC, filtered]
  rw [e, hlin, fft2_conj, fft2_ifft2, fft2_real, map_mul, Complex.conj_conj, Complex.conj_ofReal]
  push_cast
  ring

/-- weights that are the same at opposite points -/
theorem fft2_filtered {n : Nat} (w a : Im n) (hw : ∀ k l, w (-k) (-l) = w k l) (k l : Fin (n + 1)) :
    fft2 (toC (filtered w a)) k l = fft2 (toC a) k l * (w k l : ℂ) := by
  rw [fft2_filtered_mean, hw]
  congr 2
  ring

theorem val_neg {n : Nat} (k : Fin (n + 1)) : ((-k : Fin (n + 1)) : Nat) = if (k : Nat) = 0 then 0 else n + 1 - k := by
  rw [Fin.val_neg']
  by_cases h : (k : Nat) = 0
  · simp [h]
  · rw [if_neg h]
    exact Nat.mod_eq_of_lt (by omega)

theorem cell_neg {n : Nat} (he : Even (n + 1)) (k : Fin (n + 1)) : (cell (n + 1) (-k : Fin (n + 1)) : ℝ) ^ 2 = (cell (n + 1) k : ℝ) ^ 2 := by
  obtain ⟨m, hm⟩ := he
  have hk := k.isLt
  have h : cell (n + 1) (-k : Fin (n + 1)) = -cell (n + 1) k ∨ cell (n + 1) (-k : Fin (n + 1)) = cell (n + 1) k := by
    rw [val_neg]
    unfold cell
    by_cases h0 : (k : Nat) = 0
    · right; simp [h0]
    · rw [if_neg h0]
      by_cases h1 : (k : Nat) = m
      · right; split <;> split <;> omega
      · left; split <;> split <;> omega
  rcases h with h | h <;> rw [h]
  push_cast; ring

theorem middle_cell {n : Nat} (he : Even (n + 1)) (k : Fin (n + 1)) : fromMiddle (n + 1) k = (cell (n + 1) k : ℝ) := by
  obtain ⟨m, hm⟩ := he
  have hk := k.isLt
  unfold fromMiddle cell
  have hh : (n + 1) / 2 = m := by omega
  have hN : ((n + 1 : Nat) : ℝ) / 2 = (m : ℝ) := by rw [hm]; push_cast; ring
  rw [hN, hh]
  by_cases h : (k : Nat) < m
  · rw [if_pos h, Nat.mod_eq_of_lt (by omega)]
    push_cast; ring
  · rw [if_neg h, show (k : Nat) + m = ((k : Nat) - m) + (n + 1) by omega, Nat.add_mod_right, Nat.mod_eq_of_lt (by omega)]
    rw [Nat.cast_sub (by omega)]
    have : ((n : ℝ) + 1) = m + m := by exact_mod_cast hm
    push_cast
    linarith

theorem middle_neg {n : Nat} (he : Even (n + 1)) (k : Fin (n + 1)) : fromMiddle (n + 1) (-k : Fin (n + 1)) ^ 2 = fromMiddle (n + 1) k ^ 2 := by
  rw [middle_cell he, middle_cell he]
  exact cell_neg he k

theorem radius_neg {n : Nat} (he : Even (n + 1)) (res : ℝ) (k l : Fin (n + 1)) :
    radius res (n + 1) (-k : Fin (n + 1)) (-l : Fin (n + 1)) = radius res (n + 1) k l := by
  unfold radius
  rw [mul_pow, mul_pow, mul_pow, mul_pow, cell_neg he, cell_neg he]

theorem weight_neg {n : Nat} (he : Even (n + 1)) (res minuv maxuv : ℝ) (dbm : Im n) (w : Rewgt) (k l : Fin (n + 1)) :
    weight res (fft2 (toC dbm)) w (-k) (-l) * mask res minuv maxuv (-k) (-l) = weight res (fft2 (toC dbm)) w k l * mask res minuv maxuv k l := by
  have h1 : mask res minuv maxuv (-k) (-l) = mask res minuv maxuv k l := by
    unfold mask; rw [radius_neg he]
  have h2 : weight res (fft2 (toC dbm)) w (-k) (-l) = weight res (fft2 (toC dbm)) w k l := by
    cases w with
    | natural => rfl
    | uniform level =>
      unfold weight
      simp only [fft2_real, Complex.norm_conj]
    | radial => exact radius_neg he res k l
    | midrange =>
      show midWeight _ _ _ = midWeight _ _ _
      unfold midWeight
      rw [middle_neg he, middle_neg he]
  rw [h1, h2]

theorem cell_freq {N i : Nat} (he : Even N) (_hi : i < N) : IsFreq N i (cell N i) := by
  obtain ⟨m, hm⟩ := he
  unfold cell IsFreq
  by_cases h : i < N / 2
  · rw [if_pos h]
    exact ⟨⟨0, by simp⟩, by omega, by omega⟩
  · rw [if_neg h]
    exact ⟨⟨-1, by ring⟩, by omega, by omega⟩

theorem freq_unique {N i : Nat} (_hi : i < N) {u v : Int} (hu : IsFreq N i u) (hv : IsFreq N i v) : u = v := by
  obtain ⟨⟨a, ha⟩, h1, h2⟩ := hu
  obtain ⟨⟨b, hb⟩, h3, h4⟩ := hv
  have hN : (0 : Int) < N := by omega
  have hd : u - v = (a - b) * N := by rw [ha, hb]; ring
  have h5 : u - v < N := by omega
  have h6 : -(N : Int) < u - v := by omega
  have h7 : a - b = 0 := by
    by_contra hne
    rcases lt_or_gt_of_ne hne with h | h
    · have : (a - b) * N ≤ (-1) * N := mul_le_mul_of_nonneg_right (by omega) (le_of_lt hN)
      omega
    · have : 1 * (N : Int) ≤ (a - b) * N := mul_le_mul_of_nonneg_right (by omega) (le_of_lt hN)
      omega
  rw [h7, zero_mul] at hd
  omega

/-! ## Theorems -/

/-- C127: reweighting does not change the sky: whatever sky explains the image with the beam of the file (its middle at pixel `DIM//2`) explains
the image given to the deconvolution with the kernel given to it, for all weights and limits. -/
theorem c127_consistent {n : Nat} (float : List Char → Option ℝ) (o : Opts) (res : ℝ) (dim dbm sky dim' ker' : Im n)
    (h : prepare float o res dim dbm = .go dim' ker')
    (hs : ∀ i j, dim i j = ∑ x, ∑ y, sky x y * dbm (i - x + mid n) (j - y + mid n)) : Sees sky ker' dim' := by
  unfold prepare at h
  split at h
  · cases h
  · cases hp : parseRewgt float o.rewgt with
    | none => rw [hp] at h; cases h
    | some w =>
      rw [hp] at h
      simp only [Out.go.injEq] at h
      obtain ⟨rfl, rfl⟩ := h
      intro i j
      have e : dim = fun i j => ∑ x, ∑ y, sky x y * (fun i j => dbm (i + mid n) (j + mid n)) (i - x) (j - y) := by
        funext i j; exact hs i j
      rw [e, filtered_conv _ sky (fun i j => dbm (i + mid n) (j + mid n)), filtered_shift, recentred_eq]

/-- C127: with natural weights and without limits the image is left as it is and the beam is only recentred. -/
theorem c127_natural {n : Nat} (float : List Char → Option ℝ) (o : Opts) (res : ℝ) (dim dbm : Im n) (hw : o.rewgt = "natural".toList)
    (h1 : o.minuv = 0) (h2 : o.maxuv = -1) (hb : ∃ i j, dbm i j ≠ 0) :
    prepare float o res dim dbm = .go dim (fun i j => dbm (i + mid n) (j + mid n)) := by
  unfold prepare
  have hp : parseRewgt float o.rewgt = some .natural := by rw [hw]; rfl
  have hb' : ¬ ∀ i j, dbm i j = 0 := by
    obtain ⟨i, j, hij⟩ := hb
    exact fun h => hij (h i j)
  rw [if_neg hb', hp]
  have hf : (fun (k l : Fin (n + 1)) => weight res (fft2 (toC dbm)) Rewgt.natural k l * mask res o.minuv o.maxuv k l) = fun _ _ => (1 : ℝ) := by
    funext k l
    simp [weight, mask, h1, h2]
  simp only [hf, filtered_one, recentred_eq]

/-- C127: a weighting whose name begins with none of the four is refused. -/
theorem c127_unknown {n : Nat} (float : List Char → Option ℝ) (o : Opts) (res : ℝ) (dim dbm : Im n) (hb : ∃ i j, dbm i j ≠ 0)
    (hw : ∀ name ∈ ["natural".toList, "uniform".toList, "radial".toList, "midrange".toList], ∀ rest, o.rewgt ≠ name ++ rest) :
    prepare float o res dim dbm = .error := by
  have hpre : ∀ name ∈ ["natural".toList, "uniform".toList, "radial".toList, "midrange".toList], name.isPrefixOf o.rewgt = false := by
    intro name hn
    rw [Bool.eq_false_iff]
    intro h
    obtain ⟨rest, hr⟩ := List.isPrefixOf_iff_prefix.1 h
    exact hw name hn rest hr.symm
  have hp : parseRewgt float o.rewgt = none := by
    unfold parseRewgt
    rw [hpre _ (by simp), hpre _ (by simp), hpre _ (by simp), hpre _ (by simp)]
    rfl
  unfold prepare
  rw [if_neg (by obtain ⟨i, j, hij⟩ := hb; exact fun h => hij (h i j)), hp]

/-- C127, for images with an even number of pixels: the transform of the image is multiplied with the weights asked for.  `u`, `v` are the
coordinates of a cell of the uv plane. -/
theorem c127_weights_partial {n : Nat} (he : Even (n + 1)) (float : List Char → Option ℝ) (o : Opts) (res : ℝ) (dim dbm dim' ker' : Im n)
    (h : prepare float o res dim dbm = .go dim' ker') (k l : Fin (n + 1)) (u v : Int) (hu : IsFreq (n + 1) k u) (hv : IsFreq (n + 1) l v) :
    ∃ W : ℝ, fft2 (toC dim') k l = fft2 (toC dim) k l *
        ((W * (if 0 < o.minuv then 1 - Real.exp (-((u * res) ^ 2 + (v * res) ^ 2) / o.minuv ^ 2) else 1) *
          (if 0 < o.maxuv then Real.exp (-((u * res) ^ 2 + (v * res) ^ 2) / o.maxuv ^ 2) else 1) : ℝ) : ℂ) ∧
      (o.rewgt = "natural".toList → W = 1) ∧
      (o.rewgt = "radial".toList → W = Real.sqrt ((u * res) ^ 2 + (v * res) ^ 2)) ∧
      (o.rewgt = "midrange".toList → ∀ q : ℝ, q = (u ^ 2 + v ^ 2) / ((n + 1) / 2 : ℝ) ^ 2 → W = if q < 1 then q - q ^ 2 else 0) ∧
      (∀ s level, o.rewgt = "uniform(".toList ++ s ++ [')'] → '(' ∉ s → float s = some level → 0 < level →
        W * max ‖fft2 (toC dbm) k l‖ (level * maxAbs (fft2 (toC dbm))) = 1) := by
  unfold prepare at h
  split at h
  · cases h
  · rename_i hnz
    cases hp : parseRewgt float o.rewgt with
    | none => rw [hp] at h; cases h
    | some w =>
      rw [hp] at h
      simp only [Out.go.injEq] at h
      obtain ⟨rfl, rfl⟩ := h
      have eu : cell (n + 1) k = u := freq_unique k.isLt (cell_freq he k.isLt) hu
      have ev : cell (n + 1) l = v := freq_unique l.isLt (cell_freq he l.isLt) hv
      have er2 : radius res (n + 1) k l ^ 2 = (u * res) ^ 2 + (v * res) ^ 2 := by
        unfold radius
        rw [eu, ev, Real.sq_sqrt (by positivity)]
      refine ⟨weight res (fft2 (toC dbm)) w k l, ?_, ?_, ?_, ?_, ?_⟩
      · rw [fft2_filtered _ _ (weight_neg he res o.minuv o.maxuv dbm w)]
        congr 2
        unfold mask
        rw [er2]
        ring
      · intro hw
        rw [hw] at hp
        have : w = .natural := by
          have e : parseRewgt float "natural".toList = some .natural := rfl
          rw [e] at hp; exact (Option.some.inj hp).symm
        rw [this]; rfl
      · intro hw
        rw [hw] at hp
        have : w = .radial := by
          have e : parseRewgt float "radial".toList = some .radial := rfl
          rw [e] at hp; exact (Option.some.inj hp).symm
        rw [this]
        show radius res (n + 1) k l = _
        unfold radius
        rw [eu, ev]
      · intro hw q hq
        rw [hw] at hp
        have : w = .midrange := by
          have e : parseRewgt float "midrange".toList = some .midrange := rfl
          rw [e] at hp; exact (Option.some.inj hp).symm
        rw [this]
        show midWeight (n + 1) k l = _
        unfold midWeight
        have hq' : (fromMiddle (n + 1) k ^ 2 + fromMiddle (n + 1) l ^ 2) / (((n + 1 : Nat) : ℝ) / 2) ^ 2 = q := by
          rw [middle_cell he, middle_cell he, eu, ev, hq]; push_cast; rfl
        rw [hq']
        simp only
        have h0 : 0 ≤ q := by rw [hq]; positivity
        by_cases h1 : q < 1
        · rw [if_pos h1, if_neg (not_lt.2 (mul_nonneg h0 (by linarith)))]; ring
        · rw [if_neg h1]
          by_cases h2 : q * (1 - q) < 0
          · rw [if_pos h2]
          · rw [if_neg h2]
            exact le_antisymm (mul_nonpos_of_nonneg_of_nonpos h0 (by linarith)) (not_lt.1 h2)
      · intro s level hw hs hfl hl
        rw [hw] at hp
        have : w = .uniform level := by
          have e : parseRewgt float ("uniform(".toList ++ s ++ [')']) = some (.uniform level) := by
            have hsplit : splitOn '(' ("uniform(".toList ++ s ++ [')']) = ["uniform".toList, s ++ [')']] := by
              have h1 : ∀ t : List Char, '(' ∉ t → splitOn '(' t = [t] := by
                intro t
                induction t with
                | nil => intro _; rfl
                | cons c t ih =>
                  intro ht
                  rw [List.mem_cons, not_or] at ht
                  have hc : c ≠ '(' := fun e => ht.1 e.symm
                  have e : splitOn '(' (c :: t) = if c = '(' then [] :: splitOn '(' t else match splitOn '(' t with | [] => [[c]] | p :: ps => (c :: p) :: ps := rfl
                  rw [e, if_neg hc, ih ht.2]
              have h2 := h1 (s ++ [')']) (by simp [hs])
              show splitOn '(' ('u' :: 'n' :: 'i' :: 'f' :: 'o' :: 'r' :: 'm' :: '(' :: (s ++ [')'])) = _
              simp [splitOn, h2]
            unfold parseRewgt
            rw [hsplit, if_neg (by simp [List.isPrefixOf]), if_pos (by simp [List.isPrefixOf])]
            simp [hfl]
          rw [e] at hp; exact (Option.some.inj hp).symm
        rw [this]
        show 1 / max _ (maxAbs _ * level) * _ = 1
        rw [mul_comm level]
        have hmax : 0 < maxAbs (fft2 (toC dbm)) := by
          by_contra hle
          apply hnz
          have hz : fft2 (toC dbm) = fft2 (fun _ _ => 0) := by
            funext a b
            have h0 : ‖fft2 (toC dbm) a b‖ ≤ maxAbs (fft2 (toC dbm)) := by
              unfold maxAbs
              exact Finset.le_sup' (fun p : Fin (n + 1) × Fin (n + 1) => ‖fft2 (toC dbm) p.1 p.2‖) (Finset.mem_univ (a, b))
            have h1 : ‖fft2 (toC dbm) a b‖ = 0 := le_antisymm (by linarith [not_lt.1 hle]) (norm_nonneg _)
            rw [norm_eq_zero.1 h1]
            simp [fft2, fft]
          have := fft2_inj hz
          intro i j
          have hij := congrFun (congrFun this i) j
          simpa [toC] using hij
        have : 0 < max ‖fft2 (toC dbm) k l‖ (maxAbs (fft2 (toC dbm)) * level) := lt_of_lt_of_le (mul_pos hmax hl) (le_max_right _ _)
        field_simp

/-- C127: an image with an odd number `2 m + 1` of pixels is not given radial weights: `get_uv` is not symmetric then, and the cell `m` cells from
the middle is given the weight of `m + 1/2` cells. -/
theorem c127_odd_violated {n : Nat} (m : Nat) (hm : 0 < m) (hn : n = 2 * m) (float : List Char → Option ℝ) (o : Opts) (res : ℝ)
    (hw : o.rewgt = "radial".toList) (h1 : o.minuv = 0) (h2 : o.maxuv = -1) (dim dbm dim' ker' : Im n)
    (h : prepare float o res dim dbm = .go dim' ker') (k : Fin (n + 1)) (hk : (k : Nat) = m) :
    IsFreq (n + 1) k m ∧ IsFreq (n + 1) (0 : Fin (n + 1)) 0 ∧
    fft2 (toC dim') k 0 = fft2 (toC dim) k 0 * (((m + 1 / 2) * |res| : ℝ) : ℂ) := by
  refine ⟨⟨⟨0, by simp [hk]⟩, by push_cast; omega, by push_cast; omega⟩, ⟨⟨0, by simp⟩, by push_cast; omega, by push_cast; omega⟩, ?_⟩
  unfold prepare at h
  split at h
  · cases h
  · have hp : parseRewgt float o.rewgt = some .radial := by rw [hw]; rfl
    rw [hp] at h
    simp only [Out.go.injEq] at h
    obtain ⟨rfl, -⟩ := h
    rw [fft2_filtered_mean]
    congr 2
    have c1 : cell (n + 1) k = -(m : Int) - 1 := by
      unfold cell; rw [hk, if_neg (by omega)]; push_cast; omega
    have c2 : cell (n + 1) (-k : Fin (n + 1)) = -(m : Int) := by
      rw [val_neg, hk, if_neg (by omega)]
      unfold cell
      rw [if_neg (by omega)]
      omega
    have c0 : cell (n + 1) (0 : Fin (n + 1)) = 0 := by
      unfold cell
      rw [if_pos (by simp; omega)]
      simp
    have r1 : radius res (n + 1) k (0 : Fin (n + 1)) = (m + 1) * |res| := by
      unfold radius
      rw [c1, c0]
      have : (((-(m : Int) - 1 : Int) : ℝ) * res) ^ 2 + (((0 : Int) : ℝ) * res) ^ 2 = ((m + 1) * |res|) ^ 2 := by
        push_cast
        rw [mul_pow _ |res|, sq_abs]
        ring
      rw [this, Real.sqrt_sq (by positivity)]
    have r2 : radius res (n + 1) (-k : Fin (n + 1)) (0 : Fin (n + 1)) = m * |res| := by
      unfold radius
      rw [c2, c0]
      have : (((-(m : Int) : Int) : ℝ) * res) ^ 2 + (((0 : Int) : ℝ) * res) ^ 2 = (m * |res|) ^ 2 := by
        push_cast
        rw [mul_pow _ |res|, sq_abs]
        ring
      rw [this, Real.sqrt_sq (by positivity)]
    simp only [weight, mask, h1, h2, neg_zero]
    rw [r1, r2]
    norm_num
    ring

open Verif.Deconv in
/-- C127: `--pos_def` ("don't set any negative clean components") is inverted: with it CLEAN takes a negative source, without it (the default)
the source is not found.  A row of four pixels with a source of -1. -/
theorem c127_pos_def_violated (o : Opts) (hd : o.div = false) (r : Bool × Bool) (hr : r = cleanSwitches o) :
    (o.posDef = true → (cleanPy (demo (fun _ => true) ![1, 0, 0, 0] 1 0 3 r.1 r.2) 4 ![0, 0, -1, 0] (fun _ => 0)).map (fun a => a.mdl 2) = some (-1)) ∧
    (o.posDef = false → (cleanPy (demo (fun _ => true) ![1, 0, 0, 0] 1 0 3 r.1 r.2) 4 ![0, 0, -1, 0] (fun _ => 0)).map (fun a => a.mdl 2) = some 0) := by
  subst hr
  constructor
  · intro h
    have : cleanSwitches o = (true, false) := by simp [cleanSwitches, hd, h]
    rw [this]
    decide +kernel
  · intro h
    have : cleanSwitches o = (true, true) := by simp [cleanSwitches, hd, h]
    rw [this]
    decide +kernel

section Example
/-- a beam with its middle at pixel 1 of 2 -/
def demoBeam : Im 1 := fun i j => if i = 1 ∧ j = 1 then 2 else 0

example : prepare (fun _ => none) ⟨"natural".toList, 0, -1, false, false⟩ 1 (fun i _ => (i : ℝ)) demoBeam =
    .go (fun i _ => (i : ℝ)) (fun i j => demoBeam (i + mid 1) (j + mid 1)) :=
  c127_natural _ _ _ _ _ rfl rfl rfl ⟨1, 1, by simp [demoBeam]⟩

example : Even (1 + 1) ∧ IsFreq 2 0 0 ∧ IsFreq 2 1 (-1) := ⟨⟨1, rfl⟩, ⟨⟨0, rfl⟩, by decide, by decide⟩, ⟨⟨-1, rfl⟩, by decide, by decide⟩⟩

example : prepare (fun _ => none) ⟨"robust".toList, 0, -1, false, false⟩ 1 (fun i _ => (i : ℝ)) demoBeam = .error :=
  c127_unknown _ _ _ _ _ ⟨1, 1, by simp [demoBeam]⟩ (by
    intro name hn rest h
    simp only [List.mem_cons, List.not_mem_nil, or_false] at hn
    rcases hn with rfl | rfl | rfl | rfl <;> revert h <;> simp)
end Example

end Verif.Img.ClImg
