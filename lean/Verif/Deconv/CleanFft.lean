import Verif.Deconv.CleanArgs
import Verif.Img.GaussBeam

/-!
# Property C151 : the starting residual that `deconv.clean` computes by Fourier transforms

`CleanArgs` assumes that `np.fft.ifft(np.fft.fft(mdl)*np.fft.fft(ker))` is the cyclic convolution.  Here it is computed as deconv.py 43-48
does, with the transforms as the sums that they are defined to be (`Verif.Dsp.fft`, `Verif.Img.GaussBeam.fft2`), in complex numbers of
which `astype(im.dtype)` takes the real part when the image is real.
-/
namespace Verif.Deconv.Args

open Verif.Deconv Verif.Dsp Verif.Img.GaussBeam

/-! ## The model -/

/-- an array of one axis -/
def line1 {V : Type} (n : Nat) (a : Arr V) : Fin (n + 1) → V := fun i => a.get [i.val]

/-- an array of two axes -/
def plane2 {V : Type} (n1 n2 : Nat) (a : Arr V) : Fin (n1 + 1) → Fin (n2 + 1) → V := fun i j => a.get [i.val, j.val]

/-- `np.fft.ifft(np.fft.fft(mdl) * np.fft.fft(ker))` and the same with `fft2`, deconv.py 43-48, for arrays of one shape; anything
(`other`) for arrays that have to be broadcast and for indices outside -/
noncomputable def cvComplex (other : Arr ℂ → Arr ℂ → List Nat → ℂ) (m ker : Arr ℂ) (ix : List Nat) : ℂ :=
  match m.shape, ix with
  | [n + 1], [i] =>
    if h : ker.shape = [n + 1] ∧ i < n + 1 then ifft (fun k => fft (line1 n m) k * fft (line1 n ker) k) ⟨i, h.2⟩ else other m ker ix
  | [n1 + 1, n2 + 1], [i, j] =>
    if h : ker.shape = [n1 + 1, n2 + 1] ∧ i < n1 + 1 ∧ j < n2 + 1 then
      ifft2 (fun k l => fft2 (plane2 n1 n2 m) k l * fft2 (plane2 n1 n2 ker) k l) ⟨i, h.2.1⟩ ⟨j, h.2.2⟩
    else other m ker ix
  | _, _ => other m ker ix

/-- real numbers as `np.fft` takes them -/
noncomputable def asComplex (a : Arr ℝ) : Arr ℂ := ⟨a.shape, a.ty, fun ix => (a.get ix : ℂ)⟩

/-- the same for real arrays: `.astype(im.dtype)` takes the real part -/
noncomputable def cvReal (other : Arr ℂ → Arr ℂ → List Nat → ℂ) (m ker : Arr ℝ) (ix : List Nat) : ℝ := (cvComplex other (asComplex m) (asComplex ker) ix).re

/-! ## Lemmas -/

theorem cvComplex_conv1 (other : Arr ℂ → Arr ℂ → List Nat → ℂ) {n : Nat} (hn : 0 < n) {m ker : Arr ℂ} (h1 : m.shape = [n]) (h2 : ker.shape = [n])
    {i : Nat} (hi : i < n) : cvComplex other m ker [i] = conv1 n ker m i := by
  obtain ⟨n, rfl⟩ : ∃ k, n = k + 1 := ⟨n - 1, by omega⟩
  unfold cvComplex
  rw [h1]
  show (if h : ker.shape = [n + 1] ∧ i < n + 1 then ifft (fun k => fft (line1 n m) k * fft (line1 n ker) k) ⟨i, h.2⟩ else other m ker [i]) = _
  rw [dif_pos ⟨h2, hi⟩]
  have e : (fun k => fft (line1 n m) k * fft (line1 n ker) k) = fft (fun x => ∑ y, line1 n m y * line1 n ker (x - y)) := by
    funext k
    exact (fft_conv _ _ k).symm
  rw [e, ifft_fft, ← conv1_eq n ker m ⟨i, hi⟩]
  unfold conv
  exact Finset.sum_congr rfl fun y _ => mul_comm _ _

theorem cvComplex_conv2 (other : Arr ℂ → Arr ℂ → List Nat → ℂ) {n1 n2 : Nat} (hn1 : 0 < n1) (hn2 : 0 < n2) {m ker : Arr ℂ} (h1 : m.shape = [n1, n2])
    (h2 : ker.shape = [n1, n2]) {i j : Nat} (hi : i < n1) (hj : j < n2) : cvComplex other m ker [i, j] = conv2 n1 n2 ker m i j := by
  obtain ⟨n1, rfl⟩ : ∃ k, n1 = k + 1 := ⟨n1 - 1, by omega⟩
  obtain ⟨n2, rfl⟩ : ∃ k, n2 = k + 1 := ⟨n2 - 1, by omega⟩
  unfold cvComplex
  rw [h1]
  show (if h : ker.shape = [n1 + 1, n2 + 1] ∧ i < n1 + 1 ∧ j < n2 + 1 then
      ifft2 (fun k l => fft2 (plane2 n1 n2 m) k l * fft2 (plane2 n1 n2 ker) k l) ⟨i, h.2.1⟩ ⟨j, h.2.2⟩ else other m ker [i, j]) = _
  rw [dif_pos ⟨h2, hi, hj⟩]
  refine (c119_convolve (plane2 n1 n2 m) (plane2 n1 n2 ker) ⟨i, hi⟩ ⟨j, hj⟩).trans ?_
  rw [← conv2_eq n1 n2 ker m (⟨i, hi⟩, ⟨j, hj⟩)]
  unfold conv
  rw [Fintype.sum_prod_type]
  exact Finset.sum_congr rfl fun y _ => Finset.sum_congr rfl fun z _ => mul_comm _ _

theorem cvReal_conv1 (other : Arr ℂ → Arr ℂ → List Nat → ℂ) {n : Nat} (hn : 0 < n) {m ker : Arr ℝ} (h1 : m.shape = [n]) (h2 : ker.shape = [n])
    {i : Nat} (hi : i < n) : cvReal other m ker [i] = conv1 n ker m i := by
  unfold cvReal
  rw [cvComplex_conv1 other hn (m := asComplex m) (ker := asComplex ker) h1 h2 hi]
  unfold conv1 asComplex
  rw [Complex.re_sum]
  exact Finset.sum_congr rfl fun k _ => by simp

theorem cvReal_conv2 (other : Arr ℂ → Arr ℂ → List Nat → ℂ) {n1 n2 : Nat} (hn1 : 0 < n1) (hn2 : 0 < n2) {m ker : Arr ℝ} (h1 : m.shape = [n1, n2])
    (h2 : ker.shape = [n1, n2]) {i j : Nat} (hi : i < n1) (hj : j < n2) : cvReal other m ker [i, j] = conv2 n1 n2 ker m i j := by
  unfold cvReal
  rw [cvComplex_conv2 other hn1 hn2 (m := asComplex m) (ker := asComplex ker) h1 h2 hi hj]
  unfold conv2 asComplex
  rw [Complex.re_sum]
  refine Finset.sum_congr rfl fun k _ => ?_
  rw [Complex.re_sum]
  exact Finset.sum_congr rfl fun l _ => by simp

/-! ## The properties -/

/-- **C151**, complex numbers, one axis, with the Fourier transforms of the code. -/
theorem c151_complex1 (other : Arr ℂ → Arr ℂ → List Nat → ℂ) {n : Nat} (hn : 0 < n) (p : Par ℂ ℝ) (hm : p.mag2 = fun x => x.re * x.re + x.im * x.im)
    (fuel : Nat) {im ker : Arr ℂ} {mdl : Option (Arr ℂ)} {area : Option (Arr ℚ)} (hF : Fits [n] im ker mdl area)
    {M Rr : Arr ℂ} {term : Exit} {iterations : Int} {success : Bool}
    (h : deconvClean (cvComplex other) p fuel im ker mdl area = .done M Rr term iterations success) :
    (M.shape = [n] ∧ Rr.shape = [n] ∧ M.ty = im.ty ∧ Rr.ty = im.ty) ∧
      (∀ i, i < n → Rr.get [i] + conv1 n ker M i = im.get [i]) ∧
      ∀ i, i < n → ¬ Inside area [i] → M.get [i] = start mdl [i] :=
  c151_account1 hn (cvComplex other) p (fun x => by rw [hm]; exact add_nonneg (mul_self_nonneg _) (mul_self_nonneg _)) fuel hF
    (fun m hmd _ hi => cvComplex_conv1 other hn (hF.mdlShape m hmd).1 hF.kerShape hi) h

/-- **C151**, complex numbers, two axes. -/
theorem c151_complex2 (other : Arr ℂ → Arr ℂ → List Nat → ℂ) {n1 n2 : Nat} (hn1 : 0 < n1) (hn2 : 0 < n2) (p : Par ℂ ℝ)
    (hm : p.mag2 = fun x => x.re * x.re + x.im * x.im)
    (fuel : Nat) {im ker : Arr ℂ} {mdl : Option (Arr ℂ)} {area : Option (Arr ℚ)} (hF : Fits [n1, n2] im ker mdl area)
    {M Rr : Arr ℂ} {term : Exit} {iterations : Int} {success : Bool}
    (h : deconvClean (cvComplex other) p fuel im ker mdl area = .done M Rr term iterations success) :
    (M.shape = [n1, n2] ∧ Rr.shape = [n1, n2] ∧ M.ty = im.ty ∧ Rr.ty = im.ty) ∧
      (∀ i, i < n1 → ∀ j, j < n2 → Rr.get [i, j] + conv2 n1 n2 ker M i j = im.get [i, j]) ∧
      ∀ i, i < n1 → ∀ j, j < n2 → ¬ Inside area [i, j] → M.get [i, j] = start mdl [i, j] :=
  c151_account2 hn1 hn2 (cvComplex other) p (fun x => by rw [hm]; exact add_nonneg (mul_self_nonneg _) (mul_self_nonneg _)) fuel hF
    (fun m hmd _ hi _ hj => cvComplex_conv2 other hn1 hn2 (hF.mdlShape m hmd).1 hF.kerShape hi hj) h

/-- **C151**, real numbers, one axis. -/
theorem c151_real1 (other : Arr ℂ → Arr ℂ → List Nat → ℂ) {n : Nat} (hn : 0 < n) (p : Par ℝ ℝ) (hm : p.mag2 = fun x => x * x)
    (fuel : Nat) {im ker : Arr ℝ} {mdl : Option (Arr ℝ)} {area : Option (Arr ℚ)} (hF : Fits [n] im ker mdl area)
    {M Rr : Arr ℝ} {term : Exit} {iterations : Int} {success : Bool}
    (h : deconvClean (cvReal other) p fuel im ker mdl area = .done M Rr term iterations success) :
    (M.shape = [n] ∧ Rr.shape = [n] ∧ M.ty = im.ty ∧ Rr.ty = im.ty) ∧
      (∀ i, i < n → Rr.get [i] + conv1 n ker M i = im.get [i]) ∧
      ∀ i, i < n → ¬ Inside area [i] → M.get [i] = start mdl [i] :=
  c151_account1 hn (cvReal other) p (fun x => by rw [hm]; exact mul_self_nonneg _) fuel hF
    (fun m hmd _ hi => cvReal_conv1 other hn (hF.mdlShape m hmd).1 hF.kerShape hi) h

/-- **C151**, real numbers, two axes. -/
theorem c151_real2 (other : Arr ℂ → Arr ℂ → List Nat → ℂ) {n1 n2 : Nat} (hn1 : 0 < n1) (hn2 : 0 < n2) (p : Par ℝ ℝ) (hm : p.mag2 = fun x => x * x)
    (fuel : Nat) {im ker : Arr ℝ} {mdl : Option (Arr ℝ)} {area : Option (Arr ℚ)} (hF : Fits [n1, n2] im ker mdl area)
    {M Rr : Arr ℝ} {term : Exit} {iterations : Int} {success : Bool}
    (h : deconvClean (cvReal other) p fuel im ker mdl area = .done M Rr term iterations success) :
    (M.shape = [n1, n2] ∧ Rr.shape = [n1, n2] ∧ M.ty = im.ty ∧ Rr.ty = im.ty) ∧
      (∀ i, i < n1 → ∀ j, j < n2 → Rr.get [i, j] + conv2 n1 n2 ker M i j = im.get [i, j]) ∧
      ∀ i, i < n1 → ∀ j, j < n2 → ¬ Inside area [i, j] → M.get [i, j] = start mdl [i, j] :=
  c151_account2 hn1 hn2 (cvReal other) p (fun x => by rw [hm]; exact mul_self_nonneg _) fuel hF
    (fun m hmd _ hi _ hj => cvReal_conv2 other hn1 hn2 (hF.mdlShape m hmd).1 hF.kerShape hi hj) h

/-- the keywords of the example -/
noncomputable def realPar : Par ℝ ℝ where
  gain := 1 / 10
  maxiter := 5
  tol := 1 / 1000
  stopIfDiv := true
  posDef := false
  mag2 := fun x => x * x
  isPos := fun x => decide (0 < x)
  sqrt := Real.sqrt

theorem realPar_usual : Usual realPar where
  nonneg := fun x => mul_self_nonneg x
  zero := fun _ => mul_self_eq_zero
  neg := fun x => neg_mul_neg x x
  root := fun x => Real.sqrt_nonneg x
  rootPos := fun _ h => Real.sqrt_pos.mpr h

/-- there is a call with a model that returns, so that `c151_real1` applies -/
example (other : Arr ℂ → Arr ℂ → List Nat → ℂ) : ∃ M Rr term iterations success,
    deconvClean (cvReal other) realPar (realPar.maxiter.toNat + 1) (row .f64 0 [4, 2, 1]) (row .f64 0 [1, 1 / 2, 0]) (some (row .f64 0 [1, 0, 0])) none =
      .done M Rr term iterations success :=
  c151_returns (cvReal other) realPar realPar_usual rfl (shape := [3]) (Or.inl rfl) (by decide)
    ⟨rfl, rfl, (fun m hm => by cases hm; exact ⟨rfl, rfl⟩), (fun a ha => by cases ha), rfl, by simp [row]⟩
    (fun a ha => by cases ha) ⟨[0], by decide, (fun a ha => by cases ha), by simp [row]⟩

end Verif.Deconv.Args
