import Verif.Img.Imaging
import Verif.Img.WProps
import Mathlib.Analysis.SpecialFunctions.Trigonometric.Bounds
/-!
# Property C77 : what w projection does to the image

Model of `ImgW.conv_invker` and of the convolution in `ImgW.put` (`/repo/aipy/img.py` 262-269, 310-325), over exact complex
numbers (the code rounds the square root to single precision).  `conv` of `WModel.lean` is `convW` here.
-/
noncomputable section
namespace Verif.Img
open Finset

/-! ## Model -/

/-- `np.fft.fft2(m)` at (k1, k2) -/
def fwdDft (n : Nat) (m : Nat → ℂ) (k1 k2 : Nat) : ℂ :=
  ∑ a ∈ range n, ∑ b ∈ range n, m (a * n + b) * Complex.exp (-(2 * Real.pi * Complex.I * ((a * k1 + b * k2 : ℕ) : ℂ) / n))

/-- `G = exp(-2j*pi*w*(sqrt(1-L**2-M**2) - 1)).filled(0)` at row r, column c, img.py 316-321 -/
def wKernel (n : Nat) (res w : ℝ) (r c : Nat) : ℂ :=
  match lmPix n res r c with
  | none => 0
  | some (l, m) => Complex.exp (-(2 * Real.pi * Complex.I * w * (√(1 - l ^ 2 - m ^ 2) - 1 : ℝ)))

/-- row r of the array after `G[1:] = flipud(G[1:])` is row `flip n r` of the array before, img.py 323-324 -/
def flip (n r : Nat) : Nat := if r = 0 then 0 else n - r

/-- `conv_invker(u, v, w)`: the kernel, turned around and divided by `G.size`, img.py 310-325 -/
def invker (n : Nat) (res w : ℝ) (r c : Nat) : ℂ := wKernel n res w (flip n r) (flip n c) / (n * n)

/-- `np.fft.ifft2(np.fft.fft2(m) * invker)`, img.py 267-269 -/
def convW (n : Nat) (res w : ℝ) (m : Nat → ℂ) : Nat → ℂ :=
  flat n (invDft n (flat n (fun k1 k2 => fwdDft n m k1 k2 * invker n res w k1 k2)))

/-! ## Specification -/

/-- third coordinate of the unit vector with (l,m) -/
def nOf (lm : ℝ × ℝ) : ℝ := √(1 - lm.1 ^ 2 - lm.2 ^ 2)

/-- what one sample of value `d` adds towards (l,m): `directSum` of one sample -/
def oneSum (res : ℝ) (s : Samp) (d : ℂ) (lm : ℝ × ℝ) : ℂ :=
  d * turn (-(s.u * lm.1 + s.v * lm.2)) * gridKernel res (s.u, s.v) lm

/-- samples, with weights, of a source of flux S in direction (l0,m0): the phase of its delay relative to the phase
centre, `u l + v m + w (n - 1)` -/
def IsSource (S : ℝ) (lm : ℝ × ℝ) (s : Samp) : Prop :=
  s.d = S * s.wt * turn (s.u * lm.1 + s.v * lm.2 + s.w * (nOf lm - 1))

/-! ## Lemmas: discrete Fourier transforms -/

/-- one-dimensional sum with roots of unity -/
def jsum (n : Nat) (f : Nat → ℂ) (r : Nat) : ℂ := ∑ k ∈ range n, f k * turn (((k * r : ℕ) : ℝ) / n)

theorem turn_nat_mul (k : Nat) (t : ℝ) : turn (k * t) = turn t ^ k := by
  induction k with
  | zero => simp [turn_zero]
  | succ k ih => rw [pow_succ, ← ih, ← turn_add]; congr 1; push_cast; ring

theorem turn_eq_one (t : ℝ) : turn t = 1 ↔ ∃ k : ℤ, t = k := by
  constructor
  · intro h
    unfold turn at h
    rw [Complex.exp_eq_one_iff] at h
    obtain ⟨k, hk⟩ := h
    refine ⟨k, ?_⟩
    have hpi : (2 * (Real.pi : ℂ) * Complex.I) ≠ 0 := Complex.two_pi_I_ne_zero
    have : (2 * (Real.pi : ℂ) * Complex.I) * (t : ℂ) = (2 * (Real.pi : ℂ) * Complex.I) * (k : ℂ) := by rw [hk]; ring
    exact_mod_cast mul_left_cancel₀ hpi this
  · rintro ⟨k, rfl⟩; exact turn_int k

theorem flip_lt {n r : Nat} (h : r < n) : flip n r < n := by unfold flip; split <;> omega

theorem flip_flip {n r : Nat} (h : r < n) : flip n (flip n r) = r := by unfold flip; split <;> split <;> omega

theorem root_sum {n : Nat} (a r : Nat) (ha : a < n) (hr : r < n) :
    ∑ k ∈ range n, turn (((a * k : ℕ) : ℝ) / n) * turn (((k * r : ℕ) : ℝ) / n) = if a = flip n r then (n : ℂ) else 0 := by
  have hn : (n : ℝ) ≠ 0 := by exact_mod_cast (by omega : n ≠ 0)
  have e : ∀ k ∈ range n, turn (((a * k : ℕ) : ℝ) / n) * turn (((k * r : ℕ) : ℝ) / n) = turn (((a + r : ℕ) : ℝ) / n) ^ k := by
    intro k _
    rw [← turn_nat_mul, ← turn_add]
    congr 1
    push_cast
    ring
  rw [Finset.sum_congr rfl e]
  split
  · rename_i h
    have h1 : turn (((a + r : ℕ) : ℝ) / n) = 1 := by
      rw [turn_eq_one]
      unfold flip at h
      split at h
      · exact ⟨0, by rw [show a + r = 0 by omega]; simp⟩
      · refine ⟨1, ?_⟩
        rw [show a + r = n by omega]
        push_cast
        field_simp
    rw [h1]
    simp
  · rename_i h
    have h1 : turn (((a + r : ℕ) : ℝ) / n) ≠ 1 := by
      intro hc
      rw [turn_eq_one] at hc
      obtain ⟨k, hk⟩ := hc
      rw [div_eq_iff hn] at hk
      have hk' : ((a + r : ℕ) : ℤ) = k * n := by exact_mod_cast hk
      apply h
      unfold flip
      have hk0 : k = 0 ∨ k = 1 := by
        have : k < 2 := by
          by_contra hge
          have : 2 * (n : ℤ) ≤ k * n := mul_le_mul_of_nonneg_right (by omega) (by omega)
          omega
        have : -1 < k := by
          by_contra hge
          have : k * (n : ℤ) ≤ (-1) * n := mul_le_mul_of_nonneg_right (by omega) (by omega)
          omega
        omega
      rcases hk0 with rfl | rfl
      · rw [if_pos (by omega)]; omega
      · rw [if_neg (by omega)]; omega
    have h2 : turn (((a + r : ℕ) : ℝ) / n) ^ n = 1 := by
      rw [← turn_nat_mul, turn_eq_one]
      exact ⟨(a + r : ℕ), by field_simp; push_cast; ring⟩
    have h3 := mul_geom_sum (turn (((a + r : ℕ) : ℝ) / n)) n
    rw [h2, sub_self] at h3
    rcases mul_eq_zero.1 h3 with h4 | h4
    · exact absurd (sub_eq_zero.1 h4) h1
    · exact h4

theorem jsum_jsum {n : Nat} (f : Nat → ℂ) (r : Nat) (hr : r < n) : jsum n (jsum n f) r = n * f (flip n r) := by
  unfold jsum
  simp only [Finset.sum_mul]
  rw [Finset.sum_comm]
  have : ∀ a ∈ range n, ∑ k ∈ range n, f a * turn (((a * k : ℕ) : ℝ) / n) * turn (((k * r : ℕ) : ℝ) / n) =
      if a = flip n r then n * f (flip n r) else 0 := by
    intro a ha
    have h := root_sum a r (Finset.mem_range.1 ha) hr
    simp only [mul_assoc]
    rw [← Finset.mul_sum, h]
    split
    · rename_i hh; rw [hh]; ring
    · simp
  rw [Finset.sum_congr rfl this, Finset.sum_ite_eq' (range n) (flip n r), if_pos (Finset.mem_range.2 (flip_lt hr))]

theorem jsum_comm (n : Nat) (Y : Nat → Nat → ℂ) (r c : Nat) :
    jsum n (fun k => jsum n (fun a => Y a k) r) c = jsum n (fun a => jsum n (fun k => Y a k) c) r := by
  unfold jsum
  simp only [Finset.sum_mul]
  rw [Finset.sum_comm]
  apply Finset.sum_congr rfl; intro a _
  apply Finset.sum_congr rfl; intro k _
  ring

theorem jsum_congr {n : Nat} {f g : Nat → ℂ} (h : ∀ k, k < n → f k = g k) (r : Nat) : jsum n f r = jsum n g r := by
  unfold jsum
  apply Finset.sum_congr rfl; intro k hk
  rw [h k (Finset.mem_range.1 hk)]

theorem jsum_smul (n : Nat) (z : ℂ) (f : Nat → ℂ) (r : Nat) : jsum n (fun k => z * f k) r = z * jsum n f r := by
  unfold jsum
  rw [Finset.mul_sum]
  apply Finset.sum_congr rfl; intro k _
  ring

theorem exp_nat_turn (k n : Nat) : Complex.exp (2 * Real.pi * Complex.I * (k : ℂ) / n) = turn ((k : ℝ) / n) := by
  unfold turn
  congr 1
  push_cast
  ring

/-- the two-dimensional transform, axis by axis -/
theorem invDft_jsum (n : Nat) (m : Nat → ℂ) (r c : Nat) :
    invDft n m r c = (1 / (n * n : ℂ)) * jsum n (fun a => jsum n (fun b => m (a * n + b)) c) r := by
  unfold invDft jsum
  congr 1
  apply Finset.sum_congr rfl; intro a _
  rw [Finset.sum_mul]
  apply Finset.sum_congr rfl; intro b _
  rw [exp_nat_turn, mul_assoc]
  congr 1
  rw [← turn_add]
  congr 1
  push_cast
  ring

/-- transforming twice turns the array around -/
theorem invDft_twice {n : Nat} (X : Nat → Nat → ℂ) (r c : Nat) (hr : r < n) (hc : c < n) :
    invDft n (flat n (invDft n (flat n X))) r c = (1 / (n * n : ℂ)) * X (flip n r) (flip n c) := by
  have hn : (n : ℂ) ≠ 0 := by exact_mod_cast (by omega : n ≠ 0)
  rw [invDft_jsum]
  have e : ∀ a, a < n → jsum n (fun b => flat n (invDft n (flat n X)) (a * n + b)) c =
      (1 / (n * n : ℂ)) * jsum n (fun s => n * X s (flip n c)) a := by
    intro a _
    rw [jsum_congr (g := fun b => (1 / (n * n : ℂ)) * jsum n (fun s => jsum n (fun t => X s t) b) a)]
    · rw [jsum_smul, jsum_comm]
      congr 1
      apply jsum_congr
      intro s _
      exact jsum_jsum (fun t => X s t) c hc
    · intro b hb
      rw [flat_at _ _ _ hb, invDft_jsum]
      congr 1
      apply jsum_congr
      intro s _
      apply jsum_congr
      intro t ht
      rw [flat_at _ _ _ ht]
  rw [jsum_congr e, jsum_smul, jsum_jsum (fun s => (n : ℂ) * X s (flip n c)) r hr]
  field_simp

/-- `fft2` at the turned place is n² times `ifft2` -/
theorem fwdDft_flip {n : Nat} (m : Nat → ℂ) (r c : Nat) (hr : r < n) (hc : c < n) :
    fwdDft n m (flip n r) (flip n c) = (n * n : ℂ) * invDft n m r c := by
  have hn : (n : ℝ) ≠ 0 := by exact_mod_cast (by omega : n ≠ 0)
  have hnc : (n : ℂ) ≠ 0 := by exact_mod_cast (by omega : n ≠ 0)
  unfold fwdDft invDft
  rw [← mul_assoc, mul_one_div_cancel (mul_ne_zero hnc hnc), one_mul]
  apply Finset.sum_congr rfl; intro a _
  apply Finset.sum_congr rfl; intro b _
  congr 1
  rw [exp_nat_turn]
  have e : Complex.exp (-(2 * Real.pi * Complex.I * ((a * flip n r + b * flip n c : ℕ) : ℂ) / n)) =
      turn (-(((a * flip n r + b * flip n c : ℕ) : ℝ) / n)) := by
    unfold turn
    congr 1
    push_cast
    ring
  rw [e]
  have hf : ∀ x, x < n → ∃ k : ℤ, ((flip n x : ℕ) : ℝ) = k * n - x := by
    intro x hx
    unfold flip
    split
    · rename_i h0; exact ⟨0, by rw [h0]; simp⟩
    · exact ⟨1, by rw [Nat.cast_sub hx.le]; simp⟩
  obtain ⟨k1, h1⟩ := hf r hr
  obtain ⟨k2, h2⟩ := hf c hc
  apply turn_shift _ _ (-(a * k1) - b * k2)
  push_cast
  rw [h1, h2]
  field_simp
  ring

/-! ## C77: the kernel -/

/-- C77: convolving a uv matrix with the kernel of `w` multiplies its image, pixel by pixel, with the phase of `w` in that
direction (zero below the horizon) — and divides it by the number of pixels. -/
theorem c77_kernel (n : Nat) (res w : ℝ) (m : Nat → ℂ) (r c : Nat) (hr : r < n) (hc : c < n) :
    invDft n (convW n res w m) r c = (1 / (n * n : ℂ)) * (wKernel n res w r c * invDft n m r c) := by
  have hnc : (n : ℂ) ≠ 0 := by exact_mod_cast (by omega : n ≠ 0)
  unfold convW
  rw [invDft_twice _ r c hr hc, fwdDft_flip m r c hr hc]
  unfold invker
  rw [flip_flip hr, flip_flip hc]
  field_simp

theorem idx_lt {n : Nat} (hn : n ≠ 0) (q : ℤ) : (q % n).toNat < n := by
  have := Int.emod_lt_of_pos q (by omega : (0 : ℤ) < n)
  have := Int.emod_nonneg q (by omega : (n : ℤ) ≠ 0)
  omega

/-- the kernel in the pixel at (l,m) -/
theorem wKernel_at (n : Nat) (res w : ℝ) (q p : ℤ) (h1 : -(n : ℤ) < 2 * q) (h2 : 2 * q ≤ n) (h3 : -(n : ℤ) < 2 * p)
    (h4 : 2 * p ≤ n) : wKernel n res w (q % n).toNat (p % n).toNat =
      if (lOf n res p) ^ 2 + (mOf n res q) ^ 2 < 1 then turn (-(w * (nOf (lOf n res p, mOf n res q) - 1))) else 0 := by
  unfold wKernel lmPix
  rw [rowOff_eq q q (by simp) h1 h2, colOff_eq p p (by simp) h3 h4]
  have el : ((-p : ℤ) : ℝ) / n / res = lOf n res p := by unfold lOf; push_cast; rw [div_div]
  have em : (q : ℝ) / n / res = mOf n res q := by unfold mOf; rw [div_div]
  simp only [el, em]
  by_cases h : (lOf n res p) ^ 2 + (mOf n res q) ^ 2 < 1
  · rw [if_pos h, if_neg (by linarith)]
    simp only
    unfold turn nOf
    congr 1
    push_cast
    ring
  · rw [if_neg h, if_pos (by linarith)]

theorem chunk_zip (res : ℝ) (b : List Samp) (f : Samp → ℂ) :
    b.map (fun p => (getIndices res (p.u, p.v), f p)) =
      ((b.map (fun p => (p.u, p.v))).map (getIndices res)).zip (b.map f) := by
  induction b with
  | nil => rfl
  | cons x b ih => simp [ih]

theorem chunk_sum (res : ℝ) (b : List Samp) (f : Samp → ℂ) (lm : ℝ × ℝ) :
    directSum res (b.map (fun p => (p.u, p.v))) (b.map f) lm = (b.map (fun p => oneSum res p (f p) lm)).sum := by
  unfold directSum oneSum
  induction b with
  | nil => rfl
  | cons x b ih => rw [List.map_cons, List.map_cons, List.zip_cons_cons, List.map_cons, List.sum_cons, ih, List.map_cons, List.sum_cons]

/-- the sum over the chunks, each turned by the phase of its mean w -/
def wSum (res : ℝ) (cs : List (List Samp)) (f : Samp → ℂ) (lm : ℝ × ℝ) : ℂ :=
  (cs.map (fun c => turn (-(avgW c * (nOf lm - 1))) * (c.map (fun p => oneSum res p (f p) lm)).sum)).sum

theorem putChunk_image (g : WImage) (hn : g.dim ≠ 0) (hres : g.res ≠ 0) (b : List Samp) :
    ∃ g', putChunk (convW g.dim g.res) g b = some g' ∧ g'.dim = g.dim ∧ g'.res = g.res ∧ g'.wres = g.wres ∧
      ∀ q p : ℤ, -(g.dim : ℤ) < 2 * q → 2 * q ≤ g.dim → -(g.dim : ℤ) < 2 * p → 2 * p ≤ g.dim →
        invDft g.dim g'.uv (q % g.dim).toNat (p % g.dim).toNat = invDft g.dim g.uv (q % g.dim).toNat (p % g.dim).toNat +
          (if (lOf g.dim g.res p) ^ 2 + (mOf g.dim g.res q) ^ 2 < 1 then (1 / (g.dim * g.dim : ℂ)) ^ 2 *
            wSum g.res [b] (fun p => p.d) (lOf g.dim g.res p, mOf g.dim g.res q) else 0) ∧
        invDft g.dim g'.bm (q % g.dim).toNat (p % g.dim).toNat = invDft g.dim g.bm (q % g.dim).toNat (p % g.dim).toNat +
          (if (lOf g.dim g.res p) ^ 2 + (mOf g.dim g.res q) ^ 2 < 1 then (1 / (g.dim * g.dim : ℂ)) ^ 2 *
            wSum g.res [b] (fun p => p.wt) (lOf g.dim g.res p, mOf g.dim g.res q) else 0) := by
  obtain ⟨m, a1, -⟩ := c28_square_partial g.dim 3 hn (b.map (fun p => (getIndices g.res (p.u, p.v), p.d))) (fun _ => 0)
  obtain ⟨k, b1, -⟩ := c28_square_partial g.dim 3 hn (b.map (fun p => (getIndices g.res (p.u, p.v), p.wt))) (fun _ => 0)
  refine ⟨{ g with uv := fun t => g.uv t + convW g.dim g.res (avgW b) m t, bm := fun t => g.bm t + convW g.dim g.res (avgW b) k t },
    by unfold putChunk; rw [a1, b1]; rfl, rfl, rfl, rfl, ?_⟩
  intro q p h1 h2 h3 h4
  have hr := idx_lt hn q
  have hc := idx_lt hn p
  have one : ∀ (f : Samp → ℂ) (x y : Nat → ℂ), grid2D g.dim g.dim 3 (fun _ => 0)
      (b.map (fun p => (getIndices g.res (p.u, p.v), f p))) = some y →
      invDft g.dim (fun t => x t + convW g.dim g.res (avgW b) y t) (q % g.dim).toNat (p % g.dim).toNat =
        invDft g.dim x (q % g.dim).toNat (p % g.dim).toNat +
          (if (lOf g.dim g.res p) ^ 2 + (mOf g.dim g.res q) ^ 2 < 1 then (1 / (g.dim * g.dim : ℂ)) ^ 2 *
            wSum g.res [b] f (lOf g.dim g.res p, mOf g.dim g.res q) else 0) := by
    intro f x y hy
    rw [invDft_add (n := g.dim) _ x (convW g.dim g.res (avgW b) y) (fun _ _ _ _ => rfl), c77_kernel _ _ _ _ _ _ hr hc]
    rw [chunk_zip] at hy
    rw [grid_direct hn g.res hres _ _ _ _ hy q p, invDft_zero, zero_add, chunk_sum, wKernel_at _ _ _ _ _ h1 h2 h3 h4]
    congr 1
    unfold wSum
    simp only [List.map_cons, List.map_nil, List.sum_cons, List.sum_nil, add_zero]
    split
    · ring
    · simp
  exact ⟨one _ _ _ a1, one _ _ _ b1⟩

theorem fold_image : ∀ (cs : List (List Samp)) (g : WImage), g.dim ≠ 0 → g.res ≠ 0 →
    ∃ g', cs.foldlM (putChunk (convW g.dim g.res)) g = some g' ∧ g'.dim = g.dim ∧ g'.res = g.res ∧ g'.wres = g.wres ∧
      ∀ q p : ℤ, -(g.dim : ℤ) < 2 * q → 2 * q ≤ g.dim → -(g.dim : ℤ) < 2 * p → 2 * p ≤ g.dim →
        invDft g.dim g'.uv (q % g.dim).toNat (p % g.dim).toNat = invDft g.dim g.uv (q % g.dim).toNat (p % g.dim).toNat +
          (if (lOf g.dim g.res p) ^ 2 + (mOf g.dim g.res q) ^ 2 < 1 then (1 / (g.dim * g.dim : ℂ)) ^ 2 *
            wSum g.res cs (fun p => p.d) (lOf g.dim g.res p, mOf g.dim g.res q) else 0) ∧
        invDft g.dim g'.bm (q % g.dim).toNat (p % g.dim).toNat = invDft g.dim g.bm (q % g.dim).toNat (p % g.dim).toNat +
          (if (lOf g.dim g.res p) ^ 2 + (mOf g.dim g.res q) ^ 2 < 1 then (1 / (g.dim * g.dim : ℂ)) ^ 2 *
            wSum g.res cs (fun p => p.wt) (lOf g.dim g.res p, mOf g.dim g.res q) else 0) := by
  intro cs
  induction cs with
  | nil => intro g _ _; exact ⟨g, rfl, rfl, rfl, rfl, fun q p _ _ _ _ => by simp [wSum]⟩
  | cons c cs ih =>
    intro g hn hres
    obtain ⟨g1, a1, a2, a3, a4, a5⟩ := putChunk_image g hn hres c
    obtain ⟨g', b1, b2, b3, b4, b5⟩ := ih g1 (by rw [a2]; exact hn) (by rw [a3]; exact hres)
    rw [a2, a3] at b1 b5
    refine ⟨g', by rw [List.foldlM_cons, a1]; exact b1, by rw [b2, a2], by rw [b3, a3], by rw [b4, a4], ?_⟩
    intro q p h1 h2 h3 h4
    obtain ⟨c1, c2⟩ := a5 q p h1 h2 h3 h4
    obtain ⟨d1, d2⟩ := b5 q p h1 h2 h3 h4
    rw [d1, d2, c1, c2]
    unfold wSum
    simp only [List.map_cons, List.map_nil, List.sum_cons, List.sum_nil, add_zero]
    constructor
    · split
      · ring
      · ring
    · split
      · ring
      · ring

/-- C77: what `ImgW.put` adds to the images: the direct Fourier sum of every chunk of like w, turned by the phase the mean
w of the chunk has in the direction of the pixel; nothing at and below the horizon.  Everything divided by the square of the
number of pixels, where `Img.put` (`c76_direct`) divides by the number of pixels. -/
theorem c77_put (g : WImage) (hn : g.dim ≠ 0) (hres : g.res ≠ 0) (hw : 0 < g.wres) (order : List Nat) (samples : List Samp)
    (ho : SortsByW order samples) (hne : samples ≠ []) :
    ∃ g' cs, g.put (convW g.dim g.res) order samples = some g' ∧ g'.dim = g.dim ∧ g'.res = g.res ∧
      chunks g.wres order samples = some cs ∧ cs.flatten.Perm samples ∧
      ∀ q p : ℤ, -(g.dim : ℤ) < 2 * q → 2 * q ≤ g.dim → -(g.dim : ℤ) < 2 * p → 2 * p ≤ g.dim →
        invDft g.dim g'.uv (q % g.dim).toNat (p % g.dim).toNat = invDft g.dim g.uv (q % g.dim).toNat (p % g.dim).toNat +
          (if (lOf g.dim g.res p) ^ 2 + (mOf g.dim g.res q) ^ 2 < 1 then (1 / (g.dim * g.dim : ℂ)) ^ 2 *
            wSum g.res cs (fun p => p.d) (lOf g.dim g.res p, mOf g.dim g.res q) else 0) ∧
        invDft g.dim g'.bm (q % g.dim).toNat (p % g.dim).toNat = invDft g.dim g.bm (q % g.dim).toNat (p % g.dim).toNat +
          (if (lOf g.dim g.res p) ^ 2 + (mOf g.dim g.res q) ^ 2 < 1 then (1 / (g.dim * g.dim : ℂ)) ^ 2 *
            wSum g.res cs (fun p => p.wt) (lOf g.dim g.res p, mOf g.dim g.res q) else 0) := by
  obtain ⟨cs, e1, e2, _⟩ := c25_partition g.wres hw order samples hne ho
  obtain ⟨g', a1, a2, a3, a4, a5⟩ := fold_image cs g hn hres
  refine ⟨g', cs, ?_, a2, a3, e1, e2, a5⟩
  unfold WImage.put
  rw [if_neg hne, e1]
  exact a1

/-! ## C77: sources -/

theorem w_of_ssqrt (w : ℝ) : w = ssqrt w * |ssqrt w| := by
  unfold ssqrt
  have h := Real.mul_self_sqrt (abs_nonneg w)
  have h0 := Real.sqrt_nonneg |w|
  rcases lt_trichotomy w 0 with hw | hw | hw
  · rw [if_neg (by linarith), if_pos hw, mul_neg_one, abs_neg, abs_of_nonneg h0]
    rw [abs_of_neg hw] at h ⊢
    linarith
  · rw [hw]; simp
  · rw [if_pos hw, mul_one, abs_of_nonneg h0, h, abs_of_pos hw]

theorem ssqrt_le (w W : ℝ) (h : |w| ≤ W) : |ssqrt w| ≤ √W := by
  unfold ssqrt
  have h0 := Real.sqrt_nonneg |w|
  have h1 : √|w| ≤ √W := Real.sqrt_le_sqrt h
  have h2 := Real.sqrt_nonneg W
  rcases lt_trichotomy w 0 with hw | hw | hw
  · rw [if_neg (by linarith), if_pos hw, mul_neg_one, abs_neg, abs_of_nonneg h0]; exact h1
  · rw [hw]; simp
  · rw [if_pos hw, mul_one, abs_of_nonneg h0]; exact h1

theorem abs_sq_diff (a b : ℝ) : |a * |a| - b * (|b|)| ≤ (|a| + |b|) * |a - b| := by
  rcases abs_cases a with ⟨ha, ha'⟩ | ⟨ha, ha'⟩ <;> rcases abs_cases b with ⟨hb, hb'⟩ | ⟨hb, hb'⟩ <;> rw [ha, hb]
  · rw [show a * a - b * b = (a + b) * (a - b) by ring, abs_mul, abs_of_nonneg (by linarith : 0 ≤ a + b)]
  · rw [abs_of_nonneg (by nlinarith : 0 ≤ a * a - b * -b), abs_of_nonneg (by linarith : 0 ≤ a - b)]; nlinarith
  · rw [abs_of_nonpos (by nlinarith : a * -a - b * b ≤ 0), abs_of_nonpos (by linarith : a - b ≤ 0)]; nlinarith
  · rw [show a * -a - b * -b = (-a + -b) * (a - b) by ring, abs_mul, abs_of_nonneg (by linarith : 0 ≤ -a + -b)]

/-- samples of one chunk have nearly the same w -/
theorem w_near {wres W : ℝ} {p q : Samp} (hp : |p.w| ≤ W) (hq : |q.w| ≤ W) (h : |ssqrt p.w - ssqrt q.w| < wres) :
    |p.w - q.w| ≤ 2 * √W * wres := by
  have h1 := abs_sq_diff (ssqrt p.w) (ssqrt q.w)
  rw [← w_of_ssqrt, ← w_of_ssqrt] at h1
  have h2 := ssqrt_le p.w W hp
  have h3 := ssqrt_le q.w W hq
  have h4 := abs_nonneg (ssqrt p.w - ssqrt q.w)
  refine h1.trans ?_
  have : |ssqrt p.w| + |ssqrt q.w| ≤ 2 * √W := by linarith
  exact mul_le_mul this h.le h4 (by positivity)

/-- and so has their mean -/
theorem avg_near (c : List Samp) (s : Samp) (D : ℝ) (hc : c ≠ []) (h : ∀ q ∈ c, |s.w - q.w| ≤ D) : |s.w - avgW c| ≤ D := by
  have hl : (0 : ℝ) < c.length := by exact_mod_cast List.length_pos_iff.2 hc
  have key : ∀ c : List Samp, (∀ q ∈ c, |s.w - q.w| ≤ D) →
      |c.length * s.w - (c.map (fun p => p.w)).sum| ≤ c.length * D := by
    intro c
    induction c with
    | nil => intro _; simp
    | cons x c ih =>
      intro h
      have h1 := ih (fun q hq => h q (by simp [hq]))
      have h2 := h x (by simp)
      rw [List.map_cons, List.sum_cons, List.length_cons]
      push_cast
      rw [show ((c.length : ℝ) + 1) * s.w - (x.w + (c.map (fun p => p.w)).sum) =
        (c.length * s.w - (c.map (fun p => p.w)).sum) + (s.w - x.w) by ring]
      refine (abs_add_le _ _).trans ?_
      linarith
  have hk := key c h
  unfold avgW
  have : s.w - (c.map (fun p => p.w)).sum / c.length = (c.length * s.w - (c.map (fun p => p.w)).sum) / c.length := by
    field_simp
  rw [this, abs_div, abs_of_pos hl, div_le_iff₀ hl]
  linarith

theorem turn_near (a : ℝ) : ‖turn a - 1‖ ≤ 2 * Real.pi * |a| := by
  have h := Real.norm_exp_I_mul_ofReal_sub_one_le (x := 2 * Real.pi * a)
  have e : turn a = Complex.exp (Complex.I * ((2 * Real.pi * a : ℝ) : ℂ)) := by
    unfold turn; congr 1; push_cast; ring
  rw [e]
  refine h.trans ?_
  rw [Real.norm_eq_abs, abs_mul, abs_of_pos Real.two_pi_pos]

/-- chunk by chunk, sample by sample -/
theorem wSum_near (res B : ℝ) (f ref : Samp → ℂ) (lm : ℝ × ℝ) : ∀ cs : List (List Samp),
    (∀ c ∈ cs, ∀ s ∈ c, ‖turn (-(avgW c * (nOf lm - 1))) * oneSum res s (f s) lm - ref s‖ ≤ B * ‖ref s‖) →
    ‖wSum res cs f lm - (cs.flatten.map ref).sum‖ ≤ B * (cs.flatten.map (fun s => ‖ref s‖)).sum := by
  have inner : ∀ (z : ℂ) (c : List Samp), (∀ s ∈ c, ‖z * oneSum res s (f s) lm - ref s‖ ≤ B * ‖ref s‖) →
      ‖z * (c.map (fun s => oneSum res s (f s) lm)).sum - (c.map ref).sum‖ ≤ B * (c.map (fun s => ‖ref s‖)).sum := by
    intro z c
    induction c with
    | nil => intro _; simp
    | cons x c ih =>
      intro h
      have h1 := ih (fun s hs => h s (by simp [hs]))
      have h2 := h x (by simp)
      rw [List.map_cons, List.sum_cons, List.map_cons, List.sum_cons, List.map_cons, List.sum_cons]
      rw [show z * (oneSum res x (f x) lm + (c.map (fun s => oneSum res s (f s) lm)).sum) - (ref x + (c.map ref).sum) =
        (z * oneSum res x (f x) lm - ref x) + (z * (c.map (fun s => oneSum res s (f s) lm)).sum - (c.map ref).sum) by ring]
      refine (norm_add_le _ _).trans ?_
      linarith
  intro cs
  induction cs with
  | nil => intro _; simp [wSum]
  | cons c cs ih =>
    intro h
    have h1 := ih (fun c hc => h c (by simp [hc]))
    have h2 := inner (turn (-(avgW c * (nOf lm - 1)))) c (h c (by simp))
    unfold wSum at h1 ⊢
    rw [List.map_cons, List.sum_cons, List.flatten_cons, List.map_append, List.sum_append, List.map_append, List.sum_append]
    rw [show ∀ a b c d : ℂ, a + b - (c + d) = (a - c) + (b - d) by intros; ring]
    refine (norm_add_le _ _).trans ?_
    linarith

/-- what one sample of the source adds to its own pixel with a coplanar array -/
def flatTerm (res S : ℝ) (lm : ℝ × ℝ) (s : Samp) : ℂ := S * s.wt * gridKernel res (s.u, s.v) lm

theorem source_term (res S : ℝ) (lm : ℝ × ℝ) (s : Samp) (h : IsSource S lm s) (a : ℝ) :
    turn (-(a * (nOf lm - 1))) * oneSum res s s.d lm = turn ((s.w - a) * (nOf lm - 1)) * flatTerm res S lm s := by
  unfold oneSum flatTerm
  rw [h]
  have : turn ((s.w - a) * (nOf lm - 1)) = turn (-(a * (nOf lm - 1))) *
      (turn (s.u * lm.1 + s.v * lm.2 + s.w * (nOf lm - 1)) * turn (-(s.u * lm.1 + s.v * lm.2))) := by
    rw [← turn_add, ← turn_add]; congr 1; ring
  rw [this]
  ring

/-- the samples of the same source seen by a coplanar array: the same u and v, no w -/
def flatData (S : ℝ) (lm : ℝ × ℝ) (samples : List Samp) : List ℂ :=
  samples.map (fun s => (S : ℂ) * s.wt * turn (s.u * lm.1 + s.v * lm.2))

theorem flat_direct (res S : ℝ) (lm : ℝ × ℝ) (samples : List Samp) :
    directSum res (samples.map (fun s => (s.u, s.v))) (flatData S lm samples) lm = (samples.map (flatTerm res S lm)).sum := by
  unfold flatData
  rw [chunk_sum]
  congr 1
  apply List.map_congr_left
  intro s _
  unfold oneSum flatTerm
  have : turn (s.u * lm.1 + s.v * lm.2) * turn (-(s.u * lm.1 + s.v * lm.2)) = 1 := by
    rw [← turn_add, add_neg_cancel, turn_zero]
  linear_combination (↑S * s.wt * gridKernel res (s.u, s.v) lm) * this

theorem nOf_le (lm : ℝ × ℝ) : nOf lm ≤ 1 := by
  unfold nOf
  rw [Real.sqrt_le_left (by norm_num)]
  nlinarith [sq_nonneg lm.1, sq_nonneg lm.2]

/-- C77: w projection against a coplanar array.  A source of flux S in a pixel above the horizon, at (l,m); samples with any
u, v, |w| up to W and any weights.  Put with `ImgW`, the source's pixel holds, but for the factor 1/dim², what `Img` has
there for the same u, v and weights and a source without w term — to within 4π·wres·√W·(1-√(1-l²-m²)) of the sum of
the moduli of the samples; and exactly that when samples of one chunk have the same w. -/
theorem c77_source (n : Nat) (hn : n ≠ 0) (res : ℝ) (hres : res ≠ 0) (wres : ℝ) (hw : 0 < wres) (order : List Nat)
    (samples : List Samp) (ho : SortsByW order samples) (hne : samples ≠ []) (center : ℤ × ℤ) (i j : Nat) (hi : i < n)
    (hj : j < n) (q p : ℤ) (hoff : Offset n center i j q p) (hup : (lOf n res p) ^ 2 + (mOf n res q) ^ 2 < 1) (S W : ℝ)
    (hsrc : ∀ s ∈ samples, IsSource S (lOf n res p, mOf n res q) s) (hW : ∀ s ∈ samples, |s.w| ≤ W) :
    ∃ gw gi imw imi x y, (⟨n, res, wres, fun _ => 0, fun _ => 0, []⟩ : WImage).put (convW n res) order samples = some gw ∧
      (Image.new n res 0).put (samples.map (fun s => (s.u, s.v))) (flatData S (lOf n res p, mOf n res q) samples)
        [samples.map (fun s => s.wt)] = some gi ∧
      genImg n gw.uv center = some imw ∧ genImg n gi.uv center = some imi ∧ at2 imw i j = some x ∧ at2 imi i j = some y ∧
      |n * n * x - y| ≤ 4 * Real.pi * wres * √W * (1 - nOf (lOf n res p, mOf n res q)) *
        ((samples.map (fun s => ‖flatTerm res S (lOf n res p, mOf n res q) s‖)).sum / (n * n)) ∧
      ((∀ s ∈ samples, ∀ t ∈ samples, |ssqrt s.w - ssqrt t.w| < wres → s.w = t.w) → n * n * x = y) := by
  have hnc : (n : ℂ) ≠ 0 := by exact_mod_cast hn
  have hnr : (0 : ℝ) < n := by exact_mod_cast Nat.pos_of_ne_zero hn
  obtain ⟨gw, cs, a1, -, -, a4, a5, a6⟩ :=
    c77_put ⟨n, res, wres, fun _ => 0, fun _ => 0, []⟩ hn hres hw order samples ho hne
  obtain ⟨cs', f1, -, f3, f4⟩ := c25_partition wres hw order samples hne ho
  simp only at a4
  rw [a4] at f1
  cases f1
  obtain ⟨gi, b, hp, d, -, -⟩ := put_new hn res (samples.map (fun s => (s.u, s.v)))
    (flatData S (lOf n res p, mOf n res q) samples) (samples.map (fun s => s.wt)) (by simp [flatData]) (by simp)
  obtain ⟨imw, m1, -, m3⟩ := c75_image n hn gw.uv center
  obtain ⟨imi, n1, -, n3⟩ := c75_image n hn gi.uv center
  refine ⟨gw, gi, imw, imi, _, _, a1, hp, m1, n1, m3 i j hi hj q p hoff, n3 i j hi hj q p hoff, ?_⟩
  have e1 := (a6 q p hoff.qlo hoff.qhi hoff.plo hoff.phi).1
  simp only [invDft_zero, zero_add] at e1
  rw [if_pos hup] at e1
  have e2 := (c76_direct _ gi hn hres _ _ _ hp q p).1
  rw [d] at e2
  simp only [Image.new, invDft_zero, zero_add] at e2
  rw [flat_direct] at e2
  generalize hlm : (lOf n res p, mOf n res q) = lm at *
  have hdiff : ((n * n * (invDft n gw.uv (q % n).toNat (p % n).toNat).re : ℝ) -
      (invDft n gi.uv (q % n).toNat (p % n).toNat).re) =
      (1 / (n * n) : ℝ) * (wSum res cs (fun p => p.d) lm - (samples.map (flatTerm res S lm)).sum).re := by
    rw [e1, e2]
    have ec : (1 / ((n : ℂ) * n)) = ((1 / (n * n : ℝ) : ℝ) : ℂ) := by push_cast; rfl
    rw [ec, ← Complex.ofReal_pow, Complex.re_ofReal_mul, Complex.re_ofReal_mul, Complex.sub_re]
    field_simp
  have hperm : (cs.flatten.map (flatTerm res S lm)).sum = (samples.map (flatTerm res S lm)).sum := (a5.map _).sum_eq
  have hperm' : (cs.flatten.map (fun s => ‖flatTerm res S lm s‖)).sum = (samples.map (fun s => ‖flatTerm res S lm s‖)).sum :=
    (a5.map _).sum_eq
  have mem : ∀ c ∈ cs, ∀ s ∈ c, s ∈ samples := fun c hc s hs => a5.mem_iff.1 (List.mem_flatten.2 ⟨c, hc, hs⟩)
  have hnle := nOf_le lm
  have near : ∀ D : ℝ, 0 ≤ D → (∀ c ∈ cs, ∀ s ∈ c, ∀ t ∈ c, |s.w - t.w| ≤ D) →
      |((n * n * (invDft n gw.uv (q % n).toNat (p % n).toNat).re : ℝ) -
      (invDft n gi.uv (q % n).toNat (p % n).toNat).re)| ≤ 2 * Real.pi * (D * (1 - nOf lm)) *
        ((samples.map (fun s => ‖flatTerm res S lm s‖)).sum / (n * n)) := by
    intro D hD h
    have hB := wSum_near res (2 * Real.pi * (D * (1 - nOf lm))) (fun p => p.d) (flatTerm res S lm) lm cs (by
      intro c hc s hs
      rw [source_term res S lm s (hsrc s (mem c hc s hs))]
      have hav := avg_near c s D (f3 c hc) (fun t ht => h c hc s hs t ht)
      have ht := turn_near ((s.w - avgW c) * (nOf lm - 1))
      rw [show turn ((s.w - avgW c) * (nOf lm - 1)) * flatTerm res S lm s - flatTerm res S lm s =
        (turn ((s.w - avgW c) * (nOf lm - 1)) - 1) * flatTerm res S lm s by ring, norm_mul]
      apply mul_le_mul_of_nonneg_right _ (norm_nonneg _)
      refine ht.trans ?_
      rw [abs_mul, abs_of_nonpos (by linarith : nOf lm - 1 ≤ 0), neg_sub]
      have hpi := Real.pi_pos
      have : |s.w - avgW c| * (1 - nOf lm) ≤ D * (1 - nOf lm) := mul_le_mul_of_nonneg_right hav (by linarith)
      exact mul_le_mul_of_nonneg_left this (by positivity))
    rw [hperm, hperm'] at hB
    rw [hdiff, abs_mul, abs_of_pos (by positivity : (0 : ℝ) < 1 / (n * n))]
    have := (Complex.abs_re_le_norm (wSum res cs (fun p => p.d) lm - (samples.map (flatTerm res S lm)).sum)).trans hB
    have h1 : (0 : ℝ) ≤ 1 / (n * n) := by positivity
    refine (mul_le_mul_of_nonneg_left this h1).trans (le_of_eq ?_)
    field_simp
  constructor
  · have := near (2 * √W * wres) (by positivity) (by
      intro c hc s hs t ht
      exact w_near (hW s (mem c hc s hs)) (hW t (mem c hc t ht)) (f4 c hc s hs t ht))
    refine this.trans (le_of_eq ?_)
    ring
  · intro hex
    have := near 0 le_rfl (by
      intro c hc s hs t ht
      rw [hex s (mem c hc s hs) t (mem c hc t ht) (f4 c hc s hs t ht)]
      simp)
    simp only [zero_mul, mul_zero] at this
    exact sub_eq_zero.1 (abs_nonpos_iff.1 this)

/-- C77, where the code departs from its docstring ("Same as Img.put, only now the w component is projected"): samples that
have w = 0 already.  Every pixel above the horizon is `Img`'s divided by the number of pixels, every other pixel is left as
it was. -/
theorem c77_scale_fails (n : Nat) (hn : n ≠ 0) (res : ℝ) (hres : res ≠ 0) (wres : ℝ) (hw : 0 < wres) (order : List Nat)
    (samples : List Samp) (ho : SortsByW order samples) (hne : samples ≠ []) (h0 : ∀ s ∈ samples, s.w = 0) :
    ∃ gw gi b, (⟨n, res, wres, fun _ => 0, fun _ => 0, []⟩ : WImage).put (convW n res) order samples = some gw ∧
      (Image.new n res 0).put (samples.map (fun s => (s.u, s.v))) (samples.map (fun s => s.d))
        [samples.map (fun s => s.wt)] = some gi ∧ gi.bm = [b] ∧
      ∀ q p : ℤ, -(n : ℤ) < 2 * q → 2 * q ≤ n → -(n : ℤ) < 2 * p → 2 * p ≤ n →
        invDft n gw.uv (q % n).toNat (p % n).toNat = (if (lOf n res p) ^ 2 + (mOf n res q) ^ 2 < 1
          then invDft n gi.uv (q % n).toNat (p % n).toNat / (n * n) else 0) ∧
        invDft n gw.bm (q % n).toNat (p % n).toNat = (if (lOf n res p) ^ 2 + (mOf n res q) ^ 2 < 1
          then invDft n b (q % n).toNat (p % n).toNat / (n * n) else 0) := by
  obtain ⟨gw, cs, a1, -, -, a4, a5, a6⟩ :=
    c77_put ⟨n, res, wres, fun _ => 0, fun _ => 0, []⟩ hn hres hw order samples ho hne
  obtain ⟨gi, b, hp, d, -, hb⟩ := put_new hn res (samples.map (fun s => (s.u, s.v)))
    (samples.map (fun s => s.d)) (samples.map (fun s => s.wt)) (by simp) (by simp)
  refine ⟨gw, gi, b, a1, hp, hb, ?_⟩
  intro q p h1 h2 h3 h4
  obtain ⟨e1, e2⟩ := a6 q p h1 h2 h3 h4
  obtain ⟨k1, -, k2⟩ := c76_direct _ gi hn hres _ _ _ hp q p
  obtain ⟨b', k3, k4⟩ := k2 0 (fun _ => 0) (samples.map (fun s => s.wt)) rfl rfl
  rw [hb] at k3
  cases k3
  rw [d] at k1 k4
  simp only [Image.new, invDft_zero, zero_add] at e1 e2 k1 k4
  have avg0 : ∀ c ∈ cs, avgW c = 0 := by
    intro c hc
    unfold avgW
    have : c.map (fun p => p.w) = c.map (fun _ => (0 : ℝ)) :=
      List.map_congr_left (fun s hs => h0 s (a5.mem_iff.1 (List.mem_flatten.2 ⟨c, hc, hs⟩)))
    rw [this]
    simp
  have key : ∀ f : Samp → ℂ, wSum res cs f (lOf n res p, mOf n res q) =
      directSum res (samples.map (fun s => (s.u, s.v))) (samples.map f) (lOf n res p, mOf n res q) := by
    intro f
    rw [chunk_sum, ← (a5.map (fun p_1 => oneSum res p_1 (f p_1) (lOf n res p, mOf n res q))).sum_eq]
    unfold wSum
    rw [List.map_flatten, List.sum_flatten, List.map_map]
    congr 1
    apply List.map_congr_left
    intro c hc
    rw [avg0 c hc]
    simp [turn_zero]
  rw [e1, e2, k1, k4, key, key]
  constructor
  · split
    · ring
    · rfl
  · split
    · ring
    · rfl

/-- a source at (-1/16, 1/16), two samples far apart in w and one in between: sorted by w, pixel (1,1) of an 8×8 image with
cells of 2 wavelengths -/
example : SortsByW [1, 2, 0] [⟨3, 1, 100, 0, 1⟩, ⟨-2, 5, -4, 0, 1⟩, ⟨7, 7, 0, 0, 1⟩] ∧
    (lOf 8 2 1) ^ 2 + (mOf 8 2 1) ^ 2 < 1 ∧ Offset 8 (0, 0) 1 1 1 1 ∧
    ∀ u v w wt, IsSource 3 (lOf 8 2 1, mOf 8 2 1) ⟨u, v, w, 3 * wt * turn (u * lOf 8 2 1 + v * mOf 8 2 1 +
      w * (nOf (lOf 8 2 1, mOf 8 2 1) - 1)), wt⟩ := by
  refine ⟨⟨by unfold IsOrder; decide, ?_⟩, by unfold lOf mOf; norm_num,
    ⟨by decide, by decide, by decide, by decide, by decide, by decide⟩, fun u v w wt => by unfold IsSource; norm_num⟩
  simp [takeIdx]
  norm_num

end Verif.Img
