import Verif.Img.Pixels
import Mathlib.Analysis.Complex.ExponentialBounds
/-!
# Property C76 : from visibilities to the image

`Img.put` (`GridModel.lean`) followed by `Img.image`/`Img.bm_image` (`Pixels.lean`), for any samples.
-/
noncomputable section
namespace Verif.Img
open Finset

/-! ## Specification -/

/-- `exp(2πi t)` -/
def turn (t : ℝ) : ℂ := Complex.exp (2 * Real.pi * Complex.I * t)

/-- the (l,m) of the pixel `q` pixels north and `p` pixels west of the phase centre -/
def lOf (n : Nat) (res : ℝ) (p : ℤ) : ℝ := -(p : ℝ) / (n * res)
def mOf (n : Nat) (res : ℝ) (q : ℤ) : ℝ := (q : ℝ) / (n * res)

/-- how the footprint of a sample at (u,v) weighs the direction (l,m): the transform of the Gaussian cut off at the edge
of the footprint, about the place of the sample -/
def gridKernel (res : ℝ) (uv lm : ℝ × ℝ) : ℂ :=
  ∑ a ∈ around (-uv.2 / res) 3, ∑ b ∈ around (uv.1 / res) 3,
    (wgt (-uv.2 / res - a) (uv.1 / res - b) : ℂ) * turn ((a * res + uv.2) * lm.2 - (b * res - uv.1) * lm.1)

/-- the direct Fourier sum of samples towards (l,m), each with the weight of its footprint -/
def directSum (res : ℝ) (uv : List (ℝ × ℝ)) (data : List ℂ) (lm : ℝ × ℝ) : ℂ :=
  ((uv.zip data).map (fun s => s.2 * turn (-(s.1.1 * lm.1 + s.1.2 * lm.2)) * gridKernel res s.1 lm)).sum

/-- samples of a source of flux `S` at (l,m), with weights `w` -/
def sourceData (S : ℝ) (lm : ℝ × ℝ) (uv : List (ℝ × ℝ)) (w : List ℝ) : List ℂ :=
  (uv.zip w).map (fun s => (S : ℂ) * (s.2 : ℂ) * turn (s.1.1 * lm.1 + s.1.2 * lm.2))

/-- samples standing exactly on points of the grid -/
def OnGrid (res : ℝ) (uv : List (ℝ × ℝ)) : Prop := ∀ s ∈ uv, ∃ a b : ℤ, s = (a * res, b * res)

/-- the transform of the footprint of such a sample along one axis, at `t` image widths from the phase centre -/
def taper (t : ℝ) : ℝ := ∑ j ∈ Finset.Icc (-3 : ℤ) 3, Real.exp (-2 * (j : ℝ) ^ 2) * Real.cos (2 * Real.pi * (j * t))

/-! ## Lemmas -/

theorem turn_add (a b : ℝ) : turn (a + b) = turn a * turn b := by
  unfold turn
  rw [← Complex.exp_add]
  congr 1
  push_cast
  ring

theorem turn_int (k : ℤ) : turn k = 1 := by
  unfold turn
  rw [Complex.exp_eq_one_iff]
  exact ⟨k, by push_cast; ring⟩

theorem turn_shift (a b : ℝ) (k : ℤ) (h : a = b + k) : turn a = turn b := by
  rw [h, turn_add, turn_int, mul_one]

theorem turn_zero : turn 0 = 1 := by simp [turn]

theorem turn_conj (t : ℝ) : (starRingEnd ℂ) (turn t) = turn (-t) := by
  unfold turn
  rw [← Complex.exp_conj]
  congr 1
  simp only [map_mul, Complex.conj_ofReal, Complex.conj_I]
  rw [Complex.conj_ofNat]
  push_cast
  ring

theorem turn_eq (t : ℝ) : turn t = (Real.cos (2 * Real.pi * t) : ℂ) + (Real.sin (2 * Real.pi * t) : ℂ) * Complex.I := by
  unfold turn
  have : 2 * (Real.pi : ℂ) * Complex.I * t = ((2 * Real.pi * t : ℝ) : ℂ) * Complex.I := by push_cast; ring
  rw [this, Complex.exp_mul_I, Complex.ofReal_cos, Complex.ofReal_sin]

theorem turn_re (t : ℝ) : (turn t).re = Real.cos (2 * Real.pi * t) := by
  rw [turn_eq, Complex.add_re, Complex.ofReal_re, Complex.mul_I_re, Complex.ofReal_im, neg_zero, add_zero]

/-- the phase of a cell of the transform depends on its indices modulo n only -/
theorem phase_mod {n : Nat} (hn : n ≠ 0) (a b q p : ℤ) :
    Complex.exp (2 * Real.pi * Complex.I *
      (((a % n).toNat * (q % n).toNat + (b % n).toNat * (p % n).toNat : ℕ) : ℂ) / n) = turn ((a * q + b * p) / n) := by
  have hc : (n : ℝ) ≠ 0 := by exact_mod_cast hn
  have hz : (n : ℤ) ≠ 0 := by exact_mod_cast hn
  have t : ∀ x : ℤ, ∃ d : ℤ, (((x % n).toNat : ℕ) : ℝ) = x - n * d := by
    intro x
    refine ⟨x / n, ?_⟩
    have h1 : (((x % n).toNat : ℕ) : ℤ) = x % n := Int.toNat_of_nonneg (Int.emod_nonneg x hz)
    have h2 : (((x % n).toNat : ℕ) : ℤ) = x - n * (x / n) := by rw [h1, Int.emod_def]
    exact_mod_cast h2
  have e : ∀ k : ℕ, Complex.exp (2 * Real.pi * Complex.I * (k : ℂ) / n) = turn ((k : ℝ) / n) := by
    intro k
    unfold turn
    congr 1
    push_cast
    ring
  rw [e]
  push_cast
  obtain ⟨da, ha⟩ := t a
  obtain ⟨db, hb⟩ := t b
  obtain ⟨dq, hq⟩ := t q
  obtain ⟨dp, hp⟩ := t p
  rw [ha, hb, hq, hp]
  apply turn_shift _ _ (-(a * dq) - q * da + n * da * dq + (-(b * dp) - p * db + n * db * dp))
  field_simp
  push_cast
  ring

theorem invDft_congr {n : Nat} (m m' : Nat → ℂ) (h : ∀ k1 k2, k1 < n → k2 < n → m (k1 * n + k2) = m' (k1 * n + k2))
    (r c : Nat) : invDft n m r c = invDft n m' r c := by
  unfold invDft
  congr 1
  apply Finset.sum_congr rfl
  intro k1 h1
  apply Finset.sum_congr rfl
  intro k2 h2
  rw [h k1 k2 (Finset.mem_range.1 h1) (Finset.mem_range.1 h2)]

/-- linearity of the transform, cell by cell -/
theorem invDft_add {n : Nat} (m a b : Nat → ℂ) (h : ∀ k1 k2, k1 < n → k2 < n →
    m (k1 * n + k2) = a (k1 * n + k2) + b (k1 * n + k2)) (r c : Nat) :
    invDft n m r c = invDft n a r c + invDft n b r c := by
  unfold invDft
  rw [← mul_add, ← Finset.sum_add_distrib]
  congr 1
  apply Finset.sum_congr rfl
  intro k1 h1
  rw [← Finset.sum_add_distrib]
  apply Finset.sum_congr rfl
  intro k2 h2
  rw [h k1 k2 (Finset.mem_range.1 h1) (Finset.mem_range.1 h2), add_mul]

theorem invDft_smul (n : Nat) (z : ℂ) (m : Nat → ℂ) (r c : Nat) :
    invDft n (fun k => z * m k) r c = z * invDft n m r c := by
  unfold invDft
  simp only [Finset.mul_sum]
  apply Finset.sum_congr rfl; intro k1 _
  apply Finset.sum_congr rfl; intro k2 _
  ring

theorem invDft_zero (n : Nat) (r c : Nat) : invDft n (fun _ => 0) r c = 0 := by
  unfold invDft; simp

/-- a matrix in C order from a function of row and column -/
def flat (n : Nat) (f : Nat → Nat → ℂ) : Nat → ℂ := fun k => f (k / n) (k % n)

theorem flat_at {n : Nat} (f : Nat → Nat → ℂ) (k1 k2 : Nat) (h : k2 < n) : flat n f (k1 * n + k2) = f k1 k2 := by
  unfold flat
  rw [Nat.add_comm, Nat.add_mul_div_right _ _ (by omega), Nat.div_eq_of_lt h, Nat.add_mul_mod_self_right,
    Nat.mod_eq_of_lt h, Nat.zero_add]

/-- the transform of one deposit -/
theorem invDft_deposit1 {n : Nat} (hn : n ≠ 0) (x : ℝ × ℝ) (d : ℂ) (q p : ℤ) :
    invDft n (flat n (deposit1 n n 3 (x, d))) (q % n).toNat (p % n).toNat =
      (1 / (n * n : ℂ)) * ∑ a ∈ around x.1 3, ∑ b ∈ around x.2 3,
        (wgt (x.1 - a) (x.2 - b) : ℂ) * d * turn ((a * q + b * p) / n) := by
  unfold invDft
  congr 1
  have e1 : ∀ k1 ∈ range n, ∀ k2 ∈ range n, flat n (deposit1 n n 3 (x, d)) (k1 * n + k2) *
      Complex.exp (2 * Real.pi * Complex.I * ((k1 * (q % n).toNat + k2 * (p % n).toNat : ℕ) : ℂ) / n) =
      ∑ a ∈ around x.1 3, ∑ b ∈ around x.2 3, if a % n = (k1 : ℤ) then (if b % n = (k2 : ℤ) then
        (wgt (x.1 - a) (x.2 - b) : ℂ) * d * turn ((a * q + b * p) / n) else 0) else 0 := by
    intro k1 _ k2 h2
    rw [flat_at _ _ _ (Finset.mem_range.1 h2)]
    unfold deposit1
    rw [Finset.sum_mul]
    apply Finset.sum_congr rfl; intro a _
    rw [Finset.sum_mul]
    apply Finset.sum_congr rfl; intro b _
    by_cases ha : a % n = (k1 : ℤ)
    · by_cases hb : b % n = (k2 : ℤ)
      · rw [if_pos ⟨ha, hb⟩, if_pos ha, if_pos hb, ← phase_mod hn a b q p, ha, hb]
        simp only [Int.toNat_natCast]
      · rw [if_neg (fun h => hb h.2), if_pos ha, if_neg hb, zero_mul]
    · rw [if_neg (fun h => ha h.1), if_neg ha, zero_mul]
  rw [Finset.sum_congr rfl (fun k1 h1 => Finset.sum_congr rfl (fun k2 h2 => e1 k1 h1 k2 h2))]
  have one : ∀ (j : ℤ) (z : ℂ), (∑ k ∈ range n, if j % n = (k : ℤ) then z else 0) = z := by
    intro j z
    have h0 := Int.emod_nonneg j (by omega : (n : ℤ) ≠ 0)
    have h1 := Int.emod_lt_of_pos j (by omega : (0 : ℤ) < n)
    rw [Finset.sum_eq_single (j % n).toNat]
    · rw [if_pos (by omega)]
    · intro k _ hk
      rw [if_neg (by omega)]
    · intro h
      exact absurd (Finset.mem_range.2 (by omega)) h
  have e2 : ∀ k1 ∈ range n, (∑ k2 ∈ range n, ∑ a ∈ around x.1 3, ∑ b ∈ around x.2 3, if a % n = (k1 : ℤ) then
        (if b % n = (k2 : ℤ) then (wgt (x.1 - a) (x.2 - b) : ℂ) * d * turn ((a * q + b * p) / n) else 0) else 0) =
      ∑ a ∈ around x.1 3, if a % n = (k1 : ℤ) then ∑ b ∈ around x.2 3,
        (wgt (x.1 - a) (x.2 - b) : ℂ) * d * turn ((a * q + b * p) / n) else 0 := by
    intro k1 _
    rw [Finset.sum_comm]
    apply Finset.sum_congr rfl; intro a _
    by_cases ha : a % n = (k1 : ℤ)
    · simp only [if_pos ha]
      rw [Finset.sum_comm]
      apply Finset.sum_congr rfl; intro b _
      exact one b _
    · simp only [if_neg ha, Finset.sum_const_zero]
  rw [Finset.sum_congr rfl e2, Finset.sum_comm]
  apply Finset.sum_congr rfl; intro a _
  exact one a _

/-- the transform of one deposit, in terms of the direction of the pixel -/
theorem deposit_direct {n : Nat} (hn : n ≠ 0) (res : ℝ) (hres : res ≠ 0) (uv : ℝ × ℝ) (d : ℂ) (q p : ℤ) :
    invDft n (flat n (deposit1 n n 3 (getIndices res uv, d))) (q % n).toNat (p % n).toNat =
      (1 / (n * n : ℂ)) * (d * turn (-(uv.1 * lOf n res p + uv.2 * mOf n res q)) *
        gridKernel res uv (lOf n res p, mOf n res q)) := by
  have hc : (n : ℝ) ≠ 0 := by exact_mod_cast hn
  rw [invDft_deposit1 hn]
  congr 1
  unfold gridKernel getIndices
  simp only [Finset.mul_sum]
  apply Finset.sum_congr rfl; intro a _
  apply Finset.sum_congr rfl; intro b _
  have : turn ((a * q + b * p) / n) = turn (-(uv.1 * lOf n res p + uv.2 * mOf n res q)) *
      turn ((a * res + uv.2) * mOf n res q - (b * res - uv.1) * lOf n res p) := by
    rw [← turn_add]
    congr 1
    unfold lOf mOf
    field_simp
    ring
  rw [this]
  ring

theorem list_direct {n : Nat} (hn : n ≠ 0) (res : ℝ) (hres : res ≠ 0) (q p : ℤ) : ∀ (uv : List (ℝ × ℝ)) (data : List ℂ),
    invDft n (flat n (deposit n n 3 ((uv.map (getIndices res)).zip data))) (q % n).toNat (p % n).toNat =
      (1 / (n * n : ℂ)) * directSum res uv data (lOf n res p, mOf n res q) := by
  intro uv
  induction uv with
  | nil =>
    intro data
    have : flat n (deposit n n 3 ((([] : List (ℝ × ℝ)).map (getIndices res)).zip data)) = fun _ => 0 := by
      funext k; simp [flat, deposit]
    rw [this, invDft_zero]
    simp [directSum]
  | cons s uv ih =>
    intro data
    cases data with
    | nil =>
      have : flat n (deposit n n 3 (((s :: uv).map (getIndices res)).zip ([] : List ℂ))) = fun _ => 0 := by
        funext k; simp [flat, deposit]
      rw [this, invDft_zero]
      simp [directSum]
    | cons d data =>
      rw [invDft_add (n := n) _ (flat n (deposit1 n n 3 (getIndices res s, d)))
        (flat n (deposit n n 3 ((uv.map (getIndices res)).zip data))), deposit_direct hn res hres, ih, ← mul_add]
      · unfold directSum
        rw [List.zip_cons_cons, List.map_cons, List.sum_cons]
      · intro k1 k2 _ h2
        rw [flat_at _ _ _ h2, flat_at _ _ _ h2, flat_at _ _ _ h2]
        unfold deposit
        rw [List.map_cons, List.zip_cons_cons, List.map_cons, List.sum_cons]

theorem grid_direct {n : Nat} (hn : n ≠ 0) (res : ℝ) (hres : res ≠ 0) (m m' : Nat → ℂ) (uv : List (ℝ × ℝ))
    (data : List ℂ) (h : grid2D n n 3 m ((uv.map (getIndices res)).zip data) = some m') (q p : ℤ) :
    invDft n m' (q % n).toNat (p % n).toNat = invDft n m (q % n).toNat (p % n).toNat +
      (1 / (n * n : ℂ)) * directSum res uv data (lOf n res p, mOf n res q) := by
  obtain ⟨m2, h1, h2, _⟩ := c28_square_partial n 3 hn ((uv.map (getIndices res)).zip data) m
  rw [h1] at h
  cases h
  rw [← list_direct hn res hres]
  apply invDft_add
  intro k1 k2 hk1 hk2
  rw [h2 k1 k2 hk1 hk2, flat_at _ _ _ hk2]

theorem putBeams_at {dim : Nat} (xs : List (ℝ × ℝ)) : ∀ (bs : List (Nat → ℂ)) (ws : List (List ℂ)) (bs' : List (Nat → ℂ)),
    putBeams dim xs bs ws = some bs' → bs'.length = bs.length ∧ ∀ (k : Nat) b w, bs[k]? = some b → ws[k]? = some w →
      ∃ b', bs'[k]? = some b' ∧ grid2D dim dim 3 b (xs.zip w) = some b' := by
  intro bs
  induction bs with
  | nil =>
    intro ws bs' h
    simp only [putBeams, Option.some.injEq] at h
    rw [← h]
    exact ⟨rfl, fun k b w hb => by simp at hb⟩
  | cons b bs ih =>
    intro ws bs' h
    cases ws with
    | nil => simp [putBeams] at h
    | cons w ws =>
      simp only [putBeams] at h
      cases hg : grid2D dim dim 3 b (xs.zip w) with
      | none => rw [hg] at h; cases h
      | some b' =>
        rw [hg] at h
        simp only [bind, Option.bind] at h
        cases hp : putBeams dim xs bs ws with
        | none => rw [hp] at h; cases h
        | some r =>
          rw [hp] at h
          simp only [Option.some.injEq] at h
          obtain ⟨i1, i2⟩ := ih ws r hp
          rw [← h]
          refine ⟨by simp [i1], ?_⟩
          intro k x y hx hy
          cases k with
          | zero =>
            simp only [List.getElem?_cons_zero, Option.some.injEq] at hx hy
            rw [← hx, ← hy]
            exact ⟨b', rfl, hg⟩
          | succ k =>
            simp only [List.getElem?_cons_succ] at hx hy ⊢
            exact i2 k x y hx hy

/-- what a successful `put` does -/
theorem put_some {g g' : Image} {uv : List (ℝ × ℝ)} {data : List ℂ} {wgts : List (List ℂ)}
    (h : g.put uv data wgts = some g') : wgts.length = g.bm.length ∧ uv.length = data.length ∧
      (∀ w ∈ wgts, w.length = uv.length) ∧ g'.dim = g.dim ∧ g'.res = g.res ∧
      grid2D g.dim g.dim 3 g.uv ((uv.map (getIndices g.res)).zip data) = some g'.uv ∧
      putBeams g.dim (uv.map (getIndices g.res)) g.bm wgts = some g'.bm := by
  unfold Image.put at h
  split at h
  · cases h
  · rename_i hc
    simp only at h
    cases hg : grid2D g.dim g.dim 3 g.uv ((uv.map (getIndices g.res)).zip data) with
    | none => rw [hg] at h; cases h
    | some m =>
      rw [hg] at h
      simp only [bind, Option.bind] at h
      cases hp : putBeams g.dim (uv.map (getIndices g.res)) g.bm wgts with
      | none => rw [hp] at h; cases h
      | some r =>
        rw [hp] at h
        simp only [Option.some.injEq] at h
        rw [← h]
        simp only [not_or, not_not, List.any_eq_true, decide_eq_true_eq, not_exists, not_and] at hc
        exact ⟨hc.1, hc.2.1, hc.2.2, rfl, rfl, rfl, rfl⟩

/-! ## C76 -/

/-- C76: what `put` adds to the image: in the pixel at (l,m), the direct Fourier sum of the samples towards (l,m), each
weighted with its footprint; the same for the weights and the k-th beam image.  Any samples, on the grid or not, inside
the uv matrix or not. -/
theorem c76_direct (g g' : Image) (hn : g.dim ≠ 0) (hres : g.res ≠ 0) (uv : List (ℝ × ℝ)) (data : List ℂ)
    (wgts : List (List ℂ)) (h : g.put uv data wgts = some g') (q p : ℤ) :
    invDft g'.dim g'.uv (q % g.dim).toNat (p % g.dim).toNat = invDft g.dim g.uv (q % g.dim).toNat (p % g.dim).toNat +
        (1 / (g.dim * g.dim : ℂ)) * directSum g.res uv data (lOf g.dim g.res p, mOf g.dim g.res q) ∧
    g'.bm.length = g.bm.length ∧ ∀ (k : Nat) b w, g.bm[k]? = some b → wgts[k]? = some w → ∃ b', g'.bm[k]? = some b' ∧
      invDft g'.dim b' (q % g.dim).toNat (p % g.dim).toNat = invDft g.dim b (q % g.dim).toNat (p % g.dim).toNat +
        (1 / (g.dim * g.dim : ℂ)) * directSum g.res uv w (lOf g.dim g.res p, mOf g.dim g.res q) := by
  obtain ⟨_, _, _, h1, h2, h3, h4⟩ := put_some h
  obtain ⟨i1, i2⟩ := putBeams_at _ _ _ _ h4
  rw [h1]
  refine ⟨grid_direct hn g.res hres _ _ _ _ h3 q p, i1, ?_⟩
  intro k b w hb hw
  obtain ⟨b', j1, j2⟩ := i2 k b w hb hw
  exact ⟨b', j1, grid_direct hn g.res hres _ _ _ _ j2 q p⟩

/-- a `put` of arrays of equal lengths on a new image never fails -/
theorem put_new {n : Nat} (hn : n ≠ 0) (res : ℝ) (uv : List (ℝ × ℝ)) (data w : List ℂ) (h1 : data.length = uv.length)
    (h2 : w.length = uv.length) : ∃ g b, (Image.new n res 0).put uv data [w] = some g ∧ g.dim = n ∧ g.res = res ∧
      g.bm = [b] := by
  obtain ⟨m, a1, _⟩ := c28_square_partial n 3 hn ((uv.map (getIndices res)).zip data) (fun _ => 0)
  obtain ⟨b, b1, _⟩ := c28_square_partial n 3 hn ((uv.map (getIndices res)).zip w) (fun _ => 0)
  refine ⟨⟨n, res, m, [b]⟩, b, ?_, rfl, rfl, rfl⟩
  unfold Image.put Image.new
  simp only [List.length_cons, List.length_nil, List.any_cons, List.any_nil, List.replicate, h1, h2]
  rw [a1]
  simp [putBeams, b1]

/-- C76: the transform does not mix channels of a sum: the image of a·x + b·y is a times the image of x plus b times the
image of y, pixel by pixel, and the beam images do not depend on the data. -/
theorem c76_linear (n : Nat) (hn : n ≠ 0) (res : ℝ) (hres : res ≠ 0) (uv : List (ℝ × ℝ)) (x y w : List ℂ) (a b : ℂ)
    (hx : x.length = uv.length) (hy : y.length = uv.length) (g gx gy : Image)
    (h : (Image.new n res 0).put uv (List.zipWith (fun s t => a * s + b * t) x y) [w] = some g)
    (h1 : (Image.new n res 0).put uv x [w] = some gx) (h2 : (Image.new n res 0).put uv y [w] = some gy) (q p : ℤ) :
    invDft n g.uv (q % n).toNat (p % n).toNat =
      a * invDft n gx.uv (q % n).toNat (p % n).toNat + b * invDft n gy.uv (q % n).toNat (p % n).toNat ∧
    g.bm = gx.bm ∧ g.bm = gy.bm := by
  have e := (c76_direct _ g hn hres _ _ _ h q p).1
  have e1 := (c76_direct _ gx hn hres _ _ _ h1 q p).1
  have e2 := (c76_direct _ gy hn hres _ _ _ h2 q p).1
  obtain ⟨_, _, _, d, _, _, k⟩ := put_some h
  obtain ⟨_, _, _, d1, _, _, k1⟩ := put_some h1
  obtain ⟨_, _, _, d2, _, _, k2⟩ := put_some h2
  rw [d] at e; rw [d1] at e1; rw [d2] at e2
  refine ⟨?_, Option.some.inj (k.symm.trans k1), Option.some.inj (k.symm.trans k2)⟩
  simp only [Image.new] at e e1 e2
  rw [e, e1, e2, invDft_zero]
  have key : ∀ (uv : List (ℝ × ℝ)) (x y : List ℂ), x.length = uv.length → y.length = uv.length → ∀ lm,
      directSum res uv (List.zipWith (fun s t => a * s + b * t) x y) lm =
        a * directSum res uv x lm + b * directSum res uv y lm := by
    intro uv
    induction uv with
    | nil => intro x y _ _ lm; simp [directSum]
    | cons s uv ih =>
      intro x y hx hy lm
      cases x with
      | nil => cases hx
      | cons x0 x =>
        cases y with
        | nil => cases hy
        | cons y0 y =>
          have := ih x y (by simpa using hx) (by simpa using hy) lm
          unfold directSum at this ⊢
          rw [List.zipWith_cons_cons, List.zip_cons_cons, List.zip_cons_cons, List.zip_cons_cons, List.map_cons,
            List.map_cons, List.map_cons, List.sum_cons, List.sum_cons, List.sum_cons, this]
          ring
  rw [key uv x y hx hy]
  ring

/-! ### The taper of the footprint -/

theorem icc7 : Finset.Icc (-3 : ℤ) 3 = {-3, -2, -1, 0, 1, 2, 3} := by decide

theorem taper_eq (t : ℝ) : taper t = 1 + 2 * Real.exp (-2) * Real.cos (2 * Real.pi * t) +
    2 * Real.exp (-8) * Real.cos (2 * Real.pi * (2 * t)) + 2 * Real.exp (-18) * Real.cos (2 * Real.pi * (3 * t)) := by
  unfold taper
  rw [icc7]
  have c : ∀ j : ℝ, Real.cos (2 * Real.pi * (-j * t)) = Real.cos (2 * Real.pi * (j * t)) := by
    intro j
    rw [← Real.cos_neg]; congr 1; ring
  rw [Finset.sum_insert (by decide), Finset.sum_insert (by decide), Finset.sum_insert (by decide),
    Finset.sum_insert (by decide), Finset.sum_insert (by decide), Finset.sum_insert (by decide), Finset.sum_singleton]
  push_cast
  rw [c 1, c 2, c 3]
  have e1 : Real.exp (-2 * (-1) ^ 2) = Real.exp (-2) := by norm_num
  have e2 : Real.exp (-2 * (-2) ^ 2) = Real.exp (-8) := by norm_num
  have e3 : Real.exp (-2 * (-3) ^ 2) = Real.exp (-18) := by norm_num
  have e4 : Real.exp (-2 * 1 ^ 2) = Real.exp (-2) := by norm_num
  have e5 : Real.exp (-2 * 2 ^ 2) = Real.exp (-8) := by norm_num
  have e6 : Real.exp (-2 * 3 ^ 2) = Real.exp (-18) := by norm_num
  have e7 : Real.exp (-2 * (0 : ℝ) ^ 2) = 1 := by norm_num
  rw [e1, e2, e3, e4, e5, e6, e7]
  simp only [zero_mul, mul_zero, Real.cos_zero, one_mul]
  ring

theorem exp_small : Real.exp (-2) < 0.1372 ∧ 0.135 < Real.exp (-2) ∧ Real.exp (-8) < 0.0004 ∧ Real.exp (-18) < 0.0001 := by
  have h1 := Real.exp_one_gt_d9
  have h2 := Real.exp_one_lt_d9
  have e2 : Real.exp 2 = Real.exp 1 ^ 2 := by rw [← Real.exp_nat_mul]; norm_num
  have p : 0 < Real.exp 2 := Real.exp_pos 2
  have a1 : Real.exp (-2) < 0.1372 := by
    rw [Real.exp_neg, inv_lt_comm₀ p (by norm_num), e2]
    nlinarith
  have a2 : 0.135 < Real.exp (-2) := by
    rw [Real.exp_neg, lt_inv_comm₀ (by norm_num) p, e2]
    nlinarith
  have e8 : Real.exp (-8) = Real.exp (-2) ^ 4 := by rw [← Real.exp_nat_mul]; norm_num
  have e18 : Real.exp (-18) ≤ Real.exp (-10) := Real.exp_le_exp.2 (by norm_num)
  have e10 : Real.exp (-10) = Real.exp (-2) ^ 5 := by rw [← Real.exp_nat_mul]; norm_num
  have q := Real.exp_pos (-2)
  refine ⟨a1, a2, ?_, ?_⟩
  · rw [e8]
    calc Real.exp (-2) ^ 4 < 0.1372 ^ 4 := pow_lt_pow_left₀ a1 q.le (by norm_num)
      _ < _ := by norm_num
  · refine lt_of_le_of_lt e18 ?_
    rw [e10]
    calc Real.exp (-2) ^ 5 < 0.1372 ^ 5 := pow_lt_pow_left₀ a1 q.le (by norm_num)
      _ < _ := by norm_num

theorem taper_pos (t : ℝ) : 0 < taper t := by
  rw [taper_eq]
  obtain ⟨h1, h2, h3, h4⟩ := exp_small
  have c1 := Real.neg_one_le_cos (2 * Real.pi * t)
  have c2 := Real.neg_one_le_cos (2 * Real.pi * (2 * t))
  have c3 := Real.neg_one_le_cos (2 * Real.pi * (3 * t))
  have p1 := Real.exp_pos (-2); have p2 := Real.exp_pos (-8); have p3 := Real.exp_pos (-18)
  nlinarith

theorem taper_neg (t : ℝ) : taper (-t) = taper t := by
  rw [taper_eq, taper_eq]
  have : ∀ x : ℝ, Real.cos (2 * Real.pi * (-x)) = Real.cos (2 * Real.pi * x) := by
    intro x; rw [← Real.cos_neg]; congr 1; ring
  rw [this]
  have e2 : 2 * -t = -(2 * t) := by ring
  have e3 : 3 * -t = -(3 * t) := by ring
  rw [e2, e3, this, this]

/-- the footprint transform of a whole axis is real -/
theorem taper_turn (t : ℝ) : (∑ j ∈ Finset.Icc (-3 : ℤ) 3, (Real.exp (-2 * (j : ℝ) ^ 2) : ℂ) * turn (j * t)) = (taper t : ℂ) := by
  have hre : ∀ z : ℂ, (starRingEnd ℂ) z = z → z = (z.re : ℂ) := by
    intro z hz; rw [Complex.conj_eq_iff_re] at hz; exact hz.symm
  rw [hre (∑ j ∈ Finset.Icc (-3 : ℤ) 3, (Real.exp (-2 * (j : ℝ) ^ 2) : ℂ) * turn (j * t))]
  · congr 1
    rw [Complex.re_sum]
    unfold taper
    apply Finset.sum_congr rfl
    intro j _
    rw [Complex.re_ofReal_mul, turn_re]
  · rw [map_sum]
    apply Finset.sum_nbij' (fun j => -j) (fun j => -j)
    · intro j hj; rw [Finset.mem_Icc] at hj ⊢; omega
    · intro j hj; rw [Finset.mem_Icc] at hj ⊢; omega
    · intro j _; simp
    · intro j _; simp
    · intro j _
      rw [map_mul, Complex.conj_ofReal, turn_conj]
      push_cast
      simp only [neg_sq, neg_mul]

theorem around_grid (j : ℤ) : around (j : ℝ) 3 = Finset.Icc (j - 3) (j + 3) := by
  unfold around
  have h1 : ((j : ℝ) - (3 : ℕ)) = ((j - 3 : ℤ) : ℝ) := by push_cast; ring
  have h2 : ((j : ℝ) + (3 : ℕ)) = ((j + 3 : ℤ) : ℝ) := by push_cast; ring
  rw [h1, h2, Int.floor_intCast, Int.ceil_intCast]

theorem shift_sum (j : ℤ) (f : ℤ → ℂ) : ∑ a ∈ Finset.Icc (j - 3) (j + 3), f a = ∑ a ∈ Finset.Icc (-3 : ℤ) 3, f (j + a) := by
  apply Finset.sum_nbij' (fun a => a - j) (fun a => j + a)
  · intro a ha; rw [Finset.mem_Icc] at ha ⊢; omega
  · intro a ha; rw [Finset.mem_Icc] at ha ⊢; omega
  · intro a _; ring
  · intro a _; ring
  · intro a _; congr 1; ring

theorem wgt_split (a b : ℝ) : wgt a b = wgt 0 0 * (Real.exp (-2 * a ^ 2) * Real.exp (-2 * b ^ 2)) := by
  rw [(c28_gaussian_weights a b 0 0).1, ← Real.exp_add]
  congr 2; ring

/-- the kernel of a sample on the grid -/
theorem kernel_grid (res : ℝ) (hres : res ≠ 0) (A B : ℤ) (l m : ℝ) :
    gridKernel res (A * res, B * res) (l, m) = ((wgt 0 0 * (taper (res * m) * taper (res * l)) : ℝ) : ℂ) := by
  unfold gridKernel
  have hx : -((B : ℝ) * res) / res = ((-B : ℤ) : ℝ) := by push_cast; field_simp
  have hy : (A : ℝ) * res / res = (A : ℝ) := by field_simp
  simp only [hx, hy]
  rw [around_grid, around_grid, shift_sum]
  simp only [shift_sum]
  rw [← taper_neg (res * l)]
  push_cast
  rw [← taper_turn, ← taper_turn, Finset.sum_mul_sum, Finset.mul_sum]
  apply Finset.sum_congr rfl; intro a _
  rw [Finset.mul_sum]
  apply Finset.sum_congr rfl; intro b _
  have h1 : (-(B : ℝ) - (-(B : ℝ) + a)) = -a := by ring
  have h2 : ((A : ℝ) - (A + b)) = -b := by ring
  rw [h1, h2, wgt_split, neg_sq, neg_sq]
  have h3 : ((-(B : ℝ) + a) * res + B * res) * m - ((A + b) * res - A * res) * l = a * (res * m) + b * (-(res * l)) := by ring
  rw [h3, turn_add]
  push_cast
  ring

/-- the amplitude a source at (l0,m0) has in the pixel (l,m), before the taper: flux times the weighted mean phase -/
def coherence (S : ℝ) (lm0 lm : ℝ × ℝ) (uv : List (ℝ × ℝ)) (w : List ℝ) : ℝ :=
  ((uv.zip w).map (fun s => S * s.2 * Real.cos (2 * Real.pi * (s.1.1 * (lm0.1 - lm.1) + s.1.2 * (lm0.2 - lm.2))))).sum

theorem source_direct (res : ℝ) (hres : res ≠ 0) (S : ℝ) (lm0 lm : ℝ × ℝ) : ∀ (uv : List (ℝ × ℝ)) (w : List ℝ),
    OnGrid res uv → (directSum res uv (sourceData S lm0 uv w) lm).re =
      wgt 0 0 * (taper (res * lm.2) * taper (res * lm.1)) * coherence S lm0 lm uv w := by
  intro uv
  induction uv with
  | nil => intro w _; simp [directSum, coherence]
  | cons s uv ih =>
    intro w hg
    cases w with
    | nil => simp [directSum, coherence, sourceData]
    | cons x w =>
      obtain ⟨A, B, rfl⟩ := hg s (by simp)
      have := ih w (fun t ht => hg t (by simp [ht]))
      unfold directSum coherence sourceData at this ⊢
      rw [List.zip_cons_cons, List.map_cons, List.zip_cons_cons, List.map_cons, List.map_cons, List.sum_cons, List.sum_cons,
        Complex.add_re, this, mul_add]
      congr 1
      simp only
      obtain ⟨l, m⟩ := lm
      rw [kernel_grid res hres]
      have e : (S : ℂ) * (x : ℂ) * turn (A * res * lm0.1 + B * res * lm0.2) * turn (-(A * res * l + B * res * m)) *
          ((wgt 0 0 * (taper (res * m) * taper (res * l)) : ℝ) : ℂ) =
          ((wgt 0 0 * (taper (res * m) * taper (res * l)) * (S * x) : ℝ) : ℂ) *
            turn (A * res * (lm0.1 - l) + B * res * (lm0.2 - m)) := by
        have : turn (A * res * (lm0.1 - l) + B * res * (lm0.2 - m)) =
            turn (A * res * lm0.1 + B * res * lm0.2) * turn (-(A * res * l + B * res * m)) := by
          rw [← turn_add]; congr 1; ring
        rw [this]
        push_cast
        ring
      rw [e, Complex.re_ofReal_mul, turn_re]
      ring

theorem weights_eq : ∀ (uv : List (ℝ × ℝ)) (w : List ℝ), w.length = uv.length →
    w.map Complex.ofReal = sourceData 1 (0, 0) uv w := by
  intro uv
  induction uv with
  | nil => intro w h; cases w with
    | nil => rfl
    | cons _ _ => simp at h
  | cons s uv ih =>
    intro w h
    cases w with
    | nil => simp at h
    | cons x w =>
      have := ih w (by simpa using h)
      unfold sourceData at this ⊢
      rw [List.map_cons, this, List.zip_cons_cons, List.map_cons]
      simp [turn_zero]

theorem coherence_self (S : ℝ) (lm : ℝ × ℝ) : ∀ (uv : List (ℝ × ℝ)) (w : List ℝ), w.length = uv.length →
    coherence S lm lm uv w = S * w.sum := by
  intro uv
  induction uv with
  | nil => intro w h; cases w with
    | nil => simp [coherence]
    | cons _ _ => simp at h
  | cons s uv ih =>
    intro w h
    cases w with
    | nil => simp at h
    | cons x w =>
      have := ih w (by simpa using h)
      unfold coherence at this ⊢
      rw [List.zip_cons_cons, List.map_cons, List.sum_cons, this, List.sum_cons]
      simp
      ring

theorem coherence_le (S : ℝ) (hS : 0 ≤ S) (lm0 lm : ℝ × ℝ) : ∀ (uv : List (ℝ × ℝ)) (w : List ℝ), w.length = uv.length →
    (∀ x ∈ w, 0 ≤ x) → |coherence S lm0 lm uv w| ≤ S * w.sum := by
  intro uv
  induction uv with
  | nil => intro w h _; cases w with
    | nil => simp [coherence]
    | cons _ _ => simp at h
  | cons s uv ih =>
    intro w h hw
    cases w with
    | nil => simp at h
    | cons x w =>
      have := ih w (by simpa using h) (fun y hy => hw y (by simp [hy]))
      have hx := hw x (by simp)
      unfold coherence at this ⊢
      rw [List.zip_cons_cons, List.map_cons, List.sum_cons, List.sum_cons, mul_add S]
      refine (abs_add_le _ _).trans (add_le_add ?_ this)
      rw [abs_mul, abs_of_nonneg (mul_nonneg hS hx)]
      calc _ ≤ S * x * 1 := mul_le_mul_of_nonneg_left (Real.abs_cos_le_one _) (mul_nonneg hS hx)
        _ = S * x := mul_one _

/-- what the image and the beam image of a gridded source are, pixel by pixel -/
theorem source_images (n : Nat) (hn : n ≠ 0) (res : ℝ) (hres : res ≠ 0) (uv : List (ℝ × ℝ)) (w : List ℝ)
    (hw : w.length = uv.length) (hg : OnGrid res uv) (S : ℝ) (q0 p0 : ℤ) (g : Image) (b : Nat → ℂ)
    (h : (Image.new n res 0).put uv (sourceData S (lOf n res p0, mOf n res q0) uv w) [w.map Complex.ofReal] = some g)
    (hb : g.bm = [b]) (q p : ℤ) :
    (invDft n g.uv (q % n).toNat (p % n).toNat).re = 1 / (n * n) * (wgt 0 0 * (taper (q / n) * taper (p / n)) *
      coherence S (lOf n res p0, mOf n res q0) (lOf n res p, mOf n res q) uv w) ∧
    (invDft n b (q % n).toNat (p % n).toNat).re = 1 / (n * n) * (wgt 0 0 * (taper (q / n) * taper (p / n)) *
      coherence 1 (0, 0) (lOf n res p, mOf n res q) uv w) := by
  have hnr : (n : ℝ) ≠ 0 := by exact_mod_cast hn
  have em : res * mOf n res q = q / n := by unfold mOf; field_simp
  have el : res * lOf n res p = -(p / n) := by unfold lOf; field_simp
  have ec : (1 / ((n : ℂ) * n)) = ((1 / (n * n : ℝ) : ℝ) : ℂ) := by push_cast; rfl
  obtain ⟨e1, _, e2⟩ := c76_direct _ g hn hres _ _ _ h q p
  obtain ⟨b', k1, k2⟩ := e2 0 (fun _ => 0) (w.map Complex.ofReal) rfl rfl
  rw [hb] at k1
  cases k1
  have d := (put_some h).2.2.2.1
  rw [d] at e1 k2
  simp only [Image.new] at e1 k2
  rw [weights_eq uv w hw] at k2
  rw [e1, k2, invDft_zero, zero_add, zero_add, ec, Complex.re_ofReal_mul, Complex.re_ofReal_mul,
    source_direct res hres S _ _ uv w hg, source_direct res hres 1 _ _ uv w hg]
  simp only
  rw [em, el, taper_neg]
  exact ⟨rfl, rfl⟩

/-- C76 (part): a source of flux S standing in a pixel, sampled on points of the grid with weights of any sign: the image
in that pixel is S times the beam image at the phase centre, lowered by the taper of the gridding function in both axes,
and nowhere in the image is there, relative to the taper, more than there.  Missing: with the taper divided out the pixel
would hold S times the beam image (see `c76_flux_fails`: the code does not divide it out), and samples off the grid. -/
theorem c76_source_partial (n : Nat) (hn : n ≠ 0) (res : ℝ) (hres : res ≠ 0) (uv : List (ℝ × ℝ)) (w : List ℝ)
    (hw : w.length = uv.length) (hg : OnGrid res uv) (S : ℝ) (center : ℤ × ℤ) (i0 j0 : Nat) (hi0 : i0 < n) (hj0 : j0 < n)
    (q0 p0 : ℤ) (h0 : Offset n center i0 j0 q0 p0) :
    ∃ g b im bm x y, (Image.new n res 0).put uv (sourceData S (lOf n res p0, mOf n res q0) uv w)
        [w.map Complex.ofReal] = some g ∧ g.bm = [b] ∧
      genImg n g.uv center = some im ∧ genImg n b center = some bm ∧ at2 im i0 j0 = some x ∧
      at2 bm ((-center.1) % n).toNat ((-center.2) % n).toNat = some y ∧
      x * taper 0 ^ 2 = S * y * (taper (q0 / n) * taper (p0 / n)) ∧
      (0 ≤ S → (∀ t ∈ w, 0 ≤ t) → ∀ i j, i < n → j < n → ∀ q p, Offset n center i j q p → ∃ z, at2 im i j = some z ∧
        |z| / (taper (q / n) * taper (p / n)) ≤ x / (taper (q0 / n) * taper (p0 / n))) := by
  have hnr : (0 : ℝ) < n := by exact_mod_cast Nat.pos_of_ne_zero hn
  have hz : (n : ℤ) ≠ 0 := by exact_mod_cast hn
  obtain ⟨g, b, hp, -, -, hb⟩ := put_new hn res uv (sourceData S (lOf n res p0, mOf n res q0) uv w)
    (w.map Complex.ofReal) (by simp [sourceData, hw]) (by simp [hw])
  have key := source_images n hn res hres uv w hw hg S q0 p0 g b hp hb
  obtain ⟨im, m1, m2, m3⟩ := c75_image n hn g.uv center
  obtain ⟨bm, n1, n2, n3⟩ := c75_image n hn b center
  have hc1 : ((-center.1) % n).toNat < n := by
    have := Int.emod_lt_of_pos (-center.1) (by omega : (0 : ℤ) < n)
    have := Int.emod_nonneg (-center.1) hz
    omega
  have hc2 : ((-center.2) % n).toNat < n := by
    have := Int.emod_lt_of_pos (-center.2) (by omega : (0 : ℤ) < n)
    have := Int.emod_nonneg (-center.2) hz
    omega
  have oc := (c75_centre n center _ _ hc1 hc2).2 ⟨rfl, rfl⟩
  have hx := m3 i0 j0 hi0 hj0 q0 p0 h0
  have hy := n3 _ _ hc1 hc2 0 0 oc
  refine ⟨g, b, im, bm, _, _, hp, hb, m1, n1, hx, hy, ?_, ?_⟩
  · rw [(key q0 p0).1, (key 0 0).2, coherence_self S _ uv w hw]
    have : (lOf n res 0, mOf n res 0) = ((0, 0) : ℝ × ℝ) := by simp [lOf, mOf]
    rw [this, coherence_self 1 _ uv w hw]
    simp only [Int.cast_zero, zero_div]
    ring
  · intro hS hpos i j hi hj q p ho
    refine ⟨_, m3 i j hi hj q p ho, ?_⟩
    rw [(key q p).1, (key q0 p0).1, coherence_self S _ uv w hw]
    have t1 := taper_pos (q / n); have t2 := taper_pos (p / n); have t3 := taper_pos (q0 / n); have t4 := taper_pos (p0 / n)
    have hwg : 0 < wgt 0 0 := by unfold wgt; positivity
    have hn2 : (0 : ℝ) < 1 / (n * n) := by positivity
    rw [div_le_div_iff₀ (by positivity) (by positivity), abs_mul, abs_mul, abs_mul, abs_mul, abs_of_pos hn2, abs_of_pos hwg,
      abs_of_pos t1, abs_of_pos t2] 
    have := coherence_le S hS (lOf n res p0, mOf n res q0) (lOf n res p, mOf n res q) uv w hw hpos
    have hk : 0 ≤ 1 / (n * n : ℝ) * wgt 0 0 * (taper (q / n) * taper (p / n)) * (taper (q0 / n) * taper (p0 / n)) := by positivity
    have := mul_le_mul_of_nonneg_left this hk
    linarith

/-- C76: a source at the phase centre, sampled anywhere, with any weights: every pixel of the image is S times the same
pixel of the beam image; dividing the one by the other there gives the flux. -/
theorem c76_phase_centre (n : Nat) (hn : n ≠ 0) (res : ℝ) (hres : res ≠ 0) (uv : List (ℝ × ℝ)) (w : List ℝ)
    (hw : w.length = uv.length) (S : ℝ) (center : ℤ × ℤ) :
    ∃ g b im bm, (Image.new n res 0).put uv (sourceData S (0, 0) uv w) [w.map Complex.ofReal] = some g ∧ g.bm = [b] ∧
      genImg n g.uv center = some im ∧ genImg n b center = some bm ∧
      ∀ i j, i < n → j < n → ∃ x y, at2 im i j = some x ∧ at2 bm i j = some y ∧ x = S * y := by
  obtain ⟨g, b, hp, -, -, hb⟩ := put_new hn res uv (sourceData S (0, 0) uv w)
    (w.map Complex.ofReal) (by simp [sourceData, hw]) (by simp [hw])
  obtain ⟨im, m1, m2, m3⟩ := c75_image n hn g.uv center
  obtain ⟨bm, n1, n2, n3⟩ := c75_image n hn b center
  refine ⟨g, b, im, bm, hp, hb, m1, n1, ?_⟩
  intro i j hi hj
  obtain ⟨q, p, ho⟩ := offset_exists n hn center i j
  refine ⟨_, _, m3 i j hi hj q p ho, n3 i j hi hj q p ho, ?_⟩
  obtain ⟨e1, _, e2⟩ := c76_direct _ g hn hres _ _ _ hp q p
  obtain ⟨b', k1, k2⟩ := e2 0 (fun _ => 0) (w.map Complex.ofReal) rfl rfl
  rw [hb] at k1
  cases k1
  have d := (put_some hp).2.2.2.1
  rw [d] at e1 k2
  simp only [Image.new] at e1 k2
  rw [weights_eq uv w hw] at k2
  rw [e1, k2, invDft_zero, zero_add, zero_add]
  have key : ∀ lm, directSum res uv (sourceData S (0, 0) uv w) lm = S * directSum res uv (sourceData 1 (0, 0) uv w) lm := by
    intro lm
    clear hw hp m3 n3 m1 n1 m2 n2 hb e1 e2 k2 d
    induction uv generalizing w with
    | nil => simp [directSum]
    | cons s uv ih =>
      cases w with
      | nil => simp [directSum, sourceData]
      | cons x w =>
        have := ih w
        unfold directSum sourceData at this ⊢
        rw [List.zip_cons_cons, List.map_cons, List.zip_cons_cons, List.map_cons, List.sum_cons, List.map_cons,
          List.zip_cons_cons, List.map_cons, List.sum_cons, this]
        push_cast
        ring
  rw [key, ← Complex.re_ofReal_mul]
  congr 1
  ring

/-- the two ends of the taper -/
theorem taper_half : taper (1 / 2) ^ 2 < 2 / 5 * taper 0 ^ 2 ∧ 0 < taper 0 := by
  refine ⟨?_, taper_pos 0⟩
  rw [taper_eq, taper_eq]
  have e1 : Real.cos (2 * Real.pi * (1 / 2)) = -1 := by
    have : 2 * Real.pi * (1 / 2) = Real.pi := by ring
    rw [this, Real.cos_pi]
  have e2 : Real.cos (2 * Real.pi * (2 * (1 / 2))) = 1 := by
    have : 2 * Real.pi * (2 * (1 / 2)) = 2 * Real.pi := by ring
    rw [this, Real.cos_two_pi]
  rw [e1, e2]
  simp only [mul_zero, Real.cos_zero]
  obtain ⟨h1, h2, h3, h4⟩ := exp_small
  have p1 := Real.exp_pos (-2); have p2 := Real.exp_pos (-8); have p3 := Real.exp_pos (-18)
  have c3 := Real.cos_le_one (2 * Real.pi * (3 * (1 / 2)))
  have c3' := Real.neg_one_le_cos (2 * Real.pi * (3 * (1 / 2)))
  generalize Real.cos (2 * Real.pi * (3 * (1 / 2))) = c at *
  have a1 : 1 + 2 * Real.exp (-2) * -1 + 2 * Real.exp (-8) * 1 + 2 * Real.exp (-18) * c ≤ 0.732 := by nlinarith
  have a0 : 0 ≤ 1 + 2 * Real.exp (-2) * -1 + 2 * Real.exp (-8) * 1 + 2 * Real.exp (-18) * c := by nlinarith
  have a2 : 1.27 ≤ 1 + 2 * Real.exp (-2) * 1 + 2 * Real.exp (-8) * 1 + 2 * Real.exp (-18) * 1 := by nlinarith
  generalize 1 + 2 * Real.exp (-2) * -1 + 2 * Real.exp (-8) * 1 + 2 * Real.exp (-18) * c = x at *
  generalize 1 + 2 * Real.exp (-2) * 1 + 2 * Real.exp (-8) * 1 + 2 * Real.exp (-18) * 1 = y at *
  nlinarith

/-- C76, where the code falls short: nothing divides the gridding function out of the image, so a source of flux S away
from the phase centre does not show its flux.  In the corner of an image of even size less than 2/5 of it is left, for all
samples on the grid and all weights of positive sum. -/
theorem c76_flux_fails (k : Nat) (hk : k ≠ 0) (res : ℝ) (hres : res ≠ 0) (uv : List (ℝ × ℝ)) (w : List ℝ)
    (hw : w.length = uv.length) (hg : OnGrid res uv) (hpos : 0 < w.sum) (S : ℝ) (hS : 0 < S) (center : ℤ × ℤ)
    (i0 j0 : Nat) (hi0 : i0 < 2 * k) (hj0 : j0 < 2 * k) (h0 : Offset (2 * k) center i0 j0 k k) :
    ∃ g b im bm x y, (Image.new (2 * k) res 0).put uv (sourceData S (lOf (2 * k) res k, mOf (2 * k) res k) uv w)
        [w.map Complex.ofReal] = some g ∧ g.bm = [b] ∧
      genImg (2 * k) g.uv center = some im ∧ genImg (2 * k) b center = some bm ∧ at2 im i0 j0 = some x ∧
      at2 bm ((-center.1) % (2 * k : ℕ)).toNat ((-center.2) % (2 * k : ℕ)).toNat = some y ∧
      0 < y ∧ x < 2 / 5 * (S * y) := by
  have hn : 2 * k ≠ 0 := by omega
  obtain ⟨g, b, im, bm, x, y, a1, a2, a3, a4, a5, a6, a7, -⟩ :=
    c76_source_partial (2 * k) hn res hres uv w hw hg S center i0 j0 hi0 hj0 k k h0
  have hy : 0 < y := by
    have hc1 : ((-center.1) % (2 * k : ℕ)).toNat < 2 * k := by
      have := Int.emod_lt_of_pos (-center.1) (by omega : (0 : ℤ) < (2 * k : ℕ))
      have := Int.emod_nonneg (-center.1) (by omega : ((2 * k : ℕ) : ℤ) ≠ 0)
      omega
    have hc2 : ((-center.2) % (2 * k : ℕ)).toNat < 2 * k := by
      have := Int.emod_lt_of_pos (-center.2) (by omega : (0 : ℤ) < (2 * k : ℕ))
      have := Int.emod_nonneg (-center.2) (by omega : ((2 * k : ℕ) : ℤ) ≠ 0)
      omega
    have oc := (c75_centre (2 * k) center _ _ hc1 hc2).2 ⟨rfl, rfl⟩
    obtain ⟨bm', n1, n2, n3⟩ := c75_image (2 * k) hn b center
    rw [a4] at n1; cases n1
    rw [n3 _ _ hc1 hc2 0 0 oc] at a6
    rw [← Option.some.inj a6, (source_images (2 * k) hn res hres uv w hw hg S k k g b a1 a2 0 0).2]
    have : (lOf (2 * k) res 0, mOf (2 * k) res 0) = ((0, 0) : ℝ × ℝ) := by simp [lOf, mOf]
    rw [this, coherence_self 1 _ uv w hw]
    have hwg : 0 < wgt 0 0 := by unfold wgt; positivity
    have t := taper_pos (((0 : ℤ) : ℝ) / (2 * k : ℕ))
    have hkr : (0 : ℝ) < (2 * k : ℕ) := by exact_mod_cast Nat.pos_of_ne_zero hn
    positivity
  refine ⟨g, b, im, bm, x, y, a1, a2, a3, a4, a5, a6, hy, ?_⟩
  have hh : (((k : ℕ) : ℤ) : ℝ) / (2 * k : ℕ) = 1 / 2 := by
    have : (k : ℝ) ≠ 0 := by exact_mod_cast hk
    push_cast
    field_simp
  rw [hh] at a7
  obtain ⟨b1, b2⟩ := taper_half
  have hSy : 0 < S * y := mul_pos hS hy
  have b3 : 0 < taper 0 ^ 2 := by positivity
  have : x * taper 0 ^ 2 < 2 / 5 * (S * y) * taper 0 ^ 2 := by
    rw [a7]
    nlinarith
  exact lt_of_mul_lt_mul_right this b3.le

/-- three samples on a grid of cells of 2 wavelengths, one of them of twice the weight; pixel (3,5) of an 8×8 image made
with its centre in the middle -/
example : OnGrid 2 [(2, 4), (-6, 0), (8, -2)] ∧ ([1, 2, 1] : List ℝ).length = ([(2, 4), (-6, 0), (8, -2)] : List (ℝ × ℝ)).length ∧
    (∀ t ∈ ([1, 2, 1] : List ℝ), 0 ≤ t) ∧ 0 < ([1, 2, 1] : List ℝ).sum ∧ Offset 8 (4, 4) 3 5 (-1) 1 ∧ Offset 8 (4, 4) 0 0 4 4 := by
  refine ⟨?_, rfl, ?_, by norm_num, ⟨by decide, by decide, by decide, by decide, by decide, by decide⟩,
    ⟨by decide, by decide, by decide, by decide, by decide, by decide⟩⟩
  · intro s hs
    simp only [List.mem_cons, List.not_mem_nil, or_false] at hs
    rcases hs with rfl | rfl | rfl
    · exact ⟨1, 2, by norm_num⟩
    · exact ⟨-3, 0, by norm_num⟩
    · exact ⟨4, -1, by norm_num⟩
  · intro t ht
    simp only [List.mem_cons, List.not_mem_nil, or_false] at ht
    rcases ht with rfl | rfl | rfl <;> norm_num

end Verif.Img
