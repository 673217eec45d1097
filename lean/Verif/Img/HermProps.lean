import Verif.Img.GridProps
import Mathlib.Analysis.SpecialFunctions.Complex.Circle
import Mathlib.Tactic.NormNum
/-!
# Properties C24 (Hermitian completion) and C58 (`Img.get` after `Img.put`)
-/
noncomputable section
namespace Verif.Img
open Finset Complex

/-! ## Specification -/

/-- a uv matrix is conjugate symmetric about the origin -/
def Hermitian (n : Nat) (m : Nat → ℂ) : Prop :=
  ∀ k1 k2, k1 < n → k2 < n → m ((n - k1) % n * n + (n - k2) % n) = (starRingEnd ℂ) (m (k1 * n + k2))

/-- two-dimensional inverse discrete Fourier transform (`np.fft.ifft2`) at pixel (l1, l2) -/
def invDft (n : Nat) (m : Nat → ℂ) (l1 l2 : Nat) : ℂ :=
  (1 / (n * n : ℂ)) * ∑ k1 ∈ range n, ∑ k2 ∈ range n, m (k1 * n + k2) * exp (2 * Real.pi * I * ((k1 * l1 + k2 * l2 : ℕ) : ℂ) / n)

/-- a weight list of real numbers -/
def RealList (w : List ℂ) : Prop := ∀ c ∈ w, (starRingEnd ℂ) c = c

/-! ## Lemmas -/

theorem around_neg (x : ℝ) (h : Nat) (j : ℤ) : j ∈ around (-x) h ↔ -j ∈ around x h := by
  unfold around
  rw [Finset.mem_Icc, Finset.mem_Icc]
  have h1 : ⌊-x - h⌋ = -⌈x + h⌉ := by rw [← Int.floor_neg]; congr 1; ring
  have h2 : ⌈-x + h⌉ = -⌊x - h⌋ := by rw [← Int.ceil_neg]; congr 1; ring
  rw [h1, h2]
  omega

theorem around_neg_sum {M : Type} [AddCommMonoid M] (x : ℝ) (h : Nat) (f : ℤ → M) :
    ∑ j ∈ around (-x) h, f j = ∑ j ∈ around x h, f (-j) := by
  apply Finset.sum_nbij' (fun j => -j) (fun j => -j)
  · intro j hj; exact (around_neg x h j).1 hj
  · intro j hj; rw [around_neg, neg_neg]; exact hj
  · intro j _; exact neg_neg j
  · intro j _; exact neg_neg j
  · intro j _; rw [neg_neg]

theorem neg_emod_iff (j : ℤ) (n k : Nat) (hk : k < n) : (-j) % n = (k : ℤ) ↔ j % n = (((n - k) % n : ℕ) : ℤ) := by
  have hn : (0 : ℤ) < n := by omega
  have aux : ∀ (a : ℤ) (c : Nat), c < n → a % n = (c : ℤ) → (-a) % n = (((n - c) % n : ℕ) : ℤ) := by
    intro a c hc h
    push_cast
    rw [Int.neg_emod]
    rcases Nat.eq_zero_or_pos c with rfl | hc0
    · rw [if_pos (Int.dvd_of_emod_eq_zero (by simpa using h))]
      simp
    · rw [if_neg (fun hd => by rw [Int.emod_eq_zero_of_dvd hd] at h; omega), h]
      rw [Int.natCast_sub (by omega), Int.emod_eq_of_lt (by omega) (by omega)]
      have : ((n : ℤ).natAbs : ℤ) = n := by omega
      omega
  constructor
  · intro h
    have := aux (-j) k hk h
    rwa [neg_neg] at this
  · intro h
    have hlt : (n - k) % n < n := Nat.mod_lt _ (by omega)
    have := aux j _ hlt h
    rw [this]
    congr 1
    rcases Nat.eq_zero_or_pos k with rfl | hk0
    · simp
    · rw [Nat.mod_eq_of_lt (by omega : n - k < n), Nat.mod_eq_of_lt (by omega)]; omega

theorem deposit1_mirror (n h : Nat) (x : ℝ × ℝ) (d : ℂ) (k1 k2 : Nat) (h1 : k1 < n) (h2 : k2 < n) :
    deposit1 n n h ((-x.1, -x.2), (starRingEnd ℂ) d) k1 k2 =
      (starRingEnd ℂ) (deposit1 n n h (x, d) ((n - k1) % n) ((n - k2) % n)) := by
  unfold deposit1
  simp only
  rw [around_neg_sum, map_sum]
  apply Finset.sum_congr rfl
  intro j1 _
  rw [around_neg_sum, map_sum]
  apply Finset.sum_congr rfl
  intro j2 _
  have e : ((-j1) % (n : ℤ) = (k1 : ℤ) ∧ (-j2) % (n : ℤ) = (k2 : ℤ)) ↔
      (j1 % (n : ℤ) = (((n - k1) % n : ℕ) : ℤ) ∧ j2 % (n : ℤ) = (((n - k2) % n : ℕ) : ℤ)) := by
    rw [neg_emod_iff j1 n k1 h1, neg_emod_iff j2 n k2 h2]
  have w : wgt (-x.1 - ((-j1 : ℤ) : ℝ)) (-x.2 - ((-j2 : ℤ) : ℝ)) = wgt (x.1 - j1) (x.2 - j2) := by
    rw [← wgt_neg]
    congr 1 <;> push_cast <;> ring
  by_cases hc : (-j1) % (n : ℤ) = (k1 : ℤ) ∧ (-j2) % (n : ℤ) = (k2 : ℤ)
  · rw [if_pos hc, if_pos (e.1 hc), w, map_mul, Complex.conj_ofReal]
  · rw [if_neg hc, if_neg (fun h => hc (e.2 h)), map_zero]

theorem mirror_mirror {n k : Nat} (hk : k < n) : (n - (n - k) % n) % n = k := by
  rcases Nat.eq_zero_or_pos k with rfl | hk0
  · simp
  · rw [Nat.mod_eq_of_lt (by omega : n - k < n), Nat.mod_eq_of_lt (by omega)]; omega

/-- samples together with their mirrored conjugates give a conjugate symmetric deposit -/
theorem deposit_hermitian (n h : Nat) (s : List ((ℝ × ℝ) × ℂ)) (k1 k2 : Nat) (h1 : k1 < n) (h2 : k2 < n) :
    deposit n n h (s ++ s.map (fun p => ((-p.1.1, -p.1.2), (starRingEnd ℂ) p.2))) ((n - k1) % n) ((n - k2) % n) =
      (starRingEnd ℂ) (deposit n n h (s ++ s.map (fun p => ((-p.1.1, -p.1.2), (starRingEnd ℂ) p.2))) k1 k2) := by
  have l1 : (n - k1) % n < n := Nat.mod_lt _ (by omega)
  have l2 : (n - k2) % n < n := Nat.mod_lt _ (by omega)
  unfold deposit
  rw [List.map_append, List.map_append, List.sum_append, List.sum_append, map_add, add_comm]
  congr 1
  · rw [map_list_sum, List.map_map, List.map_map]
    congr 1
    apply List.map_congr_left
    intro p _
    simp only [Function.comp_apply]
    rw [deposit1_mirror n h p.1 p.2 _ _ l1 l2, mirror_mirror h1, mirror_mirror h2]
  · rw [map_list_sum, List.map_map, List.map_map]
    congr 1
    apply List.map_congr_left
    intro p _
    simp only [Function.comp_apply]
    rw [deposit1_mirror n h p.1 p.2 _ _ h1 h2, Complex.conj_conj]

theorem grid_hermitian {n h : Nat} {m m' : Nat → ℂ} (hm : Hermitian n m) (s : List ((ℝ × ℝ) × ℂ))
    (hg : grid2D n n h m (s ++ s.map (fun p => ((-p.1.1, -p.1.2), (starRingEnd ℂ) p.2))) = some m') :
    Hermitian n m' := by
  intro k1 k2 h1 h2
  have l1 : (n - k1) % n < n := Nat.mod_lt _ (by omega)
  have l2 : (n - k2) % n < n := Nat.mod_lt _ (by omega)
  obtain ⟨m'', e1, e2, _⟩ := c28_square_partial n h (by omega)
    (s ++ s.map (fun p => ((-p.1.1, -p.1.2), (starRingEnd ℂ) p.2))) m
  rw [hg] at e1
  cases e1
  rw [e2 _ _ l1 l2, e2 _ _ h1 h2, hm k1 k2 h1 h2, deposit_hermitian n h s k1 k2 h1 h2, map_add]

theorem getIndices_neg (res : ℝ) (u v : ℝ) :
    getIndices res (-u, -v) = (-(getIndices res (u, v)).1, -(getIndices res (u, v)).2) := by
  unfold getIndices
  simp only [neg_div, neg_neg]

theorem zip_mirror (res : ℝ) (uv : List (ℝ × ℝ)) (d : List ℂ) (hl : uv.length = d.length) :
    ((uv ++ uv.map (fun p => (-p.1, -p.2))).map (getIndices res)).zip (d ++ d.map (starRingEnd ℂ)) =
      ((uv.map (getIndices res)).zip d) ++
        ((uv.map (getIndices res)).zip d).map (fun p => ((-p.1.1, -p.1.2), (starRingEnd ℂ) p.2)) := by
  rw [List.map_append, List.zip_append (by simpa using hl)]
  congr 1
  induction uv generalizing d with
  | nil => rfl
  | cons p uv ih =>
    cases d with
    | nil => cases hl
    | cons x d =>
      simp only [List.map_cons, List.zip_cons_cons]
      rw [ih d (by simpa using hl), getIndices_neg]

theorem putBeams_hermitian {dim : Nat} (res : ℝ) (uv : List (ℝ × ℝ)) : ∀ (bs : List (Nat → ℂ)) (ws : List (List ℂ))
    (bs' : List (Nat → ℂ)), (∀ b ∈ bs, Hermitian dim b) → (∀ w ∈ ws, RealList w ∧ w.length = uv.length) →
    putBeams dim ((uv ++ uv.map (fun p => (-p.1, -p.2))).map (getIndices res)) bs (appendWgts ws) = some bs' →
    ∀ b ∈ bs', Hermitian dim b := by
  intro bs
  induction bs with
  | nil =>
    intro ws bs' _ _ h
    simp only [putBeams, Option.some.injEq] at h
    rw [← h]; simp
  | cons b bs ih =>
    intro ws bs' hb hw h
    cases ws with
    | nil => simp [putBeams, appendWgts] at h
    | cons w ws =>
      simp only [appendWgts, List.map_cons, putBeams] at h
      obtain ⟨hr, hl⟩ := hw w (by simp)
      have hconj : w ++ w = w ++ w.map (starRingEnd ℂ) := by
        congr 1
        conv_lhs => rw [← List.map_id w]
        apply List.map_congr_left
        intro c hc
        exact (hr c hc).symm
      rw [hconj, zip_mirror res uv w hl.symm] at h
      cases hg : grid2D dim dim 3 b ((uv.map (getIndices res)).zip w ++
        ((uv.map (getIndices res)).zip w).map (fun p => ((-p.1.1, -p.1.2), (starRingEnd ℂ) p.2))) with
      | none => rw [hg] at h; cases h
      | some b' =>
        rw [hg] at h
        simp only [bind, Option.bind] at h
        cases hp : putBeams dim ((uv ++ uv.map (fun p => (-p.1, -p.2))).map (getIndices res)) bs
          (List.map (fun w => w ++ w) ws) with
        | none => rw [hp] at h; cases h
        | some r =>
          rw [hp] at h
          simp only [Option.some.injEq] at h
          intro c hc
          rw [← h, List.mem_cons] at hc
          rcases hc with rfl | hc
          · exact grid_hermitian (hb b (by simp)) _ hg
          · exact ih ws r (fun b'' h'' => hb b'' (by simp [h''])) (fun w' h' => hw w' (by simp [h'])) hp c hc

/-! ## C24 -/

/-- C24: the completed lists are the given samples followed, in the same order, by one sample at (-u,-v,-w) with the
conjugate value for each; weights are repeated. -/
theorem c24_completion (uvw : List (ℝ × ℝ × ℝ)) (data w : List ℂ) (hl : uvw.length = data.length)
    (hw : w.length = data.length) (k : Nat) (u v z : ℝ) (d c : ℂ) (h1 : uvw[k]? = some (u, v, z)) (h2 : data[k]? = some d)
    (h3 : w[k]? = some c) :
    (appendHermitian uvw data).1.length = 2 * data.length ∧ (appendHermitian uvw data).2.length = 2 * data.length ∧
    (appendHermitian uvw data).1[k]? = some (u, v, z) ∧ (appendHermitian uvw data).2[k]? = some d ∧
    (appendHermitian uvw data).1[data.length + k]? = some (-u, -v, -z) ∧
    (appendHermitian uvw data).2[data.length + k]? = some ((starRingEnd ℂ) d) ∧
    appendWgts [w] = [w ++ w] ∧ (w ++ w)[k]? = some c ∧ (w ++ w)[data.length + k]? = some c := by
  have hk : k < data.length := (List.getElem?_eq_some_iff.1 h2).1
  unfold appendHermitian appendWgts
  refine ⟨by simp [hl]; omega, by simp; omega, ?_, ?_, ?_, ?_, rfl, ?_, ?_⟩
  · rw [List.getElem?_append_left (by omega)]; exact h1
  · rw [List.getElem?_append_left hk]; exact h2
  · rw [List.getElem?_append_right (by omega), hl, Nat.add_sub_cancel_left, List.getElem?_map, h1]; rfl
  · rw [List.getElem?_append_right (by omega), Nat.add_sub_cancel_left, List.getElem?_map, h2]; rfl
  · rw [List.getElem?_append_left (by omega)]; exact h3
  · rw [List.getElem?_append_right (by omega), hw, Nat.add_sub_cancel_left]; exact h3

/-- C24: gridding completed samples keeps the uv matrix and (for real weights) the beam matrices conjugate symmetric;
a new `Img` is (all zero), so this holds after any number of such `put`s. -/
theorem c24_symmetric (g g' : Image) (uvw : List (ℝ × ℝ × ℝ)) (data : List ℂ) (wgts : List (List ℂ))
    (hu : Hermitian g.dim g.uv) (hb : ∀ b ∈ g.bm, Hermitian g.dim b) (hl : uvw.length = data.length)
    (hw : ∀ w ∈ wgts, RealList w ∧ w.length = uvw.length)
    (h : g.put ((appendHermitian uvw data).1.map (fun p => (p.1, p.2.1))) (appendHermitian uvw data).2
      (appendWgts wgts) = some g') :
    g'.dim = g.dim ∧ Hermitian g'.dim g'.uv ∧ ∀ b ∈ g'.bm, Hermitian g'.dim b := by
  have huv : (appendHermitian uvw data).1.map (fun p => (p.1, p.2.1)) =
      uvw.map (fun p => (p.1, p.2.1)) ++ (uvw.map (fun p => (p.1, p.2.1))).map (fun p => (-p.1, -p.2)) := by
    unfold appendHermitian
    rw [List.map_append, List.map_map, List.map_map]
    rfl
  rw [huv] at h
  generalize huv' : uvw.map (fun p => (p.1, p.2.1)) = uv at h
  have hlen : uv.length = data.length := by rw [← huv', List.length_map, hl]
  have hd : (appendHermitian uvw data).2 = data ++ data.map (starRingEnd ℂ) := rfl
  rw [hd] at h
  unfold Image.put at h
  split at h
  · cases h
  · simp only at h
    rw [zip_mirror g.res uv data hlen] at h
    cases hg : grid2D g.dim g.dim 3 g.uv ((uv.map (getIndices g.res)).zip data ++
        ((uv.map (getIndices g.res)).zip data).map (fun p => ((-p.1.1, -p.1.2), (starRingEnd ℂ) p.2))) with
    | none => rw [hg] at h; cases h
    | some m =>
      rw [hg] at h
      simp only [bind, Option.bind] at h
      cases hp : putBeams g.dim ((uv ++ uv.map (fun p => (-p.1, -p.2))).map (getIndices g.res)) g.bm
          (appendWgts wgts) with
      | none => rw [hp] at h; cases h
      | some r =>
        rw [hp] at h
        simp only [Option.some.injEq] at h
        rw [← h]
        refine ⟨rfl, grid_hermitian hu _ hg, ?_⟩
        exact putBeams_hermitian g.res uv g.bm wgts r hb (fun w h => by rw [hlen, ← hl]; exact hw w h) hp

theorem sum_mirror {M : Type} [AddCommMonoid M] (n : Nat) (f : Nat → M) :
    ∑ k ∈ range n, f ((n - k) % n) = ∑ k ∈ range n, f k := by
  apply Finset.sum_nbij' (fun k => (n - k) % n) (fun k => (n - k) % n)
  · intro k hk
    rw [Finset.mem_range] at hk ⊢
    exact Nat.mod_lt _ (by omega)
  · intro k hk
    rw [Finset.mem_range] at hk ⊢
    exact Nat.mod_lt _ (by omega)
  · intro k hk; exact mirror_mirror (Finset.mem_range.1 hk)
  · intro k hk; exact mirror_mirror (Finset.mem_range.1 hk)
  · intro k _; rfl

theorem exp_mirror (n k l : Nat) (hk : k < n) :
    exp (2 * Real.pi * I * (((n - k) % n * l : ℕ) : ℂ) / n) = exp (-(2 * Real.pi * I * ((k * l : ℕ) : ℂ) / n)) := by
  have hn : (n : ℂ) ≠ 0 := by
    have : n ≠ 0 := by omega
    exact_mod_cast this
  rw [Complex.exp_eq_exp_iff_exists_int]
  rcases Nat.eq_zero_or_pos k with rfl | hk0
  · exact ⟨0, by simp⟩
  · refine ⟨l, ?_⟩
    rw [Nat.mod_eq_of_lt (by omega : n - k < n)]
    have : (((n - k) * l : ℕ) : ℂ) = ((n : ℂ) - k) * l := by
      rw [Nat.cast_mul, Nat.cast_sub hk.le]
    rw [this]
    push_cast
    field_simp
    ring

/-- C24: the image of a conjugate symmetric uv matrix is real, so `_gen_img` loses nothing by taking the real part. -/
theorem c24_real_image (n : Nat) (m : Nat → ℂ) (hm : Hermitian n m) (l1 l2 : Nat) : (invDft n m l1 l2).im = 0 := by
  rw [← Complex.conj_eq_iff_im]
  unfold invDft
  rw [map_mul]
  congr 1
  · simp
  · rw [map_sum, ← sum_mirror n]
    apply Finset.sum_congr rfl
    intro k1 hk1
    rw [map_sum, ← sum_mirror n]
    apply Finset.sum_congr rfl
    intro k2 hk2
    rw [Finset.mem_range] at hk1 hk2
    have l1' : (n - k1) % n < n := Nat.mod_lt _ (by omega)
    have l2' : (n - k2) % n < n := Nat.mod_lt _ (by omega)
    rw [map_mul, ← hm _ _ l1' l2', mirror_mirror hk1, mirror_mirror hk2]
    congr 1
    rw [← Complex.exp_conj]
    have ec : (starRingEnd ℂ) (2 * Real.pi * I * (((n - k1) % n * l1 + (n - k2) % n * l2 : ℕ) : ℂ) / n) =
        -(2 * Real.pi * I * (((n - k1) % n * l1 : ℕ) : ℂ) / n) + -(2 * Real.pi * I * (((n - k2) % n * l2 : ℕ) : ℂ) / n) := by
      simp only [map_div₀, map_mul, Complex.conj_ofReal, Complex.conj_I, Complex.conj_natCast]
      push_cast
      have : (starRingEnd ℂ) 2 = 2 := Complex.conj_ofNat 2
      rw [this]
      ring
    rw [ec, Complex.exp_add, Complex.exp_neg, Complex.exp_neg, exp_mirror n k1 l1 hk1, exp_mirror n k2 l2 hk2,
      ← Complex.exp_neg, ← Complex.exp_neg, neg_neg, neg_neg, ← Complex.exp_add]
    congr 1
    push_cast
    ring

/-- a new image is conjugate symmetric -/
theorem c24_new (dim : Nat) (res : ℝ) (mf : Nat) : Hermitian dim (Image.new dim res mf).uv ∧
    ∀ b ∈ (Image.new dim res mf).bm, Hermitian dim b := by
  refine ⟨fun _ _ _ _ => by simp [Image.new], ?_⟩
  intro b hb
  simp only [Image.new, List.mem_replicate] at hb
  rw [hb.2]
  intro _ _ _ _
  simp

/-! ## C58 -/

theorem put_total {dim : Nat} (hd : dim ≠ 0) (res : ℝ) (u v : ℝ) (d w : ℂ) :
    ∃ g, (Image.new dim res 0).put [(u, v)] [d] [[w]] = some g ∧ g.dim = dim ∧ g.res = res ∧
      ∃ b, g.bm = [b] ∧
      (∀ k1 k2, k1 < dim → k2 < dim → g.uv (k1 * dim + k2) = deposit1 dim dim 3 (getIndices res (u, v), d) k1 k2) ∧
      ∀ k1 k2, k1 < dim → k2 < dim → b (k1 * dim + k2) = deposit1 dim dim 3 (getIndices res (u, v), w) k1 k2 := by
  obtain ⟨m, a1, a2, _⟩ := c28_square_partial dim 3 hd [(getIndices res (u, v), d)] (fun _ => 0)
  obtain ⟨b, b1, b2, _⟩ := c28_square_partial dim 3 hd [(getIndices res (u, v), w)] (fun _ => 0)
  refine ⟨⟨dim, res, m, [b]⟩, ?_, rfl, rfl, b, rfl, ?_, ?_⟩
  · unfold Image.put Image.new
    simp only [List.length_cons, List.length_nil, List.map_cons, List.map_nil,
      List.zip_cons_cons, List.zip_nil_left, List.any_cons, List.any_nil, List.replicate]
    rw [a1]
    simp [putBeams, b1]
  · intro k1 k2 h1 h2
    show m _ = _
    rw [a2 k1 k2 h1 h2]
    simp [deposit]
  · intro k1 k2 h1 h2
    rw [b2 k1 k2 h1 h2]
    simp [deposit]

theorem deposit1_mul (n1 n2 h : Nat) (x : ℝ × ℝ) (d : ℂ) (k1 k2 : Nat) :
    deposit1 n1 n2 h (x, d) k1 k2 = d * deposit1 n1 n2 h (x, 1) k1 k2 := by
  unfold deposit1
  simp only [Finset.mul_sum]
  apply Finset.sum_congr rfl
  intro j1 _
  apply Finset.sum_congr rfl
  intro j2 _
  split <;> ring

theorem cellOf_lt {n : Nat} (hn : n ≠ 0) (j : ℤ) : (j % n).toNat < n := by
  rw [← cmod_eq j n hn]; exact cmod_lt j n hn

theorem weightedMean_congr {n h : Nat} (hn : n ≠ 0) (f g : Nat → ℂ) (x : ℝ × ℝ)
    (hfg : ∀ k1 k2, k1 < n → k2 < n → f (k1 * n + k2) = g (k1 * n + k2)) :
    weightedMean n n h f x = weightedMean n n h g x := by
  unfold weightedMean cellOf
  congr 1
  apply Finset.sum_congr rfl
  intro j1 _
  apply Finset.sum_congr rfl
  intro j2 _
  rw [hfg _ _ (cellOf_lt hn j1) (cellOf_lt hn j2)]

/-- C58, the part that holds: after gridding one sample at (u,v), `Img.get` returns its value when asked for (-v,-u).
Missing: returning it when asked for (u,v), which fails (`c58_get_violated`). -/
theorem c58_get_mirrored_partial (dim : Nat) (hd : dim ≠ 0) (res : ℝ) (u v : ℝ) (d : ℂ) (g : Image)
    (h : (Image.new dim res 0).put [(u, v)] [d] [[1]] = some g) : g.get (-v, -u) = some d := by
  obtain ⟨g', h1, h2, h3, b, h4, h5, h6⟩ := put_total hd res u v d 1
  rw [h] at h1
  cases h1
  unfold Image.get
  rw [h4]
  simp only
  have hx : getReadIndices g.res (-v, -u) = getIndices res (u, v) := by
    unfold getReadIndices getIndices
    rw [h3]
    simp only [neg_neg, neg_div]
  rw [hx, h2, (c29_weighted_mean dim 3 hd g.uv _).1, (c29_weighted_mean dim 3 hd b _).1]
  simp only [bind, Option.bind]
  generalize hX : getIndices res (u, v) = x at *
  have e1 : weightedMean dim dim 3 g.uv x = d * weightedMean dim dim 3 b x := by
    rw [weightedMean_congr hd g.uv (fun p => d * b p) x]
    · unfold weightedMean
      rw [← mul_div_assoc]
      congr 1
      simp only [Finset.mul_sum]
      apply Finset.sum_congr rfl
      intro j1 _
      apply Finset.sum_congr rfl
      intro j2 _
      ring
    · intro k1 k2 l1 l2
      rw [h5 k1 k2 l1 l2, h6 k1 k2 l1 l2, deposit1_mul]
  have hpos : weightedMean dim dim 3 b x ≠ 0 := by
    have hreal : ∀ j1 j2 : ℤ, b (cellOf dim dim j1 j2) = ((∑ i1 ∈ around x.1 3, ∑ i2 ∈ around x.2 3,
        if i1 % dim = ((j1 % dim).toNat : ℤ) ∧ i2 % dim = ((j2 % dim).toNat : ℤ) then wgt (x.1 - i1) (x.2 - i2) else 0 : ℝ) : ℂ) := by
      intro j1 j2
      unfold cellOf
      rw [h6 _ _ (cellOf_lt hd j1) (cellOf_lt hd j2)]
      unfold deposit1
      push_cast
      apply Finset.sum_congr rfl
      intro i1 _
      apply Finset.sum_congr rfl
      intro i2 _
      split <;> simp
    have hcell : ∀ j1 ∈ around x.1 3, ∀ j2 ∈ around x.2 3, 0 < (∑ i1 ∈ around x.1 3, ∑ i2 ∈ around x.2 3,
        if i1 % dim = ((j1 % dim).toNat : ℤ) ∧ i2 % dim = ((j2 % dim).toNat : ℤ) then wgt (x.1 - i1) (x.2 - i2) else 0 : ℝ) := by
      intro j1 hj1 j2 hj2
      have hnn : ∀ i1 i2 : ℤ, 0 ≤ (if i1 % dim = ((j1 % dim).toNat : ℤ) ∧ i2 % dim = ((j2 % dim).toNat : ℤ) then
          wgt (x.1 - i1) (x.2 - i2) else 0 : ℝ) := by
        intro i1 i2
        split
        · exact (wgt_pos _ _).le
        · exact le_rfl
      apply Finset.sum_pos'
      · intro i1 _; exact Finset.sum_nonneg (fun i2 _ => hnn i1 i2)
      · refine ⟨j1, hj1, ?_⟩
        apply Finset.sum_pos'
        · intro i2 _; exact hnn j1 i2
        · refine ⟨j2, hj2, ?_⟩
          rw [if_pos]
          · exact wgt_pos _ _
          · have a := Int.emod_nonneg j1 (by omega : (dim : ℤ) ≠ 0)
            have c := Int.emod_nonneg j2 (by omega : (dim : ℤ) ≠ 0)
            omega
    unfold weightedMean
    have hsum : (∑ j1 ∈ around x.1 3, ∑ j2 ∈ around x.2 3, (wgt (x.1 - j1) (x.2 - j2) : ℂ) * b (cellOf dim dim j1 j2)) =
        ((∑ j1 ∈ around x.1 3, ∑ j2 ∈ around x.2 3, wgt (x.1 - j1) (x.2 - j2) * (∑ i1 ∈ around x.1 3, ∑ i2 ∈ around x.2 3,
        if i1 % dim = ((j1 % dim).toNat : ℤ) ∧ i2 % dim = ((j2 % dim).toNat : ℤ) then wgt (x.1 - i1) (x.2 - i2) else 0) : ℝ) : ℂ) := by
      simp only [hreal]
      push_cast
      rfl
    rw [hsum]
    have ht := totalWgt_pos 3 x
    have : (0 : ℝ) < (∑ j1 ∈ around x.1 3, ∑ j2 ∈ around x.2 3, wgt (x.1 - j1) (x.2 - j2) * (∑ i1 ∈ around x.1 3, ∑ i2 ∈ around x.2 3,
        if i1 % dim = ((j1 % dim).toNat : ℤ) ∧ i2 % dim = ((j2 % dim).toNat : ℤ) then wgt (x.1 - i1) (x.2 - i2) else 0)) := by
      apply Finset.sum_pos
      · intro j1 hj1
        apply Finset.sum_pos
        · intro j2 hj2
          exact mul_pos (wgt_pos _ _) (hcell j1 hj1 j2 hj2)
        · exact ⟨_, center_mem x.2 3⟩
      · exact ⟨_, center_mem x.1 3⟩
    apply div_ne_zero
    · exact_mod_cast this.ne'
    · exact_mod_cast ht.ne'
  rw [if_neg hpos, e1, mul_div_assoc, div_self hpos, mul_one]

/-- C58 fails: `Img.get` looks at the transposed cell.  A sample gridded at (u,v) = (20,0) of a 100 × 100 image and
asked for at (20,0) yields 0/0 (nan) instead of its value. -/
theorem c58_get_violated (d : ℂ) (g : Image) (h : (Image.new 100 1 0).put [((20 : ℝ), (0 : ℝ))] [d] [[1]] = some g) :
    g.get (20, 0) = none := by
  obtain ⟨g', h1, h2, h3, b, h4, h5, h6⟩ := put_total (dim := 100) (by decide) 1 20 0 d 1
  rw [h] at h1
  cases h1
  unfold Image.get
  rw [h4]
  simp only
  have hx : getReadIndices g.res (20, 0) = (((20 : ℤ) : ℝ), ((0 : ℤ) : ℝ)) := by
    unfold getReadIndices getIndices
    rw [h3]
    norm_num
  have hy : getIndices 1 ((20 : ℝ), (0 : ℝ)) = (((0 : ℤ) : ℝ), ((20 : ℤ) : ℝ)) := by
    unfold getIndices
    norm_num
  rw [hx, h2, (c29_weighted_mean 100 3 (by decide) g.uv _).1, (c29_weighted_mean 100 3 (by decide) b _).1]
  simp only [bind, Option.bind]
  rw [if_pos]
  unfold weightedMean
  have hwin : ∀ j : ℤ, ∀ i ∈ around (j : ℝ) 3, j - 3 ≤ i ∧ i ≤ j + 3 := by
    intro j i hi
    unfold around at hi
    rw [Finset.mem_Icc] at hi
    have e1 : ⌊(j : ℝ) - (3 : ℕ)⌋ = j - 3 := by
      have : (j : ℝ) - (3 : ℕ) = ((j - 3 : ℤ) : ℝ) := by push_cast; ring
      rw [this, Int.floor_intCast]
    have e2 : ⌈(j : ℝ) + (3 : ℕ)⌉ = j + 3 := by
      have : (j : ℝ) + (3 : ℕ) = ((j + 3 : ℤ) : ℝ) := by push_cast; ring
      rw [this, Int.ceil_intCast]
    rw [e1, e2] at hi
    exact hi
  rw [div_eq_zero_iff]
  left
  apply Finset.sum_eq_zero
  intro j1 hj1
  apply Finset.sum_eq_zero
  intro j2 hj2
  unfold cellOf
  rw [h6 _ _ (cellOf_lt (by decide) j1) (cellOf_lt (by decide) j2), hy]
  have : deposit1 100 100 3 ((((0 : ℤ) : ℝ), ((20 : ℤ) : ℝ)), 1) (j1 % (100 : ℕ)).toNat (j2 % (100 : ℕ)).toNat = 0 := by
    unfold deposit1
    apply Finset.sum_eq_zero
    intro i1 hi1
    apply Finset.sum_eq_zero
    intro i2 hi2
    rw [if_neg]
    have a1 := hwin 20 j1 hj1
    have a3 := hwin 0 i1 hi1
    omega
  rw [this, mul_zero]

/-- the hypotheses are met: `put` succeeds -/
example : ∃ g, (Image.new 100 1 0).put [((20 : ℝ), (0 : ℝ))] [3 + I] [[1]] = some g := by
  obtain ⟨g, h, _⟩ := put_total (dim := 100) (by decide) 1 20 0 (3 + I) 1
  exact ⟨g, h⟩

/-- C24: the completed samples of one visibility, gridded into a new image -/
example : ∃ g', (Image.new 8 1 0).put ((appendHermitian [(1, 2, 0)] [3 + I]).1.map (fun p => (p.1, p.2.1)))
    (appendHermitian [(1, 2, 0)] [3 + I]).2 (appendWgts [[1]]) = some g' := by
  obtain ⟨m, a1, _⟩ := c28_square_partial 8 3 (by decide) [(getIndices 1 (1, 2), 3 + I),
    (getIndices 1 (-1, -2), (starRingEnd ℂ) (3 + I))] (fun _ => 0)
  obtain ⟨b, b1, _⟩ := c28_square_partial 8 3 (by decide) [(getIndices 1 (1, 2), 1), (getIndices 1 (-1, -2), 1)] (fun _ => 0)
  refine ⟨⟨8, 1, m, [b]⟩, ?_⟩
  unfold Image.put Image.new appendHermitian appendWgts
  simp only [List.length_cons, List.length_nil, List.map_cons, List.map_nil, List.cons_append,
    List.nil_append, List.zip_cons_cons, List.zip_nil_left, List.any_cons, List.any_nil, List.replicate]
  rw [a1]
  simp [putBeams, b1]

end Verif.Img
