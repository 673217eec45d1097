import Mathlib.Algebra.Polynomial.Roots
import Mathlib.Analysis.SpecialFunctions.Sqrt
import Mathlib.Analysis.InnerProductSpace.PiL2
import Mathlib.Analysis.InnerProductSpace.Projection.Minimal
import Mathlib.RingTheory.Polynomial.DegreeLT
import Mathlib.Algebra.Order.BigOperators.Group.List

/-!
# `rfi.remove_spikes` (C102)

`/repo/aipy/rfi.py` 55-73.  Samples are real numbers, without rounding.  `np.polyfit` is a parameter of the model: a function
`fit` from the points to the polynomial; where a theorem needs it, it is assumed to be what `polyfit` promises, a polynomial
of degree at most `order` whose sum of squared residuals is least (`LeastSq`).

Simplified: `data` is one-dimensional and not a masked array; `iter` is a natural number (a negative `iter` recurses until
python gives up); the rank warnings of `polyfit` are left out.
-/
namespace Verif.Dsp.Spikes

open Polynomial

/-! ## Model -/

/-- `x.compress(np.logical_not(mask))`, rfi.py 61-63 -/
def compress {α : Type} (mask : List Bool) (x : List α) : List α :=
  ((x.zip mask).filter fun e => !e.2).map Prod.fst

/-- `xs = np.arange(data.size)`, rfi.py 58 -/
def arange (n : Nat) : List Nat := List.range n

/-- `np.sqrt(np.average(residual**2))`, rfi.py 68 -/
noncomputable def rms (r : List ℝ) : ℝ := √((r.map fun x => x ^ 2).sum / r.length)

/-- `np.where(residual > sig)`, rfi.py 69 -/
noncomputable def farther (r : List ℝ) (sig : ℝ) : List Nat := by
  classical exact (List.range r.length).filter fun k => r.getD k 0 > sig

/-- `mask.put(k, 1)`, rfi.py 69 -/
def put (mask : List Bool) (ks : List Nat) : List Bool := ks.foldl (fun m k => m.set k true) mask

/-- `residual`, rfi.py 67 -/
noncomputable def residual (p : ℝ[X]) (nxs : List Nat) (ndata : List ℝ) : List ℝ :=
  (nxs.zip ndata).map fun e => |e.2 - p.eval (e.1 : ℝ)|

/-- the polynomial fitted in a call, rfi.py 61-65 -/
noncomputable def fitted (fit : List (Nat × ℝ) → ℝ[X]) (data : List ℝ) (mask : List Bool) : ℝ[X] :=
  let nxs := compress mask (arange data.length)
  let ndata := compress mask data
  if nxs.length ≠ 0 then fit (nxs.zip ndata) else fit ((arange data.length).zip data)

/-- the mask after line 69 -/
noncomputable def masked (fit : List (Nat × ℝ) → ℝ[X]) (data : List ℝ) (mask : List Bool) : List Bool :=
  let r := residual (fitted fit data mask) (compress mask (arange data.length)) (compress mask data)
  put mask (farther r (rms r))

/-- the recursion, rfi.py 61-72: the polynomial, and what the mask is afterwards -/
noncomputable def loop (fit : List (Nat × ℝ) → ℝ[X]) (data : List ℝ) : Nat → List Bool → ℝ[X] × List Bool
  | 0, mask => (fitted fit data mask, mask)
  | iter + 1, mask => loop fit data iter (masked fit data mask)

/-- the mask used, rfi.py 59-60 -/
def theMask (data : List ℝ) : Option (List Bool) → List Bool
  | none => List.replicate data.length false
  | some mask => if mask.length ≠ data.length then List.replicate data.length false else mask

/-- the mask object of the caller afterwards: `mask.put` changes it in place where it is the one used -/
def callerMask (data : List ℝ) (after : List Bool) : Option (List Bool) → Option (List Bool)
  | none => none
  | some mask => if mask.length ≠ data.length then some mask else some after

/-- what `remove_spikes` returns, and the mask object of the caller -/
structure Result where
  smooth : List ℝ
  mask : Option (List Bool)

/-- `remove_spikes(data, mask, order, iter)`; `none` is the `TypeError` of `polyfit` on no points -/
noncomputable def removeSpikes (fit : List (Nat × ℝ) → ℝ[X]) (data : List ℝ) (mask : Option (List Bool)) (iter : Nat) :
    Option Result :=
  if data = [] then none else
    let out := loop fit data iter (theMask data mask)
    some ⟨(arange data.length).map fun i : Nat => out.1.eval (i : ℝ), callerMask data out.2 mask⟩

/-! ## Specification -/

/-- sum of squared residuals of `p` at the points -/
noncomputable def badness (p : ℝ[X]) (pts : List (Nat × ℝ)) : ℝ := (pts.map fun e => (e.2 - p.eval (e.1 : ℝ)) ^ 2).sum

/-- what `np.polyfit(xs, ys, deg=order)` promises -/
def LeastSq (order : Nat) (pts : List (Nat × ℝ)) (p : ℝ[X]) : Prop :=
  p.natDegree ≤ order ∧ ∀ q : ℝ[X], q.natDegree ≤ order → badness p pts ≤ badness q pts

/-- `fit` is a least-squares fit of polynomials of degree at most `order` -/
def Fits (order : Nat) (fit : List (Nat × ℝ) → ℝ[X]) : Prop := ∀ pts, pts ≠ [] → LeastSq order pts (fit pts)

/-- all samples as points -/
def points (data : List ℝ) : List (Nat × ℝ) := (List.range data.length).zip data

/-- a sample is farther from `p` than the root mean square of all `n` samples -/
def Outlier (p : ℝ[X]) (data : List ℝ) (i : Nat) : Prop :=
  ∃ y, data[i]? = some y ∧ badness p (points data) < data.length * (y - p.eval (i : ℝ)) ^ 2

/-! ## Lemmas -/

theorem compress_congr {α : Type} (mask : List Bool) : ∀ (x x' : List α), x.length = x'.length →
    (∀ i : Nat, mask[i]? = some false → x[i]? = x'[i]?) → compress mask x = compress mask x' := by
  induction mask with
  | nil => intro x x' _ _; simp [compress]
  | cons b mask ih =>
    intro x x' hl h
    cases x with
    | nil => cases x' with
      | nil => rfl
      | cons _ _ => simp at hl
    | cons a x => cases x' with
      | nil => simp at hl
      | cons a' x' =>
        have := ih x x' (by simpa using hl) (fun i hi => by simpa using h (i + 1) (by simpa using hi))
        unfold compress at this ⊢
        cases b with
        | true => simpa using this
        | false =>
          have h0 := h 0 rfl
          simp only [List.getElem?_cons_zero, Option.some.injEq] at h0
          simp [h0, this]

theorem compress_length {α : Type} (mask : List Bool) : ∀ (x : List α), x.length = mask.length →
    (compress mask x).length = mask.count false := by
  induction mask with
  | nil => intro x _; simp [compress]
  | cons b mask ih =>
    intro x hl
    cases x with
    | nil => simp at hl
    | cons a x =>
      have := ih x (by simpa using hl)
      unfold compress at this ⊢
      cases b <;> simpa using this

/-- the points left by a mask -/
theorem compress_zip {α β : Type} (mask : List Bool) : ∀ (x : List α) (y : List β), x.length = y.length →
    (compress mask x).zip (compress mask y) = compress mask (x.zip y) := by
  induction mask with
  | nil => intro x y _; simp [compress]
  | cons b mask ih =>
    intro x y hl
    cases x with
    | nil => simp [compress]
    | cons a x => cases y with
      | nil => simp at hl
      | cons a' y =>
        have := ih x y (by simpa using hl)
        unfold compress at this ⊢
        cases b <;> simpa using this

theorem mem_compress {α : Type} (mask : List Bool) : ∀ (x : List α) (a : α),
    a ∈ compress mask x ↔ ∃ i : Nat, mask[i]? = some false ∧ x[i]? = some a := by
  induction mask with
  | nil => intro x a; simp [compress]
  | cons b mask ih =>
    intro x a
    cases x with
    | nil => simp [compress]
    | cons c x =>
      have := ih x a
      unfold compress at this ⊢
      constructor
      · intro h
        cases b with
        | true =>
          obtain ⟨i, h1, h2⟩ := this.1 (by simpa using h)
          exact ⟨i + 1, by simpa using h1, by simpa using h2⟩
        | false =>
          simp only [List.zip_cons_cons, Bool.not_false, List.filter_cons_of_pos, List.map_cons, List.mem_cons] at h
          rcases h with rfl | h
          · exact ⟨0, rfl, rfl⟩
          · obtain ⟨i, h1, h2⟩ := this.1 (by simpa using h)
            exact ⟨i + 1, by simpa using h1, by simpa using h2⟩
      · rintro ⟨i, h1, h2⟩
        cases i with
        | zero =>
          simp only [List.getElem?_cons_zero, Option.some.injEq] at h1 h2
          subst h1 h2
          simp
        | succ i =>
          have h3 := this.2 ⟨i, by simpa using h1, by simpa using h2⟩
          cases b with
          | true => simpa using h3
          | false => simp only [List.zip_cons_cons, Bool.not_false, List.filter_cons_of_pos, List.map_cons,
                      List.mem_cons]; exact Or.inr (by simpa using h3)

theorem compress_all {α : Type} (x : List α) : compress (List.replicate x.length false) x = x := by
  induction x with
  | nil => rfl
  | cons a x ih =>
    unfold compress at ih ⊢
    rw [List.length_cons, List.replicate_succ]
    simpa using ih

theorem put_length (mask : List Bool) (ks : List Nat) : (put mask ks).length = mask.length := by
  unfold put
  induction ks generalizing mask with
  | nil => rfl
  | cons k ks ih => rw [List.foldl_cons, ih]; simp

theorem put_get (ks : List Nat) : ∀ (mask : List Bool) (i : Nat), i < mask.length →
    (put mask ks)[i]? = some true ∨ ((put mask ks)[i]? = mask[i]? ∧ i ∉ ks) := by
  induction ks with
  | nil => intro mask i _; right; exact ⟨rfl, by simp⟩
  | cons k ks ih =>
    intro mask i hi
    have e : put mask (k :: ks) = put (mask.set k true) ks := rfl
    rw [e]
    rcases ih (mask.set k true) i (by simpa using hi) with h | ⟨h1, h2⟩
    · exact Or.inl h
    · rw [h1]
      by_cases hk : k = i
      · subst hk
        left
        rw [List.getElem?_set_self hi]
      · right
        rw [List.getElem?_set_ne hk]
        exact ⟨rfl, by simp [h2, Ne.symm hk]⟩

theorem put_mem (ks : List Nat) : ∀ (mask : List Bool) (i : Nat), i < mask.length →
    (put mask ks)[i]? = if i ∈ ks then some true else mask[i]? := by
  induction ks with
  | nil => intro mask i _; simp [put]
  | cons k ks ih =>
    intro mask i hi
    have e : put mask (k :: ks) = put (mask.set k true) ks := rfl
    rw [e, ih _ _ (by simpa using hi)]
    by_cases h : i ∈ ks
    · simp [h]
    · by_cases hk : k = i
      · subst hk
        simp [h, hi]
      · rw [if_neg h, if_neg (by simp [h, Ne.symm hk]), List.getElem?_set_ne hk]

theorem put_count (ks : List Nat) : ∀ (mask : List Bool), mask.count false ≤ (put mask ks).count false + ks.length := by
  induction ks with
  | nil => intro mask; simp [put]
  | cons k ks ih =>
    intro mask
    have e : put mask (k :: ks) = put (mask.set k true) ks := rfl
    rw [e]
    have h1 := ih (mask.set k true)
    have h2 : mask.count false ≤ (mask.set k true).count false + 1 := by
      by_cases hk : k < mask.length
      · rw [List.count_set hk]
        split <;> first | (simp; omega) | simp
      · rw [List.set_eq_of_length_le (by omega)]; omega
    simp only [List.length_cons]
    omega

theorem rms_nonneg (r : List ℝ) : 0 ≤ rms r := Real.sqrt_nonneg _

theorem sumsq_nonneg (r : List ℝ) : 0 ≤ (r.map fun x => x ^ 2).sum := by
  apply List.sum_nonneg
  intro x hx
  obtain ⟨y, _, rfl⟩ := List.mem_map.1 hx
  positivity

/-- comparison with the root mean square, without the root -/
theorem gt_rms {r : List ℝ} (hr : r ≠ []) {x : ℝ} (hx : 0 ≤ x) :
    x > rms r ↔ (r.map fun x => x ^ 2).sum < r.length * x ^ 2 := by
  have hl : (0 : ℝ) < r.length := by exact_mod_cast List.length_pos_iff.2 hr
  unfold rms
  rw [gt_iff_lt, Real.sqrt_lt (div_nonneg (sumsq_nonneg r) hl.le) hx, div_lt_iff₀ hl, mul_comm]

theorem farther_mem (r : List ℝ) (sig : ℝ) (k : Nat) : k ∈ farther r sig ↔ ∃ x, r[k]? = some x ∧ x > sig := by
  unfold farther
  simp only [List.mem_filter, List.mem_range, decide_eq_true_eq]
  constructor
  · rintro ⟨h1, h2⟩
    refine ⟨r[k], List.getElem?_eq_getElem h1, ?_⟩
    rwa [List.getD_eq_getElem?_getD, List.getElem?_eq_getElem h1] at h2
  · rintro ⟨x, h1, h2⟩
    obtain ⟨h3, h4⟩ := List.getElem?_eq_some_iff.1 h1
    refine ⟨h3, ?_⟩
    rw [List.getD_eq_getElem?_getD, h1]
    exact h2

theorem lt_sum {c : ℝ} : ∀ (r : List ℝ), r ≠ [] → (∀ x ∈ r, c < x) → r.length * c < r.sum := by
  intro r
  induction r with
  | nil => intro h; exact absurd rfl h
  | cons x r ih =>
    intro _ h
    rw [List.sum_cons, List.length_cons]
    push_cast
    have hx := h x List.mem_cons_self
    by_cases hr : r = []
    · subst hr; simp; linarith
    · have := ih hr (fun y hy => h y (List.mem_cons_of_mem _ hy))
      linarith

/-- not all residuals are above their root mean square -/
theorem farther_lt {r : List ℝ} (hr : r ≠ []) (h0 : ∀ x ∈ r, 0 ≤ x) : (farther r (rms r)).length < r.length := by
  have hsub : (farther r (rms r)).length ≤ (List.range r.length).length := by
    unfold farther
    exact List.length_filter_le _ _
  rw [List.length_range] at hsub
  rcases Nat.lt_or_ge (farther r (rms r)).length r.length with h | h
  · exact h
  exfalso
  have hall : ∀ k < r.length, k ∈ farther r (rms r) := by
    have h1 : (farther r (rms r)).length = (List.range r.length).length := by rw [List.length_range]; omega
    have h2 : farther r (rms r) = List.range r.length := by
      unfold farther at h1 ⊢
      exact List.length_filter_eq_length_iff.1 h1 |> List.filter_eq_self.2
    intro k hk
    rw [h2]
    exact List.mem_range.2 hk
  have hgt : ∀ x ∈ r, (r.map fun x => x ^ 2).sum < r.length * x ^ 2 := by
    intro x hx
    obtain ⟨k, hk, rfl⟩ := List.getElem_of_mem hx
    obtain ⟨y, hy, hy2⟩ := (farther_mem _ _ _).1 (hall k hk)
    rw [List.getElem?_eq_getElem hk, Option.some.injEq] at hy
    subst hy
    exact (gt_rms hr (h0 _ hx)).1 hy2
  have hl : (0 : ℝ) < r.length := by exact_mod_cast List.length_pos_iff.2 hr
  have := lt_sum (c := (r.map fun x => x ^ 2).sum / r.length) (r.map fun x => x ^ 2) (by simpa using hr) (by
    intro y hy
    obtain ⟨x, hx, rfl⟩ := List.mem_map.1 hy
    rw [div_lt_iff₀ hl, mul_comm]
    exact hgt x hx)
  rw [List.length_map, mul_div_cancel₀ _ hl.ne'] at this
  exact lt_irrefl _ this

theorem residual_nonneg {p : ℝ[X]} {nxs : List Nat} {ndata : List ℝ} : ∀ x ∈ residual p nxs ndata, 0 ≤ x := by
  intro x hx
  obtain ⟨e, _, rfl⟩ := List.mem_map.1 hx
  exact abs_nonneg _

theorem residual_sq (p : ℝ[X]) (nxs : List Nat) (ndata : List ℝ) :
    ((residual p nxs ndata).map fun x => x ^ 2).sum = badness p (nxs.zip ndata) := by
  unfold residual badness
  rw [List.map_map]
  congr 1
  apply List.map_congr_left
  intro e _
  simp

theorem masked_length (fit : List (Nat × ℝ) → ℝ[X]) (data : List ℝ) (mask : List Bool) :
    (masked fit data mask).length = mask.length := put_length _ _

/-- a round keeps at least one sample -/
theorem masked_count {fit : List (Nat × ℝ) → ℝ[X]} {data : List ℝ} {mask : List Bool} (hl : mask.length = data.length)
    (h : 0 < mask.count false) : 0 < (masked fit data mask).count false := by
  unfold masked
  simp only
  set r := residual (fitted fit data mask) (compress mask (arange data.length)) (compress mask data) with hr
  have hlen : r.length = mask.count false := by
    rw [hr]
    unfold residual
    rw [List.length_map, List.length_zip, compress_length _ _ (by simp [arange, hl]), compress_length _ _ hl.symm]
    simp
  have h1 := farther_lt (r := r) (by intro h0; rw [h0] at hlen; simp at hlen; omega) (by
    rw [hr]; exact residual_nonneg)
  have h2 := put_count (farther r (rms r)) mask
  omega

/-- masks only grow -/
theorem masked_mono {fit : List (Nat × ℝ) → ℝ[X]} {data : List ℝ} {mask : List Bool} {i : Nat}
    (h : (masked fit data mask)[i]? = some false) : mask[i]? = some false := by
  have hi : i < mask.length := by
    have := (List.getElem?_eq_some_iff.1 h).1
    rwa [masked_length] at this
  unfold masked at h
  rw [put_mem _ _ _ hi] at h
  split at h
  · simp at h
  · exact h

theorem fitted_congr {fit : List (Nat × ℝ) → ℝ[X]} {data data' : List ℝ} {mask : List Bool}
    (hl : data.length = data'.length) (hm : mask.length = data.length) (h : 0 < mask.count false)
    (he : ∀ i : Nat, mask[i]? = some false → data[i]? = data'[i]?) : fitted fit data mask = fitted fit data' mask := by
  have h1 := compress_length mask (arange data.length) (by simp [arange, hm])
  unfold fitted
  simp only
  rw [← hl, compress_congr mask data data' hl he, if_pos (by omega), if_pos (by omega)]

theorem masked_congr {fit : List (Nat × ℝ) → ℝ[X]} {data data' : List ℝ} {mask : List Bool}
    (hl : data.length = data'.length) (hm : mask.length = data.length) (h : 0 < mask.count false)
    (he : ∀ i : Nat, mask[i]? = some false → data[i]? = data'[i]?) : masked fit data mask = masked fit data' mask := by
  unfold masked
  rw [fitted_congr hl hm h he, ← hl, compress_congr mask data data' hl he]

theorem loop_congr {fit : List (Nat × ℝ) → ℝ[X]} {data data' : List ℝ} (hl : data.length = data'.length) :
    ∀ (iter : Nat) (mask : List Bool), mask.length = data.length → 0 < mask.count false →
    (∀ i : Nat, mask[i]? = some false → data[i]? = data'[i]?) → loop fit data iter mask = loop fit data' iter mask := by
  intro iter
  induction iter with
  | zero =>
    intro mask hm h he
    unfold loop
    rw [fitted_congr hl hm h he]
  | succ iter ih =>
    intro mask hm h he
    unfold loop
    rw [← masked_congr hl hm h he]
    exact ih _ (by rw [masked_length, hm]) (masked_count hm h) (fun i hi => he i (masked_mono hi))

theorem loop_mono {fit : List (Nat × ℝ) → ℝ[X]} {data : List ℝ} : ∀ (iter : Nat) (mask : List Bool),
    (loop fit data iter mask).2.length = mask.length ∧
      ∀ i : Nat, (loop fit data iter mask).2[i]? = some false → mask[i]? = some false := by
  intro iter
  induction iter with
  | zero => intro mask; exact ⟨rfl, fun _ h => h⟩
  | succ iter ih =>
    intro mask
    unfold loop
    refine ⟨by rw [(ih _).1, masked_length], fun i hi => masked_mono ((ih _).2 i hi)⟩

/-- the points left by a mask -/
theorem kept_points {data : List ℝ} {mask : List Bool} :
    (compress mask (arange data.length)).zip (compress mask data) = compress mask (points data) :=
  compress_zip mask _ _ (by simp [arange])

theorem points_get (data : List ℝ) (i : Nat) (y : ℝ) : (points data)[i]? = some (i, y) ↔ data[i]? = some y := by
  unfold points
  rw [List.getElem?_zip_eq_some]
  constructor
  · exact fun h => h.2
  · intro h
    refine ⟨?_, h⟩
    rw [List.getElem?_range (List.getElem?_eq_some_iff.1 h).1]

theorem points_index {data : List ℝ} {i k : Nat} {y : ℝ} (h : (points data)[i]? = some (k, y)) : k = i := by
  unfold points at h
  rw [List.getElem?_zip_eq_some] at h
  have h1 := (List.getElem?_eq_some_iff.1 h.1)
  obtain ⟨h2, h3⟩ := h1
  simpa using h3.symm

theorem badness_nonneg (p : ℝ[X]) (pts : List (Nat × ℝ)) : 0 ≤ badness p pts := by
  unfold badness
  apply List.sum_nonneg
  intro x hx
  obtain ⟨y, _, rfl⟩ := List.mem_map.1 hx
  positivity

theorem badness_zero {p : ℝ[X]} : ∀ {pts : List (Nat × ℝ)}, badness p pts = 0 ↔ ∀ e ∈ pts, e.2 = p.eval (e.1 : ℝ) := by
  intro pts
  induction pts with
  | nil => simp [badness]
  | cons e pts ih =>
    have e1 : badness p (e :: pts) = (e.2 - p.eval (e.1 : ℝ)) ^ 2 + badness p pts := by simp [badness]
    rw [e1, List.forall_mem_cons]
    have h1 := badness_nonneg p pts
    constructor
    · intro h
      have h2 : (e.2 - p.eval (e.1 : ℝ)) ^ 2 = 0 := by nlinarith [sq_nonneg (e.2 - p.eval (e.1 : ℝ))]
      refine ⟨by have := pow_eq_zero_iff (two_ne_zero) |>.1 h2; linarith, ih.1 (by linarith)⟩
    · rintro ⟨h2, h3⟩
      rw [h2, ih.2 h3]
      simp

theorem nodup_points (data : List ℝ) (mask : List Bool) : ((compress mask (points data)).map Prod.fst).Nodup := by
  have h1 : ((points data).map Prod.fst).Nodup := by
    unfold points
    rw [List.map_fst_zip (by simp)]
    exact List.nodup_range
  refine List.Nodup.sublist ?_ h1
  apply List.Sublist.map
  unfold compress
  refine (List.Sublist.map _ List.filter_sublist).trans ?_
  generalize points data = l
  induction l generalizing mask with
  | nil => simp
  | cons x l ih => cases mask with
    | nil => simp
    | cons m mask => simpa using ih mask

/-- a polynomial through more points than its degree is the only one -/
theorem unique_poly {order : Nat} {p q : ℝ[X]} (hp : p.natDegree ≤ order) (hq : q.natDegree ≤ order)
    {pts : List (Nat × ℝ)} (hn : (pts.map Prod.fst).Nodup) (hl : order < pts.length)
    (h1 : ∀ e ∈ pts, e.2 = p.eval (e.1 : ℝ)) (h2 : ∀ e ∈ pts, e.2 = q.eval (e.1 : ℝ)) : p = q := by
  classical
  have h3 : (p - q).natDegree ≤ order := (natDegree_sub_le _ _).trans (max_le hp hq)
  rw [← sub_eq_zero]
  let S : Finset ℝ := ((pts.map Prod.fst).map fun k : Nat => (k : ℝ)).toFinset
  have hS : S.card = pts.length := by
    rw [List.toFinset_card_of_nodup (hn.map Nat.cast_injective)]
    simp
  refine eq_zero_of_natDegree_lt_card_of_eval_eq_zero' (p - q) S ?_ (by omega)
  intro x hx
  simp only [S, List.mem_toFinset, List.mem_map] at hx
  obtain ⟨k, ⟨e, he, rfl⟩, rfl⟩ := hx
  rw [eval_sub, ← h1 e he, ← h2 e he, sub_self]

/-- samples of a polynomial are fitted by it -/
theorem fitted_smooth {order : Nat} {fit : List (Nat × ℝ) → ℝ[X]} (hf : Fits order fit) {data : List ℝ}
    {mask : List Bool} (hm : mask.length = data.length) {P : ℝ[X]} (hP : P.natDegree ≤ order)
    (hc : order < mask.count false) (hd : ∀ i : Nat, mask[i]? = some false → data[i]? = some (P.eval (i : ℝ))) :
    fitted fit data mask = P := by
  have hlx := compress_length mask (arange data.length) (by simp [arange, hm])
  have hlp := compress_length mask (points data) (by simp [points, hm])
  unfold fitted
  simp only
  rw [if_pos (by omega), kept_points]
  have hon : ∀ e ∈ compress mask (points data), e.2 = P.eval (e.1 : ℝ) := by
    rintro ⟨k, y⟩ he
    obtain ⟨i, h1, h2⟩ := (mem_compress _ _ _).1 he
    have := points_index h2
    subst this
    have h3 := (points_get _ _ _).1 h2
    rw [hd k h1, Option.some.injEq] at h3
    exact h3.symm
  obtain ⟨g1, g2⟩ := hf (compress mask (points data)) (by
    intro h; rw [h] at hlp; simp at hlp; omega)
  have h0 : badness (fit (compress mask (points data))) (compress mask (points data)) = 0 := by
    apply le_antisymm
    · have := g2 P hP
      rwa [badness_zero.2 hon] at this
    · exact badness_nonneg _ _
  exact unique_poly g1 hP (nodup_points data mask) (by omega) (badness_zero.1 h0) hon

theorem put_nil (mask : List Bool) : put mask [] = mask := rfl

theorem masked_smooth {order : Nat} {fit : List (Nat × ℝ) → ℝ[X]} (hf : Fits order fit) {data : List ℝ}
    {mask : List Bool} (hm : mask.length = data.length) {P : ℝ[X]} (hP : P.natDegree ≤ order)
    (hc : order < mask.count false) (hd : ∀ i : Nat, mask[i]? = some false → data[i]? = some (P.eval (i : ℝ))) :
    masked fit data mask = mask := by
  unfold masked
  simp only
  rw [fitted_smooth hf hm hP hc hd]
  have hz : ∀ x ∈ residual P (compress mask (arange data.length)) (compress mask data), x = 0 := by
    intro x hx
    unfold residual at hx
    rw [kept_points, List.mem_map] at hx
    obtain ⟨⟨k, y⟩, he, rfl⟩ := hx
    obtain ⟨i, h1, h2⟩ := (mem_compress _ _ _).1 he
    have := points_index h2
    subst this
    have h3 := (points_get _ _ _).1 h2
    rw [hd k h1, Option.some.injEq] at h3
    simp [← h3]
  have hnil : farther (residual P (compress mask (arange data.length)) (compress mask data))
      (rms (residual P (compress mask (arange data.length)) (compress mask data))) = [] := by
    apply List.eq_nil_iff_forall_not_mem.2
    intro k hk
    obtain ⟨x, h1, h2⟩ := (farther_mem _ _ _).1 hk
    rw [hz x (List.mem_of_getElem? h1)] at h2
    exact absurd (rms_nonneg _) (not_le.2 h2)
  rw [hnil]
  rfl

theorem loop_smooth {order : Nat} {fit : List (Nat × ℝ) → ℝ[X]} (hf : Fits order fit) {data : List ℝ}
    {mask : List Bool} (hm : mask.length = data.length) {P : ℝ[X]} (hP : P.natDegree ≤ order)
    (hc : order < mask.count false) (hd : ∀ i : Nat, mask[i]? = some false → data[i]? = some (P.eval (i : ℝ))) :
    ∀ iter, loop fit data iter mask = (P, mask) := by
  intro iter
  induction iter with
  | zero => unfold loop; rw [fitted_smooth hf hm hP hc hd]
  | succ iter ih => unfold loop; rw [masked_smooth hf hm hP hc hd]; exact ih

theorem fitted_all (fit : List (Nat × ℝ) → ℝ[X]) (data : List ℝ) :
    fitted fit data (List.replicate data.length false) = fit (points data) := by
  have h1 : compress (List.replicate data.length false) (arange data.length) = arange data.length := by
    have := compress_all (arange data.length)
    rwa [arange, List.length_range] at this
  unfold fitted
  simp only
  rw [h1, compress_all]
  unfold points arange
  split <;> rfl

theorem residual_get (p : ℝ[X]) (data : List ℝ) (i : Nat) (x : ℝ) :
    (residual p (arange data.length) data)[i]? = some x ↔ ∃ y, data[i]? = some y ∧ x = |y - p.eval (i : ℝ)| := by
  have e : residual p (arange data.length) data = (points data).map fun e => |e.2 - p.eval (e.1 : ℝ)| := rfl
  rw [e, List.getElem?_map, Option.map_eq_some_iff]
  constructor
  · rintro ⟨⟨k, y⟩, h1, rfl⟩
    have := points_index h1
    subst this
    exact ⟨y, (points_get _ _ _).1 h1, rfl⟩
  · rintro ⟨y, h1, rfl⟩
    exact ⟨(i, y), (points_get _ _ _).2 h1, rfl⟩

/-- the first round without a mask -/
theorem masked_first (fit : List (Nat × ℝ) → ℝ[X]) {data : List ℝ} (hne : data ≠ []) (i : Nat) :
    (masked fit data (List.replicate data.length false))[i]? = some true ↔ Outlier (fit (points data)) data i := by
  have h1 : compress (List.replicate data.length false) (arange data.length) = arange data.length := by
    have := compress_all (arange data.length)
    rwa [arange, List.length_range] at this
  unfold masked
  simp only
  rw [fitted_all, h1, compress_all]
  set p := fit (points data)
  have hrl : (residual p (arange data.length) data).length = data.length := by
    unfold residual; simp [arange]
  have hrne : residual p (arange data.length) data ≠ [] := by
    intro h; rw [h] at hrl; exact hne (List.length_eq_zero_iff.1 hrl.symm)
  have key : i ∈ farther (residual p (arange data.length) data) (rms (residual p (arange data.length) data)) ↔
      Outlier p data i := by
    rw [farther_mem]
    unfold Outlier
    constructor
    · rintro ⟨x, h2, h3⟩
      obtain ⟨y, h4, rfl⟩ := (residual_get _ _ _ _).1 h2
      rw [gt_rms hrne (abs_nonneg _), hrl, residual_sq, sq_abs] at h3
      exact ⟨y, h4, h3⟩
    · rintro ⟨y, h4, h3⟩
      refine ⟨_, (residual_get _ _ _ _).2 ⟨y, h4, rfl⟩, ?_⟩
      rw [gt_rms hrne (abs_nonneg _), hrl, residual_sq, sq_abs]
      exact h3
  rcases Nat.lt_or_ge i data.length with hi | hi
  · rw [put_mem _ _ _ (by simpa using hi), ← key]
    split
    · next h => simp [h]
    · next h => simp [h, hi]
  · constructor
    · intro h
      have := (List.getElem?_eq_some_iff.1 h).1
      rw [put_length, List.length_replicate] at this
      omega
    · rintro ⟨y, h, _⟩
      have := (List.getElem?_eq_some_iff.1 h).1
      omega

/-! ## Fits of degree zero -/

theorem badness_const (m : ℝ) : ∀ (pts : List (Nat × ℝ)), badness (C m) pts =
    (pts.map fun e => e.2 ^ 2).sum - 2 * m * (pts.map fun e => e.2).sum + pts.length * m ^ 2 := by
  intro pts
  induction pts with
  | nil => simp [badness]
  | cons e pts ih =>
    have e1 : badness (C m) (e :: pts) = (e.2 - m) ^ 2 + badness (C m) pts := by simp [badness]
    rw [e1, ih]
    simp only [List.map_cons, List.sum_cons, List.length_cons]
    push_cast
    ring

/-- a fit of degree zero is the mean -/
theorem fit_zero {fit : List (Nat × ℝ) → ℝ[X]} (hf : Fits 0 fit) {pts : List (Nat × ℝ)} (hne : pts ≠ []) :
    fit pts = C ((pts.map fun e => e.2).sum / pts.length) := by
  obtain ⟨h1, h2⟩ := hf pts hne
  have hl : (0 : ℝ) < pts.length := by exact_mod_cast List.length_pos_iff.2 hne
  obtain ⟨m, hm⟩ : ∃ m, fit pts = C m := ⟨_, eq_C_of_natDegree_le_zero h1⟩
  have h3 := h2 (C ((pts.map fun e => e.2).sum / pts.length)) (by simp)
  rw [hm, badness_const, badness_const] at h3
  rw [hm]
  congr 1
  set S := (pts.map fun e => e.2).sum
  set n : ℝ := (pts.length : ℝ)
  have h4 : n * (m - S / n) ^ 2 ≤ 0 := by
    have e1 : n * (m - S / n) ^ 2 = (- 2 * m * S + n * m ^ 2) - (- 2 * (S / n) * S + n * (S / n) ^ 2) := by
      field_simp
      ring
    rw [e1]
    linarith
  have h5 : (m - S / n) ^ 2 = 0 := le_antisymm (by
    by_contra h
    exact absurd h4 (not_le.2 (mul_pos hl (not_le.1 h)))) (sq_nonneg _)
  have := pow_eq_zero_iff (two_ne_zero) |>.1 h5
  linarith

/-! ## C102 -/

/-- **C102**: if a sample is not masked, what the masked samples hold does not matter, to the fit or to the mask left to the
caller, for every fit and every number of iterations: the samples used never run out. -/
theorem c102_masked (fit : List (Nat × ℝ) → ℝ[X]) (data data' : List ℝ) (hl : data.length = data'.length)
    (mask : List Bool) (hm : mask.length = data.length) (hsome : ∃ i : Nat, mask[i]? = some false)
    (he : ∀ i : Nat, mask[i]? = some false → data[i]? = data'[i]?) (iter : Nat) :
    removeSpikes fit data (some mask) iter = removeSpikes fit data' (some mask) iter := by
  have hc : 0 < mask.count false := by
    obtain ⟨i, hi⟩ := hsome
    exact List.count_pos_iff.2 (List.mem_of_getElem? hi)
  have hd : data ≠ [] := by
    rintro rfl
    rw [List.length_nil, List.length_eq_zero_iff] at hm
    subst hm
    simp at hc
  have hd' : data' ≠ [] := by
    rintro rfl
    exact hd (List.length_eq_zero_iff.1 hl)
  unfold removeSpikes
  rw [if_neg hd, if_neg hd']
  have t1 : theMask data (some mask) = mask := by
    unfold theMask
    simp [hm]
  have t2 : theMask data' (some mask) = mask := by
    unfold theMask
    simp [hm, hl]
  simp only
  rw [t1, t2, loop_congr hl iter mask hm hc he, hl]
  simp [callerMask, hl]

/-- **C102**: samples of a polynomial of at most the order of the fit, more of them than the order, are given back exactly,
and the polynomial continues over the masked samples, whatever these hold; nothing is added to the mask. -/
theorem c102_smooth {order : Nat} {fit : List (Nat × ℝ) → ℝ[X]} (hf : Fits order fit) (data : List ℝ) (mask : List Bool)
    (hm : mask.length = data.length) (P : ℝ[X]) (hP : P.natDegree ≤ order) (hc : order < mask.count false)
    (hd : ∀ i : Nat, mask[i]? = some false → data[i]? = some (P.eval (i : ℝ))) (iter : Nat) :
    removeSpikes fit data (some mask) iter =
      some ⟨(List.range data.length).map fun i : Nat => P.eval (i : ℝ), some mask⟩ := by
  have hne : data ≠ [] := by
    rintro rfl
    rw [List.length_nil, List.length_eq_zero_iff] at hm
    subst hm
    simp at hc
  have t1 : theMask data (some mask) = mask := by
    unfold theMask
    simp [hm]
  unfold removeSpikes
  rw [if_neg hne]
  simp only
  rw [t1, loop_smooth hf hm hP hc hd]
  simp [callerMask, hm, arange]

/-- **C102**: without a mask the first round excludes exactly the samples farther from the fit than the root mean square
distance, and the later rounds go on with these excluded. -/
theorem c102_first_partial (fit : List (Nat × ℝ) → ℝ[X]) (data : List ℝ) (hne : data ≠ []) (iter : Nat) :
    ∃ m : List Bool, m.length = data.length ∧ (∀ i : Nat, m[i]? = some true ↔ Outlier (fit (points data)) data i) ∧
      (removeSpikes fit data none (iter + 1)).map Result.smooth =
        (removeSpikes fit data (some m) iter).map Result.smooth := by
  refine ⟨masked fit data (List.replicate data.length false), by rw [masked_length]; simp, masked_first fit hne, ?_⟩
  unfold removeSpikes
  rw [if_neg hne, if_neg hne]
  have t1 : theMask data none = List.replicate data.length false := rfl
  have t2 : theMask data (some (masked fit data (List.replicate data.length false))) =
      masked fit data (List.replicate data.length false) := by
    unfold theMask
    simp [masked_length]
  simp only [Option.map_some]
  rw [t1, t2]
  rfl

/-- **C102**: if the samples that are not farther from the first fit than the root mean square are samples of a polynomial
of at most the order of the fit, and more than the order, then the polynomial is found, at all samples. -/
theorem c102_recovers {order : Nat} {fit : List (Nat × ℝ) → ℝ[X]} (hf : Fits order fit) (data : List ℝ)
    (P : ℝ[X]) (hP : P.natDegree ≤ order)
    (hd : ∀ i < data.length, ¬ Outlier (fit (points data)) data i → data[i]? = some (P.eval (i : ℝ)))
    (S : Finset Nat) (hS : order < S.card) (hin : ∀ i ∈ S, i < data.length ∧ ¬ Outlier (fit (points data)) data i)
    (iter : Nat) :
    removeSpikes fit data none (iter + 1) = some ⟨(List.range data.length).map fun i : Nat => P.eval (i : ℝ), none⟩ := by
  have hne : data ≠ [] := by
    rintro rfl
    obtain ⟨i, hi⟩ := Finset.card_pos.1 (by omega : 0 < S.card)
    have := (hin i hi).1
    simp at this
  set m := masked fit data (List.replicate data.length false) with hmdef
  have hm : m.length = data.length := by rw [hmdef, masked_length]; simp
  have hfalse : ∀ i : Nat, m[i]? = some false ↔ i < data.length ∧ ¬ Outlier (fit (points data)) data i := by
    intro i
    rw [← masked_first fit hne, ← hmdef]
    constructor
    · intro h
      exact ⟨hm ▸ (List.getElem?_eq_some_iff.1 h).1, by rw [h]; simp⟩
    · rintro ⟨h1, h2⟩
      rw [← hm] at h1
      rw [List.getElem?_eq_getElem h1] at h2 ⊢
      cases hb : m[i] with
      | true => rw [hb] at h2; exact absurd rfl h2
      | false => rfl
  have hc : order < m.count false := by
    have : S.card ≤ m.count false := by
      have hcl := compress_length m (List.range data.length) (by simp [hm])
      rw [← hcl]
      have hsub : S ⊆ (compress m (List.range data.length)).toFinset := by
        intro i hi
        rw [List.mem_toFinset, mem_compress]
        exact ⟨i, (hfalse i).2 (hin i hi), List.getElem?_range (hin i hi).1⟩
      exact (Finset.card_le_card hsub).trans (List.toFinset_card_le _)
    omega
  have hloop := loop_smooth hf hm hP hc (fun i hi => hd i ((hfalse i).1 hi).1 ((hfalse i).1 hi).2) iter
  unfold removeSpikes
  rw [if_neg hne]
  have t1 : loop fit data (iter + 1) (theMask data none) = loop fit data iter m := rfl
  simp only
  rw [t1, hloop]
  rfl

theorem mem_split {c d y : ℝ} {a b i : Nat} (h : (List.replicate a c ++ d :: List.replicate b c)[i]? = some y) :
    y = if i = a then d else c := by
  rcases Nat.lt_trichotomy i a with hi | hi | hi
  · rw [List.getElem?_append_left (by simpa using hi), List.getElem?_replicate, if_pos hi, Option.some.injEq] at h
    rw [if_neg (by omega), h]
  · subst hi
    rw [List.getElem?_append_right (by simp)] at h
    simp at h
    rw [if_pos rfl, h]
  · rw [List.getElem?_append_right (by simp; omega), List.length_replicate] at h
    obtain ⟨k, hk⟩ : ∃ k, i - a = k + 1 := ⟨i - a - 1, by omega⟩
    rw [hk, List.getElem?_cons_succ] at h
    have := List.mem_of_getElem? h
    rw [if_neg (by omega)]
    exact (List.mem_replicate.1 this).2

/-- **C102**: a single spike of any height on constant samples, two or more, is removed by the first round of a fit of order
zero: the result is the constant. -/
theorem c102_single_spike {fit : List (Nat × ℝ) → ℝ[X]} (hf : Fits 0 fit) (c h : ℝ) (a b : Nat)
    (hn : 2 ≤ a + b) (iter : Nat) :
    removeSpikes fit (List.replicate a c ++ (c + h) :: List.replicate b c) none (iter + 1) =
      some ⟨List.replicate (a + b + 1) c, none⟩ := by
  set data := List.replicate a c ++ (c + h) :: List.replicate b c with hdata
  have hlen : data.length = a + b + 1 := by rw [hdata]; simp; omega
  have hne : data ≠ [] := by rw [hdata]; simp
  have hpl : (points data).length = a + b + 1 := by unfold points; simp [hlen]
  have hpne : points data ≠ [] := by intro h0; rw [h0] at hpl; simp at hpl
  have hsnd : (points data).map (fun e => e.2) = data := by
    unfold points
    exact List.map_snd_zip (by simp)
  have hsq : (points data).map (fun e => e.2 ^ 2) = data.map fun y => y ^ 2 := by
    conv_rhs => rw [← hsnd, List.map_map]
    rfl
  have hn' : (2 : ℝ) ≤ (a : ℝ) + b := by exact_mod_cast hn
  set n : ℝ := (a : ℝ) + b + 1 with hndef
  have hnpos : 0 < n := by linarith
  have hfit : fit (points data) = C (c + h / n) := by
    rw [fit_zero hf hpne, hsnd, hpl]
    congr 1
    rw [hdata]
    simp only [List.sum_append, List.sum_cons, List.sum_replicate, nsmul_eq_mul]
    push_cast
    rw [← hndef]
    field_simp
    rw [hndef]
    ring
  have hbad : badness (C (c + h / n)) (points data) = h ^ 2 * (n - 1) / n := by
    rw [badness_const, hsnd, hsq, hpl, hdata]
    simp only [List.map_append, List.map_cons, List.map_replicate, List.sum_append, List.sum_cons, List.sum_replicate,
      nsmul_eq_mul]
    push_cast
    rw [← hndef]
    have hb : (b : ℝ) = n - 1 - a := by rw [hndef]; ring
    rw [hb]
    field_simp
    ring
  have hout : ∀ i, Outlier (fit (points data)) data i ↔ i = a ∧ h ≠ 0 := by
    intro i
    unfold Outlier
    rw [hfit, hbad, hlen]
    push_cast
    rw [← hndef]
    simp only [eval_C]
    constructor
    · rintro ⟨y, h1, h2⟩
      have hy := mem_split h1
      by_cases hi : i = a
      · refine ⟨hi, ?_⟩
        rintro rfl
        rw [if_pos hi] at hy
        rw [hy] at h2
        simp at h2
      · exfalso
        rw [if_neg hi] at hy
        rw [hy] at h2
        have e1 : n * (c - (c + h / n)) ^ 2 = h ^ 2 / n := by field_simp; ring
        rw [e1, div_lt_div_iff_of_pos_right hnpos] at h2
        nlinarith [sq_nonneg h]
    · rintro ⟨rfl, h0⟩
      refine ⟨c + h, by rw [hdata]; simp, ?_⟩
      have e1 : n * (c + h - (c + h / n)) ^ 2 = h ^ 2 * (n - 1) ^ 2 / n := by field_simp; ring
      rw [e1, div_lt_div_iff_of_pos_right hnpos]
      have hh : 0 < h ^ 2 := by positivity
      nlinarith [mul_pos hh (by linarith : 0 < n - 1)]
  have hrep : (List.range data.length).map (fun i : Nat => (C c : ℝ[X]).eval (i : ℝ)) = List.replicate (a + b + 1) c := by
    simp [hlen]
  rw [← hrep]
  refine c102_recovers hf data (C c) (by simp) ?_ ((Finset.range (a + b + 1)).erase a) ?_ ?_ iter
  · intro i hi hno
    rw [hout] at hno
    obtain ⟨y, hy⟩ : ∃ y, data[i]? = some y := ⟨_, List.getElem?_eq_getElem hi⟩
    rw [hy, eval_C]
    have := mem_split hy
    by_cases hia : i = a
    · have h0 : h = 0 := by by_contra h0; exact hno ⟨hia, h0⟩
      rw [this, if_pos hia, h0, add_zero]
    · rw [this, if_neg hia]
  · rw [Finset.card_erase_of_mem (by simp)]
    simp
    omega
  · intro i hi
    rw [Finset.mem_erase, Finset.mem_range] at hi
    exact ⟨by rw [hlen]; exact hi.2, fun h0 => hi.1 ((hout i).1 h0).1⟩

/-- **C102**: what the caller's mask holds is only added to. -/
theorem c102_caller (fit : List (Nat × ℝ) → ℝ[X]) (data : List ℝ) (mask : List Bool) (iter : Nat) (R : Result)
    (h : removeSpikes fit data (some mask) iter = some R) :
    ∃ m, R.mask = some m ∧ m.length = mask.length ∧ ∀ i : Nat, mask[i]? = some true → m[i]? = some true := by
  unfold removeSpikes at h
  split at h
  · simp at h
  · rw [Option.some.injEq] at h
    subst h
    unfold callerMask
    by_cases hm : mask.length ≠ data.length
    · simp only [if_pos hm]
      exact ⟨mask, rfl, rfl, fun _ h => h⟩
    · simp only [if_neg hm]
      have t1 : theMask data (some mask) = mask := by unfold theMask; simp only [if_neg hm]
      rw [t1]
      have hmono := loop_mono (fit := fit) (data := data) iter mask
      refine ⟨_, rfl, hmono.1, ?_⟩
      intro i hi
      have hlt : i < (loop fit data iter mask).2.length := by rw [hmono.1]; exact (List.getElem?_eq_some_iff.1 hi).1
      rw [List.getElem?_eq_getElem hlt]
      cases hb : (loop fit data iter mask).2[i] with
      | true => rfl
      | false =>
        have := hmono.2 i (by rw [List.getElem?_eq_getElem hlt, hb])
        rw [hi] at this
        simp at this

/-- least-squares fits exist for every order -/
theorem fits_exists (order : Nat) : ∃ fit, Fits order fit := by
  classical
  have key : ∀ pts : List (Nat × ℝ), ∃ p, LeastSq order pts p := by
    intro pts
    let n := pts.length
    let E : degreeLE ℝ order →ₗ[ℝ] EuclideanSpace ℝ (Fin n) :=
      { toFun := fun p => WithLp.toLp 2 fun k => (p : ℝ[X]).eval ((pts.get k).1 : ℝ)
        map_add' := by intro p q; ext k; simp
        map_smul' := by intro c p; ext k; simp }
    let u : EuclideanSpace ℝ (Fin n) := WithLp.toLp 2 fun k => (pts.get k).2
    have hb : ∀ p : degreeLE ℝ order, badness (p : ℝ[X]) pts = ‖u - E p‖ ^ 2 := by
      intro p
      rw [EuclideanSpace.norm_sq_eq]
      unfold badness
      conv_lhs => rw [← List.ofFn_get pts, List.map_ofFn, List.sum_ofFn]
      apply Finset.sum_congr rfl
      intro k _
      simp [u, E]
    obtain ⟨v, ⟨p, rfl⟩, hv⟩ := (LinearMap.range E).exists_norm_eq_iInf_of_complete_subspace
      (Submodule.complete_of_finiteDimensional _) u
    refine ⟨p, natDegree_le_of_degree_le (mem_degreeLE.1 p.2), ?_⟩
    intro q hq
    have hq' : q ∈ degreeLE ℝ order := mem_degreeLE.2 (degree_le_of_natDegree_le hq)
    have h1 := hb ⟨q, hq'⟩
    rw [hb p]
    simp only at h1
    rw [h1]
    have h2 : ‖u - E p‖ ≤ ‖u - E ⟨q, hq'⟩‖ := by
      rw [hv]
      exact ciInf_le ⟨0, by rintro x ⟨w, rfl⟩; exact norm_nonneg _⟩
        (⟨E ⟨q, hq'⟩, ⟨_, rfl⟩⟩ : (LinearMap.range E))
    exact pow_le_pow_left₀ (norm_nonneg _) h2 2
  choose fit hfit using key
  exact ⟨fit, fun pts _ => hfit pts⟩

/-- the hypotheses of the theorems above can be met: a parabola with a bad sample that is masked -/
example : ∃ fit, Fits 6 fit ∧ removeSpikes fit [0, 1, 4, 9, 1000, 25, 36, 49]
    (some [false, false, false, false, true, false, false, false]) 3 =
    some ⟨[0, 1, 4, 9, 16, 25, 36, 49], some [false, false, false, false, true, false, false, false]⟩ := by
  obtain ⟨fit, hf⟩ := fits_exists 6
  refine ⟨fit, hf, ?_⟩
  rw [c102_smooth hf _ _ rfl (X ^ 2) (by simp) (by decide) ?_]
  · simp [List.range_succ]
    norm_num
  · intro i hi
    rcases i with _ | _ | _ | _ | _ | _ | _ | _ | i <;> simp at hi ⊢ <;> norm_num

/-- a spike of any height among four samples -/
example : ∃ fit, Fits 0 fit ∧ removeSpikes fit [7, 7, 100, 7] none 3 = some ⟨[7, 7, 7, 7], none⟩ := by
  obtain ⟨fit, hf⟩ := fits_exists 0
  refine ⟨fit, hf, ?_⟩
  have := c102_single_spike hf 7 93 2 1 (by decide) 2
  norm_num [List.replicate] at this
  exact this

/-- the round with the first sample masked and the samples `ys` -/
theorem masked_shift {fit : List (Nat × ℝ) → ℝ[X]} (hf : Fits 0 fit) (x : ℝ) (ys : List ℝ) (hne : ys ≠ []) (m : ℝ)
    (hm : m = ys.sum / ys.length) :
    fitted fit (x :: ys) (true :: List.replicate ys.length false) = C m ∧
    masked fit (x :: ys) (true :: List.replicate ys.length false) =
      put (true :: List.replicate ys.length false)
        (farther (ys.map fun y => |y - m|) (rms (ys.map fun y => |y - m|))) := by
  have hc : ∀ {α : Type} (z : α) (zs : List α), zs.length = ys.length →
      compress (true :: List.replicate ys.length false) (z :: zs) = zs := by
    intro α z zs h
    have : compress (true :: List.replicate ys.length false) (z :: zs) =
        compress (List.replicate ys.length false) zs := by simp [compress]
    rw [this, ← h]
    exact compress_all zs
  have hx : arange (x :: ys).length = 0 :: (List.range ys.length).map Nat.succ := by
    unfold arange
    rw [List.length_cons, List.range_succ_eq_map]
  have hl : ((List.range ys.length).map Nat.succ).length = ys.length := by simp
  have hfit : fitted fit (x :: ys) (true :: List.replicate ys.length false) = C m := by
    unfold fitted
    simp only
    rw [hx, hc _ _ hl, hc _ _ rfl, if_pos (by simpa using hne), fit_zero hf (by
      intro h
      have := congrArg List.length h
      rw [List.length_zip, hl] at this
      simp at this
      exact hne this)]
    have h1 : (((List.range ys.length).map Nat.succ).zip ys).map (fun e => e.2) = ys :=
      List.map_snd_zip (by simp)
    rw [h1, List.length_zip, hl, hm]
    simp
  refine ⟨hfit, ?_⟩
  unfold masked
  simp only
  rw [hfit, hx, hc _ _ hl, hc _ _ rfl]
  have h2 : residual (C m) ((List.range ys.length).map Nat.succ) ys = ys.map fun y => |y - m| := by
    unfold residual
    have h1 : (((List.range ys.length).map Nat.succ).zip ys).map Prod.snd = ys :=
      List.map_snd_zip (by simp)
    conv_rhs => rw [← h1, List.map_map]
    simp [Function.comp_def]
  rw [h2]

theorem farther_iff {r : List ℝ} (hr : r ≠ []) (h0 : ∀ x ∈ r, 0 ≤ x) (k : Nat) :
    k ∈ farther r (rms r) ↔ ∃ x, r[k]? = some x ∧ (r.map fun x => x ^ 2).sum < r.length * x ^ 2 := by
  rw [farther_mem]
  constructor
  · rintro ⟨x, h1, h2⟩
    exact ⟨x, h1, (gt_rms hr (h0 x (List.mem_of_getElem? h1))).1 h2⟩
  · rintro ⟨x, h1, h2⟩
    exact ⟨x, h1, (gt_rms hr (h0 x (List.mem_of_getElem? h1))).2 h2⟩

/-- **C102, disagreement**: the positions found among the samples that are not masked are used as positions among all
samples.  With the first sample masked, a spike in the second is found and never removed, however many iterations: the same
samples without the masked one give zero (`c102_single_spike`). -/
theorem c102_shift_violated {fit : List (Nat × ℝ) → ℝ[X]} (hf : Fits 0 fit) (x : ℝ) (iter : Nat) :
    removeSpikes fit [x, 10, 0, 0, 0, 0] (some [true, false, false, false, false, false]) iter =
      some ⟨[2, 2, 2, 2, 2, 2], some [true, false, false, false, false, false]⟩ ∧
    removeSpikes fit [10, 0, 0, 0, 0] none (iter + 1) = some ⟨[0, 0, 0, 0, 0], none⟩ := by
  constructor
  · have hm := masked_shift hf x [10, 0, 0, 0, 0] (by simp) 2 (by norm_num)
    simp only [List.length_cons, List.length_nil, List.replicate, Nat.reduceAdd] at hm
    obtain ⟨h1, h2⟩ := hm
    have hfix : masked fit [x, 10, 0, 0, 0, 0] [true, false, false, false, false, false] =
        [true, false, false, false, false, false] := by
      rw [h2]
      have hmem : ∀ k ∈ farther ([10, 0, 0, 0, 0].map fun y : ℝ => |y - 2|) (rms ([10, 0, 0, 0, 0].map fun y : ℝ => |y - 2|)),
          k = 0 := by
        intro k hk
        rw [farther_iff (by simp) (by intro x hx; obtain ⟨y, _, rfl⟩ := List.mem_map.1 hx; exact abs_nonneg _)] at hk
        obtain ⟨x, h3, h4⟩ := hk
        rcases k with _ | _ | _ | _ | _ | k
        · rfl
        all_goals
          exfalso
          simp at h3
          try subst h3
          try norm_num at h4
      generalize farther ([10, 0, 0, 0, 0].map fun y : ℝ => |y - 2|) (rms ([10, 0, 0, 0, 0].map fun y : ℝ => |y - 2|)) = ks
        at hmem
      induction ks with
      | nil => rfl
      | cons k ks ih =>
        have := hmem k List.mem_cons_self
        subst this
        exact ih (fun j hj => hmem j (List.mem_cons_of_mem _ hj))
    have hloop : ∀ iter, loop fit [x, 10, 0, 0, 0, 0] iter [true, false, false, false, false, false] =
        (C 2, [true, false, false, false, false, false]) := by
      intro iter
      induction iter with
      | zero => unfold loop; rw [h1]
      | succ iter ih => unfold loop; rw [hfix]; exact ih
    unfold removeSpikes
    rw [if_neg (by simp)]
    have t1 : theMask [x, 10, 0, 0, 0, 0] (some [true, false, false, false, false, false]) =
      [true, false, false, false, false, false] := rfl
    simp only
    rw [t1, hloop]
    simp [callerMask, arange, List.range_succ]
  · have := c102_single_spike hf 0 10 0 4 (by decide) iter
    simpa [List.replicate] using this

/-- **C102, disagreement**: with the first sample masked, a spike in the third makes the call mask the second, a good
sample, in the mask of the caller, and the spike stays. -/
theorem c102_wrong_sample_violated {fit : List (Nat × ℝ) → ℝ[X]} (hf : Fits 0 fit) (x : ℝ) :
    ∃ R, removeSpikes fit [x, 0, 10, 0, 0, 0] (some [true, false, false, false, false, false]) 1 = some R ∧
      R.mask = some [true, true, false, false, false, false] := by
  have hm := masked_shift hf x [0, 10, 0, 0, 0] (by simp) 2 (by norm_num)
  simp only [List.length_cons, List.length_nil, List.replicate, Nat.reduceAdd] at hm
  obtain ⟨_, h2⟩ := hm
  have hmem : ∀ k, k ∈ farther ([0, 10, 0, 0, 0].map fun y : ℝ => |y - 2|) (rms ([0, 10, 0, 0, 0].map fun y : ℝ => |y - 2|))
      ↔ k = 1 := by
    intro k
    rw [farther_iff (by simp) (by intro x hx; obtain ⟨y, _, rfl⟩ := List.mem_map.1 hx; exact abs_nonneg _)]
    constructor
    · rintro ⟨x, h3, h4⟩
      rcases k with _ | _ | _ | _ | _ | k
      · exfalso
        simp at h3
        subst h3
        norm_num at h4
      · rfl
      all_goals
        exfalso
        simp at h3
        try subst h3
        try norm_num at h4
    · rintro rfl
      refine ⟨|10 - 2|, by simp, ?_⟩
      norm_num
  have hmask : masked fit [x, 0, 10, 0, 0, 0] [true, false, false, false, false, false] =
      [true, true, false, false, false, false] := by
    rw [h2]
    apply List.ext_getElem?
    intro i
    rcases Nat.lt_or_ge i 6 with hi | hi
    · rw [put_mem _ _ _ (by simpa using hi), if_congr (hmem i) rfl rfl]
      rcases i with _ | _ | _ | _ | _ | _ | i
      all_goals rfl
    · rw [List.getElem?_eq_none (by rw [put_length]; simpa using hi), List.getElem?_eq_none (by simpa using hi)]
  unfold removeSpikes
  rw [if_neg (by simp)]
  refine ⟨_, rfl, ?_⟩
  have t1 : theMask [x, 0, 10, 0, 0, 0] (some [true, false, false, false, false, false]) =
    [true, false, false, false, false, false] := rfl
  rw [t1]
  unfold loop
  rw [hmask]
  unfold loop
  rfl

end Verif.Dsp.Spikes
