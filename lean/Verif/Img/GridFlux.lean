import Verif.Img.GridProps
import Mathlib.Analysis.SpecialFunctions.Gaussian.PoissonSummation
import Mathlib.Analysis.Real.Pi.Bounds
import Mathlib.Analysis.Complex.ExponentialBounds
/-!
# Property C146: gridding keeps the sum of the data to within a few per cent

Model of `grid1D_c` (`/repo/aipy/_dsp/grid/grid.c` 22-39) and of its wrapper (`/repo/aipy/_dsp/dsp.c` 5-41), next to that of `grid2D_c` in
`Verif.Img.GridModel`.  Positions and weights are exact reals (the C code uses `float`), buffers contiguous.
-/
set_option linter.unusedVariables false
set_option linter.unusedSimpArgs false
noncomputable section
namespace Verif.Img
open Finset

/-- `0.79788456080286541 * exp(-2*fwgt*fwgt)`, grid.c 30-33 -/
def wgt1 (a : ℝ) : ℝ := 79788456080286541 / 100000000000000000 * Real.exp (-2 * a * a)

/-- cell and weight for every step of the loop, grid.c 29-33 -/
def cells1 (n h : Nat) (x : ℝ) : List (Nat × ℝ) := (window x h).map fun j => (cmod j n, wgt1 (x - j))

/-- one sample, grid.c 26-36; `none` is the remainder by zero -/
def gridSample1 (n h : Nat) (mem : Nat → ℂ) (s : ℝ × ℂ) : Option (Nat → ℂ) :=
  if n = 0 then none else (cells1 n h s.1).foldlM (store n s.2) mem

/-- `grid1D_c`, grid.c 22-39 -/
def grid1D (n h : Nat) (mem : Nat → ℂ) (samples : List (ℝ × ℂ)) : Option (Nat → ℂ) := samples.foldlM (gridSample1 n h) mem

/-- what a call can come to: `undefined` is a remainder by zero or an access outside the buffer -/
inductive Out where
  | ok (mem : Nat → ℂ)
  | valueError
  | overflowError
  | undefined

/-- `footprint`, a `long` that holds 6, after `PyArg_ParseTuple` with the format `i` has stored an `int` at its address, dsp.c 8-12
(machines with the low bytes first); `none` is the OverflowError of a number that is no `int` -/
def footprintOf : Option ℤ → Option Nat
  | none => some 6
  | some k => if -2 ^ 31 ≤ k ∧ k < 2 ^ 31 then some (k % 2 ^ 32).toNat else none

/-- `dsp.grid1D_c(buf, ind, dat[, footprint])` for a buffer of `n` numbers, dsp.c 5-41 (types and ranks are right) -/
def grid1DCall (n : Nat) (mem : Nat → ℂ) (ind : List ℝ) (dat : List ℂ) (footprint : Option ℤ) : Out :=
  match footprintOf footprint with
  | none => .overflowError
  | some f =>
    if ind.length ≠ dat.length then .valueError
    else match grid1D n (f / 2) mem (ind.zip dat) with
      | some m => .ok m
      | none => .undefined

/-! ## Specification -/

/-- what a sample at `x` gives to cell `k` of a ring of `n` cells: the Gaussian of width 1/2 and area one (in ten digits and more), at all
the integers of the footprint that fall on the cell -/
def share (n h : Nat) (x : ℝ) (k : Nat) : ℝ :=
  ∑ j ∈ (Icc ⌊x - h⌋ ⌈x + h⌉).filter (fun j : ℤ => j % n = k), 0.79788456080286541 * Real.exp (-2 * (x - j) ^ 2)

/-- the footprint meant by the optional argument -/
def Meant (footprint : Option ℤ) (f : Nat) : Prop := (footprint = none ∧ f = 6) ∨ (footprint = some (f : ℤ) ∧ f < 2 ^ 31)

/-! ## The weights as a series -/

theorem hasSum_pow_natAbs {q : ℝ} (h0 : 0 ≤ q) (h1 : q < 1) : HasSum (fun n : ℤ => q ^ n.natAbs) ((1 + q) / (1 - q)) := by
  have h : (1 + q) / (1 - q) = (1 - q)⁻¹ + q * (1 - q)⁻¹ := by
    field_simp
  rw [h]
  refine HasSum.of_nat_of_neg_add_one (f := fun n : ℤ => q ^ n.natAbs) ?_ ?_
  · simpa using hasSum_geometric_of_lt_one h0 h1
  · have h2 := (hasSum_geometric_of_lt_one h0 h1).mul_left q
    have h3 : (fun n : ℕ => q ^ (-((n : ℤ) + 1)).natAbs) = fun n : ℕ => q * q ^ n := by
      funext n
      have : (-((n : ℤ) + 1)).natAbs = n + 1 := by omega
      rw [this, pow_succ, mul_comm]
    rw [h3]
    exact h2

/-- the number that makes the weights of all integers together one in the mean -/
def norm1 : ℝ := Real.sqrt (2 / Real.pi)

theorem poisson (x : ℝ) : ((norm1 * ∑' n : ℤ, Real.exp (-2 * (x - n) ^ 2) : ℝ) : ℂ) =
    ∑' n : ℤ, Complex.exp (-(Real.pi ^ 2 / 2 : ℝ) * n ^ 2 + 2 * Real.pi * x * n * Complex.I) := by
  have hpi := Real.pi_pos
  have h := Complex.tsum_exp_neg_quadratic (a := ((Real.pi / 2 : ℝ) : ℂ)) (by rw [Complex.ofReal_re]; positivity) (Complex.I * x)
  have e1 : (fun n : ℤ => Complex.exp (-(Real.pi ^ 2 / 2 : ℝ) * n ^ 2 + 2 * Real.pi * x * n * Complex.I)) =
      fun n : ℤ => Complex.exp (-Real.pi * ((Real.pi / 2 : ℝ) : ℂ) * n ^ 2 + 2 * Real.pi * (Complex.I * x) * n) := by
    funext n
    congr 1
    push_cast
    ring
  rw [e1, h]
  have e2 : (1 : ℂ) / ((Real.pi / 2 : ℝ) : ℂ) ^ (1 / 2 : ℂ) = (norm1 : ℂ) := by
    have : ((Real.pi / 2 : ℝ) : ℂ) ^ (1 / 2 : ℂ) = ((Real.sqrt (Real.pi / 2) : ℝ) : ℂ) := by
      rw [Real.sqrt_eq_rpow, Complex.ofReal_cpow (by positivity)]
      push_cast
      rfl
    rw [this, norm1, ← Complex.ofReal_one, ← Complex.ofReal_div]
    congr 1
    rw [one_div, ← Real.sqrt_inv, inv_div]
  rw [e2, Complex.ofReal_mul, Complex.ofReal_tsum]
  congr 1
  refine tsum_congr fun n => ?_
  rw [Complex.ofReal_exp]
  congr 1
  have hI : Complex.I * (Complex.I * x) = -(x : ℂ) := by rw [← mul_assoc, Complex.I_mul_I]; ring
  have hd : -(Real.pi : ℂ) / ((Real.pi / 2 : ℝ) : ℂ) = -2 := by
    push_cast
    have : (Real.pi : ℂ) ≠ 0 := by exact_mod_cast hpi.ne'
    field_simp
  rw [hI, hd]
  push_cast
  ring

theorem q_bound : Real.exp (-(Real.pi ^ 2 / 2)) ≤ 1 / 130 := by
  have hpi := Real.pi_gt_d6
  have h1 : (49 / 10 : ℝ) ≤ Real.pi ^ 2 / 2 := by nlinarith
  have h2 : (130 : ℝ) ≤ Real.exp (49 / 10) := by
    have h3 : (2.7182818283 : ℝ) < Real.exp 1 := Real.exp_one_gt_d9
    have h4 : Real.exp (49 / 10) = Real.exp 1 ^ 5 * Real.exp (-(1 / 10)) := by
      rw [← Real.exp_nat_mul, ← Real.exp_add]
      norm_num
    have h5 : (9 / 10 : ℝ) ≤ Real.exp (-(1 / 10)) := by
      have := Real.add_one_le_exp (-(1 / 10 : ℝ))
      linarith
    have h6 : (2.7182818283 : ℝ) ^ 5 ≤ Real.exp 1 ^ 5 := by gcongr
    rw [h4]
    calc (130 : ℝ) ≤ 2.7182818283 ^ 5 * (9 / 10) := by norm_num
      _ ≤ _ := by gcongr
  rw [Real.exp_neg, one_div]
  exact inv_anti₀ (by norm_num) (h2.trans (Real.exp_le_exp.2 h1))

theorem mean_one (x : ℝ) : |norm1 * ∑' n : ℤ, Real.exp (-2 * (x - n) ^ 2) - 1| ≤ 2 / 129 := by
  have hpi := Real.pi_pos
  set q := Real.exp (-(Real.pi ^ 2 / 2)) with hq
  have hq0 : 0 ≤ q := (Real.exp_pos _).le
  have hq1 : q ≤ 1 / 130 := q_bound
  have hs := hasSum_pow_natAbs hq0 (by linarith)
  set F : ℤ → ℂ := fun n => Complex.exp (-(Real.pi ^ 2 / 2 : ℝ) * n ^ 2 + 2 * Real.pi * x * n * Complex.I) with hF
  have hn : ∀ n : ℤ, ‖F n‖ ≤ q ^ n.natAbs := by
    intro n
    rw [hF]
    simp only
    rw [Complex.norm_exp]
    have hre : (-((Real.pi ^ 2 / 2 : ℝ) : ℂ) * (n : ℂ) ^ 2 + 2 * Real.pi * x * n * Complex.I).re = -(Real.pi ^ 2 / 2) * (n : ℝ) ^ 2 := by
      have : (-((Real.pi ^ 2 / 2 : ℝ) : ℂ) * (n : ℂ) ^ 2 + 2 * Real.pi * x * n * Complex.I) =
          ((-(Real.pi ^ 2 / 2) * (n : ℝ) ^ 2 : ℝ) : ℂ) + ((2 * Real.pi * x * n : ℝ) : ℂ) * Complex.I := by push_cast; ring
      rw [this, Complex.add_re, Complex.ofReal_re, Complex.re_ofReal_mul, Complex.I_re]
      simp
    rw [hre, hq, ← Real.exp_nat_mul]
    apply Real.exp_le_exp.2
    have h1 : ((n.natAbs : ℕ) : ℝ) ≤ (n : ℝ) ^ 2 := by
      have h2 : n.natAbs ≤ n.natAbs ^ 2 := Nat.le_self_pow (by norm_num) _
      have h3 : ((n.natAbs : ℕ) : ℝ) ≤ ((n.natAbs : ℕ) : ℝ) ^ 2 := by exact_mod_cast h2
      rwa [Nat.cast_natAbs, Int.cast_abs, sq_abs, ← Int.cast_abs, ← Nat.cast_natAbs] at h3
    nlinarith [sq_nonneg Real.pi]
  have hd : HasSum (fun n : ℤ => q ^ n.natAbs - if n = 0 then 1 else 0) ((1 + q) / (1 - q) - 1) := hs.sub (hasSum_ite_eq 0 1)
  have hG : ∀ n : ℤ, ‖F n - if n = 0 then 1 else 0‖ ≤ q ^ n.natAbs - if n = 0 then 1 else 0 := by
    intro n
    by_cases h : n = 0
    · subst h
      simp [hF]
    · simpa [h] using hn n
  have hb := tsum_of_norm_bounded hd hG
  have hFs : Summable F := Summable.of_norm_bounded hs.summable hn
  have hone : HasSum (fun n : ℤ => if n = 0 then (1 : ℂ) else 0) 1 := hasSum_ite_eq 0 1
  rw [hFs.tsum_sub hone.summable, hone.tsum_eq] at hb
  have hP := poisson x
  rw [← hF] at hP
  have hb' : ‖((norm1 * ∑' n : ℤ, Real.exp (-2 * (x - n) ^ 2) : ℝ) : ℂ) - 1‖ ≤ (1 + q) / (1 - q) - 1 := by
    rw [hP]
    exact hb
  rw [← Complex.ofReal_one, ← Complex.ofReal_sub, Complex.norm_real, Real.norm_eq_abs] at hb'
  refine hb'.trans ?_
  have h2 : (1 + q) / (1 - q) - 1 = 2 * q / (1 - q) := by
    have : (1 - q) ≠ 0 := by linarith
    field_simp
    ring
  rw [h2, div_le_div_iff₀ (by linarith) (by norm_num)]
  linarith

theorem far_term (t : ℝ) (h0 : 0 ≤ t) (h1 : t < 1) (i : ℤ) :
    Real.exp (-2 * (t - i) ^ 2) ≤ (if i ∈ Icc (-3 : ℤ) 3 then Real.exp (-2 * (t - i) ^ 2) else 0) +
      Real.exp (-14) * Real.exp (-1) ^ i.natAbs := by
  by_cases h : i ∈ Icc (-3 : ℤ) 3
  · rw [if_pos h]
    have := mul_nonneg (Real.exp_pos (-14)).le (pow_nonneg (Real.exp_pos (-1)).le i.natAbs)
    linarith
  · rw [if_neg h, zero_add, ← Real.exp_nat_mul, ← Real.exp_add]
    apply Real.exp_le_exp.2
    rw [mem_Icc] at h
    have hc : i ≤ -4 ∨ 4 ≤ i := by omega
    rcases hc with hc | hc
    · have hr : (i : ℝ) ≤ -4 := by exact_mod_cast hc
      have ha : ((i.natAbs : ℕ) : ℝ) = -(i : ℝ) := by
        rw [Nat.cast_natAbs, Int.cast_abs, abs_of_neg (by linarith)]
      rw [ha]
      nlinarith
    · have hr : (4 : ℝ) ≤ i := by exact_mod_cast hc
      have ha : ((i.natAbs : ℕ) : ℝ) = (i : ℝ) := by
        rw [Nat.cast_natAbs, Int.cast_abs, abs_of_pos (by linarith)]
      rw [ha]
      nlinarith

theorem exp_neg_one_lt : Real.exp (-1) ≤ 37 / 100 := by
  have h3 : (2.7182818283 : ℝ) < Real.exp 1 := Real.exp_one_gt_d9
  rw [Real.exp_neg]
  calc (Real.exp 1)⁻¹ ≤ (2.7182818283 : ℝ)⁻¹ := inv_anti₀ (by norm_num) h3.le
    _ ≤ _ := by norm_num

theorem tail_small : Real.exp (-14) * ((1 + Real.exp (-1)) / (1 - Real.exp (-1))) ≤ 1 / 100000 := by
  have h := exp_neg_one_lt
  have h0 := Real.exp_pos (-1)
  have h1 : (1 + Real.exp (-1)) / (1 - Real.exp (-1)) ≤ 3 := by
    rw [div_le_iff₀ (by linarith)]
    linarith
  have h2 : Real.exp (-14) = Real.exp (-1) ^ 14 := by rw [← Real.exp_nat_mul]; norm_num
  have h3 : Real.exp (-1) ^ 14 ≤ (37 / 100 : ℝ) ^ 14 := by gcongr
  rw [h2]
  calc Real.exp (-1) ^ 14 * ((1 + Real.exp (-1)) / (1 - Real.exp (-1))) ≤ (37 / 100 : ℝ) ^ 14 * 3 :=
      mul_le_mul h3 h1 (div_nonneg (by linarith) (by linarith)) (by positivity)
    _ ≤ _ := by norm_num

/-- the sum of the Gaussian over the footprint -/
def mass (x : ℝ) (h : Nat) : ℝ := ∑ j ∈ around x h, Real.exp (-2 * (x - j) ^ 2)

theorem mass_bounds (x : ℝ) (h : Nat) (hh : 3 ≤ h) :
    mass x h ≤ ∑' n : ℤ, Real.exp (-2 * (x - n) ^ 2) ∧ ∑' n : ℤ, Real.exp (-2 * (x - n) ^ 2) ≤ mass x h + 1 / 100000 := by
  set t := Int.fract x with ht
  have t0 : 0 ≤ t := Int.fract_nonneg x
  have t1 : t < 1 := Int.fract_lt_one x
  have hx : x = ⌊x⌋ + t := (Int.floor_add_fract x).symm
  have hb := (hasSum_pow_natAbs (Real.exp_pos (-1)).le (by have := exp_neg_one_lt; linarith)).mul_left (Real.exp (-14))
  have hfin : HasSum (fun i : ℤ => if i ∈ Icc (-3 : ℤ) 3 then Real.exp (-2 * (t - i) ^ 2) else 0)
      (∑ i ∈ Icc (-3 : ℤ) 3, Real.exp (-2 * (t - i) ^ 2)) := by
    have := hasSum_sum_of_ne_finset_zero (L := SummationFilter.unconditional ℤ) (f := fun i : ℤ => if i ∈ Icc (-3 : ℤ) 3 then Real.exp (-2 * (t - i) ^ 2) else 0)
      (s := Icc (-3 : ℤ) 3) (fun b hb => if_neg hb)
    rwa [Finset.sum_congr rfl (fun i hi => if_pos hi)] at this
  have hsum := hfin.add hb
  have hT : Summable fun i : ℤ => Real.exp (-2 * (t - i) ^ 2) :=
    Summable.of_nonneg_of_le (fun i => (Real.exp_pos _).le) (far_term t t0 t1) hsum.summable
  have hsh : (fun n : ℤ => Real.exp (-2 * (x - n) ^ 2)) ∘ (Equiv.addLeft ⌊x⌋) = fun i : ℤ => Real.exp (-2 * (t - i) ^ 2) := by
    funext i
    simp only [Function.comp, Equiv.coe_addLeft, Int.cast_add]
    congr 2
    rw [ht, Int.fract]
    ring
  have hX : Summable fun n : ℤ => Real.exp (-2 * (x - n) ^ 2) := by
    rw [← (Equiv.addLeft ⌊x⌋).summable_iff, hsh]
    exact hT
  have hts : ∑' n : ℤ, Real.exp (-2 * (x - n) ^ 2) = ∑' i : ℤ, Real.exp (-2 * (t - i) ^ 2) := by
    rw [← (Equiv.addLeft ⌊x⌋).tsum_eq (fun n : ℤ => Real.exp (-2 * (x - n) ^ 2))]
    exact tsum_congr fun i => congrFun hsh i
  refine ⟨hX.sum_le_tsum _ fun i _ => (Real.exp_pos _).le, ?_⟩
  have h1 : ∑' i : ℤ, Real.exp (-2 * (t - i) ^ 2) ≤ ∑ i ∈ Icc (-3 : ℤ) 3, Real.exp (-2 * (t - i) ^ 2) + 1 / 100000 := by
    have := hT.tsum_le_tsum (far_term t t0 t1) hsum.summable
    rw [hsum.tsum_eq] at this
    have h2 := tail_small
    linarith
  have h2 : ∑ i ∈ Icc (-3 : ℤ) 3, Real.exp (-2 * (t - i) ^ 2) ≤ mass x h := by
    have e : ∑ i ∈ Icc (-3 : ℤ) 3, Real.exp (-2 * (t - i) ^ 2) =
        ∑ j ∈ (Icc (-3 : ℤ) 3).map (Equiv.addLeft ⌊x⌋).toEmbedding, Real.exp (-2 * (x - j) ^ 2) := by
      rw [Finset.sum_map]
      refine Finset.sum_congr rfl fun i _ => (congrFun hsh i).symm
    rw [e]
    refine Finset.sum_le_sum_of_subset_of_nonneg ?_ fun j _ _ => (Real.exp_pos _).le
    intro j hj
    rw [Finset.mem_map] at hj
    obtain ⟨i, hi, rfl⟩ := hj
    rw [mem_Icc] at hi
    simp only [Equiv.coe_toEmbedding, Equiv.coe_addLeft]
    rw [around, mem_Icc]
    have hr : (3 : ℝ) ≤ h := by exact_mod_cast hh
    constructor
    · have : ⌊x - h⌋ = ⌊x⌋ - h := by exact_mod_cast Int.floor_sub_natCast x h
      rw [this]
      omega
    · have h3 : ⌈x + h⌉ = ⌈x⌉ + h := by exact_mod_cast Int.ceil_add_natCast x h
      have h4 := Int.floor_le_ceil x
      rw [h3]
      omega
  rw [hts]
  linarith

theorem norm1_bounds : |79788456080286541 / 100000000000000000 - norm1| ≤ 1 / 100000 ∧ norm1 ≤ 4 / 5 ∧ 79 / 100 ≤ norm1 := by
  have h1 := Real.pi_gt_d6
  have h2 := Real.pi_lt_d6
  have hpi := Real.pi_pos
  have a : (79788 / 100000 : ℝ) ≤ norm1 := by
    apply Real.le_sqrt_of_sq_le
    rw [le_div_iff₀ hpi]
    nlinarith
  have b : norm1 ≤ (79789 / 100000 : ℝ) := by
    apply Real.sqrt_le_iff.2
    refine ⟨by norm_num, ?_⟩
    rw [div_le_iff₀ hpi]
    nlinarith
  refine ⟨abs_le.2 ⟨?_, ?_⟩, ?_, ?_⟩ <;> linarith

theorem mass_one (x : ℝ) (h : Nat) (hh : 3 ≤ h) : |norm1 * mass x h - 1| ≤ 2 / 129 + 1 / 100000 := by
  obtain ⟨h1, h2⟩ := mass_bounds x h hh
  obtain ⟨_, h3, h4⟩ := norm1_bounds
  have h5 := abs_le.1 (mean_one x)
  refine abs_le.2 ⟨?_, ?_⟩ <;> nlinarith

theorem wgt1_mass (x : ℝ) (h : Nat) : ∑ j ∈ around x h, wgt1 (x - j) = 79788456080286541 / 100000000000000000 * mass x h := by
  rw [mass, Finset.mul_sum]
  refine Finset.sum_congr rfl fun j _ => ?_
  rw [wgt1]
  congr 2
  ring

theorem total1 (x : ℝ) (h : Nat) (hh : 3 ≤ h) : |∑ j ∈ around x h, wgt1 (x - j) - 1| ≤ 1 / 60 := by
  rw [wgt1_mass]
  have h1 := abs_le.1 (mass_one x h hh)
  obtain ⟨h2, h3, h4⟩ := norm1_bounds
  have h5 := abs_le.1 h2
  have h6 : 0 ≤ mass x h := Finset.sum_nonneg fun j _ => (Real.exp_pos _).le
  have h7 : mass x h ≤ 2 := by nlinarith
  refine abs_le.2 ⟨?_, ?_⟩ <;> nlinarith

theorem totalWgt_mass (x : ℝ × ℝ) (h : Nat) :
    totalWgt h x = 63661977236758149 / 100000000000000000 * (mass x.1 h * mass x.2 h) := by
  rw [totalWgt, mass, mass, Finset.sum_mul_sum, Finset.mul_sum]
  refine Finset.sum_congr rfl fun j _ => ?_
  rw [Finset.mul_sum]
  refine Finset.sum_congr rfl fun k _ => ?_
  rw [wgt, ← Real.exp_add]
  congr 2
  ring

theorem total2 (x : ℝ × ℝ) (h : Nat) (hh : 3 ≤ h) : |totalWgt h x - 1| ≤ 1 / 30 := by
  rw [totalWgt_mass]
  have h1 := abs_le.1 (mass_one x.1 h hh)
  have h2 := abs_le.1 (mass_one x.2 h hh)
  have hn2 : norm1 ^ 2 = 2 / Real.pi := Real.sq_sqrt (by positivity)
  have hc : |63661977236758149 / 100000000000000000 / norm1 ^ 2 - 1| ≤ 1 / 100000 := by
    rw [hn2]
    have p1 := Real.pi_gt_d6
    have p2 := Real.pi_lt_d6
    rw [div_div_eq_mul_div]
    refine abs_le.2 ⟨?_, ?_⟩ <;> linarith
  obtain ⟨_, h3, h4⟩ := norm1_bounds
  have e : 63661977236758149 / 100000000000000000 * (mass x.1 h * mass x.2 h) =
      63661977236758149 / 100000000000000000 / norm1 ^ 2 * ((norm1 * mass x.1 h) * (norm1 * mass x.2 h)) := by
    have : norm1 ≠ 0 := by linarith
    field_simp
  rw [e]
  set a := norm1 * mass x.1 h
  set b := norm1 * mass x.2 h
  set c := (63661977236758149 / 100000000000000000 / norm1 ^ 2 : ℝ)
  have h5 := abs_le.1 hc
  have ha : a ≤ 1 + 1 / 64 := by linarith
  have ha' : 1 - 1 / 64 ≤ a := by linarith
  have hb : b ≤ 1 + 1 / 64 := by linarith
  have hb' : 1 - 1 / 64 ≤ b := by linarith
  have hab : a * b ≤ (1 + 1 / 64) ^ 2 := by nlinarith
  have hab' : (1 - 1 / 64) ^ 2 ≤ a * b := by nlinarith
  refine abs_le.2 ⟨?_, ?_⟩ <;> nlinarith

/-! ## One dimension -/

theorem cells1_lt {n h : Nat} (hn : n ≠ 0) (x : ℝ) : ∀ c ∈ cells1 n h x, c.1 < n := by
  intro c hc
  obtain ⟨j, _, rfl⟩ := List.mem_map.1 hc
  exact cmod_lt j n hn

theorem share_eq {n : Nat} (hn : n ≠ 0) (h : Nat) (x : ℝ) (d : ℂ) (k : Nat) :
    ((cells1 n h x).map (fun c => if k = c.1 then (c.2 : ℂ) * d else 0)).sum = (share n h x k : ℂ) * d := by
  rw [cells1, List.map_map, window_sum, share, Finset.sum_filter]
  push_cast
  rw [Finset.sum_mul]
  refine Finset.sum_congr rfl fun j _ => ?_
  simp only [Function.comp]
  have he := emod_eq_iff j n k hn
  by_cases h : j % (n : ℤ) = (k : ℤ)
  · rw [if_pos (he.2 h).symm, if_pos h]
    congr 1
    rw [wgt1]
    push_cast
    congr 1
    · norm_num
    · congr 1
      ring
  · rw [if_neg (fun e => h (he.1 e.symm)), if_neg h]
    simp

theorem grid1D_eq {n : Nat} (hn : n ≠ 0) (h : Nat) : ∀ (samples : List (ℝ × ℂ)) (mem : Nat → ℂ),
    ∃ m, grid1D n h mem samples = some m ∧ ∀ k, m k = mem k + if k < n then
      (samples.map fun s => (share n h s.1 k : ℂ) * s.2).sum else 0 := by
  intro samples
  induction samples with
  | nil => exact fun mem => ⟨mem, rfl, fun k => by simp⟩
  | cons s ss ih =>
    intro mem
    have h1 : gridSample1 n h mem s = some (fun p => mem p + (share n h s.1 p : ℂ) * s.2) := by
      rw [gridSample1, if_neg hn, store_fold n s.2 _ mem (cells1_lt hn s.1)]
      congr 1
      funext p
      rw [share_eq hn]
    obtain ⟨m, hm, hk⟩ := ih (fun p => mem p + (share n h s.1 p : ℂ) * s.2)
    refine ⟨m, ?_, fun k => ?_⟩
    · rw [grid1D, List.foldlM_cons, h1]
      exact hm
    · rw [hk k]
      by_cases hkn : k < n
      · simp [hkn, add_assoc]
      · have h0 : share n h s.1 k = 0 := by
          rw [share]
          refine Finset.sum_eq_zero fun j hj => ?_
          have h2 := (Finset.mem_filter.1 hj).2
          have h3 := Int.emod_lt_of_pos j (show (0 : ℤ) < n by omega)
          omega
        simp [hkn, h0]

theorem meant_of {footprint : Option ℤ} {f : Nat} (h : Meant footprint f) : footprintOf footprint = some f := by
  rcases h with ⟨rfl, rfl⟩ | ⟨rfl, h⟩
  · rfl
  · rw [footprintOf, if_pos (by constructor <;> omega)]
    congr 1
    omega

theorem call_eq (n : Nat) (mem : Nat → ℂ) (ind : List ℝ) (dat : List ℂ) (footprint : Option ℤ) (f : Nat)
    (hf : Meant footprint f) (hl : ind.length = dat.length) : grid1DCall n mem ind dat footprint =
      match grid1D n (f / 2) mem (ind.zip dat) with
      | some m => .ok m
      | none => .undefined := by
  rw [grid1DCall, meant_of hf]
  simp only [hl, ne_eq, not_true_eq_false, if_false]

/-- **C146**: every cell gets, of every sample, the weights of the integers of the footprint that fall on it; nothing else is touched -/
theorem c146_cells (n : Nat) (hn : n ≠ 0) (mem : Nat → ℂ) (ind : List ℝ) (dat : List ℂ) (footprint : Option ℤ) (f : Nat)
    (hf : Meant footprint f) (hl : ind.length = dat.length) :
    ∃ m, grid1DCall n mem ind dat footprint = .ok m ∧
      (∀ k < n, m k = mem k + ((ind.zip dat).map fun s => (share n (f / 2) s.1 k : ℂ) * s.2).sum) ∧ ∀ k, n ≤ k → m k = mem k := by
  obtain ⟨m, hm, hk⟩ := grid1D_eq hn (f / 2) (ind.zip dat) mem
  refine ⟨m, ?_, fun k h => ?_, fun k h => ?_⟩
  · rw [call_eq n mem ind dat footprint f hf hl, hm]
  · rw [hk, if_pos h]
  · rw [hk, if_neg (by omega), add_zero]

theorem share_total {n : Nat} (hn : n ≠ 0) (h : Nat) (x : ℝ) : ∑ k ∈ range n, share n h x k = ∑ j ∈ around x h, wgt1 (x - j) := by
  have h1 : ∀ k ∈ range n, share n h x k = ∑ j ∈ around x h, if (j % n).toNat = k then wgt1 (x - j) else 0 := by
    intro k _
    rw [share, Finset.sum_filter]
    refine Finset.sum_congr rfl fun j _ => ?_
    have h2 := Int.emod_nonneg j (show (n : ℤ) ≠ 0 by omega)
    by_cases h : j % (n : ℤ) = (k : ℤ)
    · rw [if_pos h, if_pos (by omega), wgt1]
      congr 1
      · norm_num
      · congr 1
        ring
    · rw [if_neg h, if_neg (by omega)]
  rw [Finset.sum_congr rfl h1, Finset.sum_comm]
  refine Finset.sum_congr rfl fun j _ => ?_
  have h2 := Int.emod_nonneg j (show (n : ℤ) ≠ 0 by omega)
  have h3 := Int.emod_lt_of_pos j (show (0 : ℤ) < n by omega)
  rw [Finset.sum_ite_eq, if_pos (by rw [mem_range]; omega)]

theorem sums_close {α : Type} (e : ℝ) (w : α → ℝ) (hw : ∀ a, |w a - 1| ≤ e) : ∀ (ss : List (α × ℂ)),
    ‖(ss.map fun s => (w s.1 : ℂ) * s.2).sum - (ss.map Prod.snd).sum‖ ≤ e * (ss.map fun s => ‖s.2‖).sum
  | [] => by simp
  | s :: ss => by
    have h1 := sums_close e w hw ss
    have h2 : ‖((w s.1 : ℂ) - 1) * s.2‖ ≤ e * ‖s.2‖ := by
      rw [norm_mul, ← Complex.ofReal_one, ← Complex.ofReal_sub, Complex.norm_real, Real.norm_eq_abs]
      exact mul_le_mul_of_nonneg_right (hw s.1) (norm_nonneg _)
    simp only [List.map_cons, List.sum_cons]
    have h3 : (w s.1 : ℂ) * s.2 + (ss.map fun s => (w s.1 : ℂ) * s.2).sum - (s.2 + (ss.map Prod.snd).sum) =
        ((w s.1 : ℂ) - 1) * s.2 + ((ss.map fun s => (w s.1 : ℂ) * s.2).sum - (ss.map Prod.snd).sum) := by ring
    rw [h3, mul_add]
    exact (norm_add_le _ _).trans (add_le_add h2 h1)

theorem list_sum_swap {α : Type} (n : Nat) (g : α → Nat → ℂ) : ∀ ss : List α,
    ∑ k ∈ range n, (ss.map fun s => g s k).sum = (ss.map fun s => ∑ k ∈ range n, g s k).sum
  | [] => by simp
  | s :: ss => by
    simp only [List.map_cons, List.sum_cons]
    rw [Finset.sum_add_distrib, list_sum_swap n g ss]

/-- **C146**: with the default footprint, or a larger one, the buffer as a whole grows by the sum of the data to within a sixtieth of their
magnitudes, wherever they are -/
theorem c146_total (n : Nat) (hn : n ≠ 0) (mem : Nat → ℂ) (ind : List ℝ) (dat : List ℂ) (footprint : Option ℤ) (f : Nat)
    (hf : Meant footprint f) (h6 : 6 ≤ f) (hl : ind.length = dat.length) :
    ∃ m, grid1DCall n mem ind dat footprint = .ok m ∧
      ‖(∑ k ∈ range n, m k - ∑ k ∈ range n, mem k) - dat.sum‖ ≤ 1 / 60 * (dat.map (‖·‖)).sum := by
  obtain ⟨m, hm, hk, _⟩ := c146_cells n hn mem ind dat footprint f hf hl
  refine ⟨m, hm, ?_⟩
  rw [Finset.sum_congr rfl (fun k hk' => hk k (mem_range.1 hk')), Finset.sum_add_distrib, add_sub_cancel_left,
    list_sum_swap n (fun (s : ℝ × ℂ) k => (share n (f / 2) s.1 k : ℂ) * s.2)]
  have h1 : ((ind.zip dat).map fun s => ∑ k ∈ range n, (share n (f / 2) s.1 k : ℂ) * s.2) =
      (ind.zip dat).map fun s => ((∑ j ∈ around s.1 (f / 2), wgt1 (s.1 - j) : ℝ) : ℂ) * s.2 := by
    refine List.map_congr_left fun s _ => ?_
    rw [← share_total hn, ← Finset.sum_mul]
    push_cast
    rfl
  have h2 : (ind.zip dat).map Prod.snd = dat := List.map_snd_zip (by omega)
  have h3 : ((ind.zip dat).map fun s => ‖s.2‖) = dat.map (‖·‖) := by
    conv_rhs => rw [← h2, List.map_map]
    rfl
  have h4 := sums_close (1 / 60) (fun x => ∑ j ∈ around x (f / 2), wgt1 (x - j)) (fun x => total1 x (f / 2) (by omega)) (ind.zip dat)
  rw [h2, h3] at h4
  rw [h1]
  exact h4

/-- **C146**: the order of the samples does not matter -/
theorem c146_order (n : Nat) (hn : n ≠ 0) (mem : Nat → ℂ) (ind ind' : List ℝ) (dat dat' : List ℂ) (footprint : Option ℤ) (f : Nat)
    (hf : Meant footprint f) (hl : ind.length = dat.length) (hl' : ind'.length = dat'.length)
    (hp : (ind.zip dat).Perm (ind'.zip dat')) : grid1DCall n mem ind dat footprint = grid1DCall n mem ind' dat' footprint := by
  obtain ⟨m, hm, hk, ho⟩ := c146_cells n hn mem ind dat footprint f hf hl
  obtain ⟨m', hm', hk', ho'⟩ := c146_cells n hn mem ind' dat' footprint f hf hl'
  rw [hm, hm']
  congr 1
  funext k
  by_cases h : k < n
  · rw [hk k h, hk' k h, (hp.map _).sum_eq]
  · rw [ho k (by omega), ho' k (by omega)]

theorem share_shift {n : Nat} (hn : n ≠ 0) (h : Nat) (x : ℝ) (a : ℤ) (k : Nat) (hk : k < n) :
    share n h (x + a) ((k + a) % n).toNat = share n h x k := by
  rw [share, share]
  have hn' : (0 : ℤ) < n := by omega
  have e : Icc ⌊x + a - h⌋ ⌈x + a + h⌉ = (Icc ⌊x - h⌋ ⌈x + h⌉).map (Equiv.addRight a).toEmbedding := by
    have e1 : ⌊x + a - h⌋ = ⌊x - h⌋ + a := by rw [← Int.floor_add_intCast]; congr 1; ring
    have e2 : ⌈x + a + h⌉ = ⌈x + h⌉ + a := by rw [← Int.ceil_add_intCast]; congr 1; ring
    rw [e1, e2]
    ext j
    simp only [mem_Icc, Finset.mem_map, Equiv.coe_toEmbedding, Equiv.coe_addRight]
    exact ⟨fun h => ⟨j - a, by omega, by omega⟩, fun ⟨i, h1, h2⟩ => by omega⟩
  rw [e, Finset.sum_filter, Finset.sum_map, Finset.sum_filter]
  refine Finset.sum_congr rfl fun j _ => ?_
  simp only [Equiv.coe_toEmbedding, Equiv.coe_addRight, Int.cast_add]
  have hc : (j + a) % (n : ℤ) = ((((k : ℤ) + a) % n).toNat : ℤ) ↔ j % (n : ℤ) = (k : ℤ) := by
    rw [Int.toNat_of_nonneg (Int.emod_nonneg _ hn'.ne'), Int.emod_eq_emod_iff_emod_sub_eq_zero]
    have h1 : j + a - (k + a) = j - k := by ring
    rw [h1, ← Int.emod_eq_emod_iff_emod_sub_eq_zero, Int.emod_eq_of_lt (by omega) (by omega : (k : ℤ) < n)]
  by_cases h : j % (n : ℤ) = (k : ℤ)
  · rw [if_pos h, if_pos (hc.2 h)]
    congr 3
    ring
  · rw [if_neg h, if_neg (fun e => h (hc.1 e))]

/-- **C146**: positions moved by whole cells give the same buffer, turned by as many cells; turning all the way round changes nothing -/
theorem c146_ring (n : Nat) (hn : n ≠ 0) (ind : List ℝ) (dat : List ℂ) (footprint : Option ℤ) (f : Nat)
    (hf : Meant footprint f) (hl : ind.length = dat.length) (a : ℤ) :
    ∃ m m', grid1DCall n (fun _ => 0) ind dat footprint = .ok m ∧ grid1DCall n (fun _ => 0) (ind.map (· + a)) dat footprint = .ok m' ∧
      ∀ k < n, m' ((k + a) % n).toNat = m k := by
  obtain ⟨m, hm, hk, _⟩ := c146_cells n hn (fun _ => 0) ind dat footprint f hf hl
  obtain ⟨m', hm', hk', _⟩ := c146_cells n hn (fun _ => 0) (ind.map (· + a)) dat footprint f hf (by rw [List.length_map, hl])
  refine ⟨m, m', hm, hm', fun k h => ?_⟩
  have hn' : (0 : ℤ) < n := by omega
  have h1 := Int.emod_lt_of_pos (k + a) hn'
  have h2 := Int.emod_nonneg (k + a) hn'.ne'
  rw [hk k h, hk' _ (by omega), List.zip_map_left, List.map_map]
  congr 2
  refine List.map_congr_left fun s _ => ?_
  simp only [Function.comp, Prod.map_fst, Prod.map_snd, id]
  rw [share_shift hn (f / 2) s.1 a k h]

/-- **C146**: the weights of a sample do not add up to one: a sample on a grid point counts one per cent and more too much -/
theorem c146_exact_violated (n : Nat) (hn : n ≠ 0) (x : ℤ) (f : Nat) (h : 2 ≤ f) (footprint : Option ℤ) (hf : Meant footprint f) :
    ∃ m, grid1DCall n (fun _ => 0) [(x : ℝ)] [1] footprint = .ok m ∧ ∃ r : ℝ, ∑ k ∈ range n, m k = (r : ℂ) ∧ 101 / 100 ≤ r := by
  obtain ⟨m, hm, hk, _⟩ := c146_cells n hn (fun _ => 0) [(x : ℝ)] [1] footprint f hf rfl
  refine ⟨m, hm, ∑ j ∈ around x (f / 2), wgt1 (x - j), ?_, ?_⟩
  · rw [Finset.sum_congr rfl (fun k hk' => hk k (mem_range.1 hk')), ← share_total hn]
    simp
  · have hsub : ({x, x + 1, x - 1} : Finset ℤ) ⊆ around x (f / 2) := by
      intro j hj
      simp only [Finset.mem_insert, Finset.mem_singleton] at hj
      have h1 : ⌊(x : ℝ) - (f / 2 : ℕ)⌋ = x - (f / 2 : ℕ) := by
        rw [show (x : ℝ) - (f / 2 : ℕ) = ((x - (f / 2 : ℕ) : ℤ) : ℝ) by rw [Int.cast_sub, Int.cast_natCast], Int.floor_intCast]
      have h2 : ⌈(x : ℝ) + (f / 2 : ℕ)⌉ = x + (f / 2 : ℕ) := by
        rw [show (x : ℝ) + (f / 2 : ℕ) = ((x + (f / 2 : ℕ) : ℤ) : ℝ) by rw [Int.cast_add, Int.cast_natCast], Int.ceil_intCast]
      rw [around, mem_Icc, h1, h2]
      omega
    have h1 := Finset.sum_le_sum_of_subset_of_nonneg hsub (f := fun j : ℤ => wgt1 ((x : ℝ) - j)) fun j _ _ => by
      rw [wgt1]; positivity
    refine le_trans ?_ h1
    rw [Finset.sum_insert (by simp; omega), Finset.sum_insert (by simp; omega), Finset.sum_singleton]
    have e1 : wgt1 ((x : ℝ) - x) = 79788456080286541 / 100000000000000000 := by simp [wgt1]
    have e2 : wgt1 ((x : ℝ) - ((x + 1 : ℤ) : ℝ)) = 79788456080286541 / 100000000000000000 * Real.exp (-2) := by
      rw [wgt1]; congr 2; push_cast; ring
    have e3 : wgt1 ((x : ℝ) - ((x - 1 : ℤ) : ℝ)) = 79788456080286541 / 100000000000000000 * Real.exp (-2) := by
      rw [wgt1]; congr 2; push_cast; ring
    have e4 : (134 / 1000 : ℝ) ≤ Real.exp (-2) := by
      have h3 : Real.exp 1 < 2.7182818286 := Real.exp_one_lt_d9
      have h4 : Real.exp 2 = Real.exp 1 * Real.exp 1 := by rw [← Real.exp_add]; norm_num
      have h5 : Real.exp 2 ≤ 7.39 := by rw [h4]; nlinarith [Real.exp_pos 1]
      rw [Real.exp_neg]
      calc (134 / 1000 : ℝ) ≤ (7.39 : ℝ)⁻¹ := by norm_num
        _ ≤ _ := inv_anti₀ (Real.exp_pos _) h5
    rw [e1, e2, e3]
    nlinarith

/-- **C146**: a negative footprint is taken for one of more than two thousand million cells -/
theorem c146_negative_violated (k : ℤ) (h0 : -2 ^ 31 ≤ k) (h1 : k < 0) :
    ∃ f, footprintOf (some k) = some f ∧ ∀ n x, 2 ^ 31 ≤ (cells1 n (f / 2) x).length := by
  refine ⟨(k % 2 ^ 32).toNat, by rw [footprintOf, if_pos (by constructor <;> omega)], fun n x => ?_⟩
  rw [cells1, List.length_map, window, List.length_map, List.length_range]
  set h := (k % 2 ^ 32).toNat / 2 with hh
  have e1 : ⌊x - h⌋ = ⌊x⌋ - h := by exact_mod_cast Int.floor_sub_natCast x h
  have e2 : ⌈x + h⌉ = ⌈x⌉ + h := by exact_mod_cast Int.ceil_add_natCast x h
  have e3 := Int.floor_le_ceil x
  rw [e1, e2]
  omega

/-- **C146**: samples for a buffer without cells divide by zero instead of raising; lists of different lengths and footprints that are no
`int` are refused -/
theorem c146_refused (mem : Nat → ℂ) (x : ℝ) (d : ℂ) (ind : List ℝ) (dat : List ℂ) (footprint : Option ℤ) (f : Nat)
    (hf : Meant footprint f) (n : Nat) :
    (ind.length = dat.length → grid1DCall 0 mem (x :: ind) (d :: dat) footprint = .undefined) ∧
    (ind.length ≠ dat.length → grid1DCall n mem ind dat footprint = .valueError) ∧
    ∀ k : ℤ, k < -2 ^ 31 ∨ 2 ^ 31 ≤ k → grid1DCall n mem ind dat (some k) = .overflowError := by
  refine ⟨fun h => ?_, fun h => ?_, fun k h => ?_⟩
  · rw [call_eq 0 mem _ _ footprint f hf (by simp [h])]
    rfl
  · rw [grid1DCall, meant_of hf]
    simp [h]
  · rw [grid1DCall, footprintOf, if_neg (by omega)]

/-! ## Two dimensions -/

theorem deposit_total {n : Nat} (hn : n ≠ 0) (h : Nat) (s : (ℝ × ℝ) × ℂ) :
    ∑ k1 ∈ range n, ∑ k2 ∈ range n, deposit1 n n h s k1 k2 = (totalWgt h s.1 : ℂ) * s.2 := by
  have hn' : (0 : ℤ) < n := by omega
  have e : ∀ k1 k2, deposit1 n n h s k1 k2 = ∑ j1 ∈ around s.1.1 h, ∑ j2 ∈ around s.1.2 h,
      if (j1 % n).toNat = k1 then (if (j2 % n).toNat = k2 then (wgt (s.1.1 - j1) (s.1.2 - j2) : ℂ) * s.2 else 0) else 0 := by
    intro k1 k2
    rw [deposit1]
    refine Finset.sum_congr rfl fun j1 _ => Finset.sum_congr rfl fun j2 _ => ?_
    have h1 := Int.emod_nonneg j1 hn'.ne'
    have h2 := Int.emod_nonneg j2 hn'.ne'
    by_cases a : j1 % (n : ℤ) = (k1 : ℤ)
    · by_cases b : j2 % (n : ℤ) = (k2 : ℤ)
      · rw [if_pos ⟨a, b⟩, if_pos (by omega), if_pos (by omega)]
      · rw [if_neg (fun h => b h.2), if_pos (by omega), if_neg (by omega)]
    · rw [if_neg (fun h => a h.1), if_neg (by omega)]
  simp only [e]
  rw [totalWgt]
  push_cast
  rw [Finset.sum_mul]
  have h3 : ∀ k1 ∈ range n, (∑ k2 ∈ range n, ∑ j1 ∈ around s.1.1 h, ∑ j2 ∈ around s.1.2 h,
      if (j1 % n).toNat = k1 then (if (j2 % n).toNat = k2 then (wgt (s.1.1 - j1) (s.1.2 - j2) : ℂ) * s.2 else 0) else 0) =
      ∑ j1 ∈ around s.1.1 h, if (j1 % n).toNat = k1 then ∑ j2 ∈ around s.1.2 h, (wgt (s.1.1 - j1) (s.1.2 - j2) : ℂ) * s.2 else 0 := by
    intro k1 _
    rw [Finset.sum_comm]
    refine Finset.sum_congr rfl fun j1 _ => ?_
    by_cases a : (j1 % (n : ℤ)).toNat = k1
    · simp only [a, if_true]
      rw [Finset.sum_comm]
      refine Finset.sum_congr rfl fun j2 _ => ?_
      have h1 := Int.emod_nonneg j2 hn'.ne'
      have h2 := Int.emod_lt_of_pos j2 hn'
      rw [Finset.sum_ite_eq, if_pos (by rw [mem_range]; omega)]
    · simp [a]
  rw [Finset.sum_congr rfl h3, Finset.sum_comm]
  refine Finset.sum_congr rfl fun j1 _ => ?_
  have h1 := Int.emod_nonneg j1 hn'.ne'
  have h2 := Int.emod_lt_of_pos j1 hn'
  rw [Finset.sum_ite_eq, if_pos (by rw [mem_range]; omega), Finset.sum_mul]

theorem sum_square (n : Nat) (g : Nat → ℂ) : ∑ p ∈ range (n * n), g p = ∑ k1 ∈ range n, ∑ k2 ∈ range n, g (k1 * n + k2) := by
  rw [← Finset.sum_product', ← Finset.sum_nbij' (fun p : Nat × Nat => p.1 * n + p.2) (fun p => (p / n, p % n))]
  · intro p hp
    rw [Finset.mem_product, mem_range, mem_range] at hp
    rw [mem_range]
    calc p.1 * n + p.2 < p.1 * n + n := by omega
      _ = (p.1 + 1) * n := by ring
      _ ≤ n * n := Nat.mul_le_mul_right n hp.1
  · intro p hp
    rw [mem_range] at hp
    have hn : 0 < n := Nat.pos_of_ne_zero (by rintro rfl; simp at hp)
    rw [Finset.mem_product, mem_range, mem_range]
    exact ⟨Nat.div_lt_of_lt_mul hp, Nat.mod_lt _ hn⟩
  · intro p hp
    rw [Finset.mem_product, mem_range, mem_range] at hp
    have hn : 0 < n := by omega
    ext
    · simp only
      rw [mul_comm, Nat.mul_add_div hn, Nat.div_eq_of_lt hp.2, add_zero]
    · simp only
      rw [mul_comm, Nat.mul_add_mod, Nat.mod_eq_of_lt hp.2]
  · intro p _
    exact Nat.div_add_mod' p n
  · intro p _
    rfl

/-- **C146**: a square matrix as a whole grows by the sum of the data to within a thirtieth of their magnitudes -/
theorem c146_total_2d (n h : Nat) (hn : n ≠ 0) (hh : 3 ≤ h) (mem : Nat → ℂ) (samples : List ((ℝ × ℝ) × ℂ)) :
    ∃ m, grid2D n n h mem samples = some m ∧
      ‖(∑ p ∈ range (n * n), m p - ∑ p ∈ range (n * n), mem p) - (samples.map Prod.snd).sum‖ ≤
        1 / 30 * (samples.map fun s => ‖s.2‖).sum := by
  obtain ⟨m, hm, hk, _⟩ := c28_square_partial n h hn samples mem
  refine ⟨m, hm, ?_⟩
  have h1 : ∑ p ∈ range (n * n), m p - ∑ p ∈ range (n * n), mem p = (samples.map fun s => (totalWgt h s.1 : ℂ) * s.2).sum := by
    rw [sum_square, sum_square, ← Finset.sum_sub_distrib]
    have h2 : ∀ k1 ∈ range n, (∑ k2 ∈ range n, m (k1 * n + k2) - ∑ k2 ∈ range n, mem (k1 * n + k2)) =
        (samples.map fun s => ∑ k2 ∈ range n, deposit1 n n h s k1 k2).sum := by
      intro k1 h1
      rw [← Finset.sum_sub_distrib, ← list_sum_swap n (fun s k2 => deposit1 n n h s k1 k2)]
      refine Finset.sum_congr rfl fun k2 h2 => ?_
      rw [hk k1 k2 (mem_range.1 h1) (mem_range.1 h2), add_sub_cancel_left]
      rfl
    rw [Finset.sum_congr rfl h2, list_sum_swap n (fun s k1 => ∑ k2 ∈ range n, deposit1 n n h s k1 k2)]
    congr 1
    exact List.map_congr_left fun s _ => deposit_total hn h s
  rw [h1]
  exact sums_close (1 / 30) (fun x => totalWgt h x) (fun x => total2 x h hh) samples

/-- **C146**: so does the uv matrix of an image in `put` -/
theorem c146_put (g g' : Image) (uv : List (ℝ × ℝ)) (data : List ℂ) (wgts : List (List ℂ)) (hn : g.dim ≠ 0)
    (h : g.put uv data wgts = some g') :
    ‖(∑ p ∈ range (g.dim * g.dim), g'.uv p - ∑ p ∈ range (g.dim * g.dim), g.uv p) - data.sum‖ ≤ 1 / 30 * (data.map (‖·‖)).sum := by
  rw [Image.put] at h
  split at h
  · exact absurd h (by simp)
  · rename_i hc
    push Not at hc
    obtain ⟨m, hm, hb⟩ := c146_total_2d g.dim 3 hn le_rfl g.uv ((uv.map (getIndices g.res)).zip data)
    simp only [hm, Option.bind_eq_bind, Option.bind_some] at h
    cases hp : putBeams g.dim (uv.map (getIndices g.res)) g.bm wgts with
    | none => rw [hp] at h; simp at h
    | some b =>
      rw [hp] at h
      simp only [Option.bind_some, Option.some.injEq] at h
      subst h
      have h2 : ((uv.map (getIndices g.res)).zip data).map Prod.snd = data := List.map_snd_zip (by simp [hc.2.1])
      have h3 : (((uv.map (getIndices g.res)).zip data).map fun s => ‖s.2‖) = data.map (‖·‖) := by
        conv_rhs => rw [← h2, List.map_map]
        rfl
      rw [h2, h3] at hb
      exact hb

/-- three samples on a ring of eight cells, one at a negative position, default footprint -/
example : ∃ m, grid1DCall 8 (fun _ => 0) [2.5, -1, 7.9] [1, Complex.I, 2] none = .ok m ∧
    ‖(∑ k ∈ range 8, m k - ∑ k ∈ range 8, (0 : ℂ)) - [1, Complex.I, 2].sum‖ ≤ 1 / 60 * ([1, Complex.I, 2].map (‖·‖)).sum :=
  c146_total 8 (by norm_num) (fun _ => 0) _ _ none 6 (Or.inl ⟨rfl, rfl⟩) le_rfl rfl

example : footprintOf (some (-1)) = some 4294967295 := by decide

end Verif.Img
