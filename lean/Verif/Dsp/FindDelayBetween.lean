import Verif.Dsp.FindDelay
/-!
# Property C129: delays between the bins

What `find_delay.py` makes of a delay that is no whole number of bins.  Nothing new is modelled here: the theorems are about the definitions
of `Verif.Dsp.FindDelay`.
-/
set_option linter.unusedVariables false
noncomputable section
namespace Verif.Dsp.FindDelay
open Finset

/-! ## Specification -/

/-- the signal of any delay, `s` turns over the band: `exp(-2 pi i tau nu)` at the frequencies `nu0 + k sdf` with `tau = s/(nchan sdf)` -/
def DelayedBy {n : Nat} (s : ℝ) (d : Row n) : Prop :=
  ∃ A : ℂ, ∀ k, d k = A * Complex.exp (-(2 * Real.pi * Complex.I * ((s : ℂ) * (k : Nat)) / (n + 1)))

/-! ## Lemmas -/

theorem abs_sin_add_int (x : ℝ) (q : ℤ) : |Real.sin (x + q * Real.pi)| = |Real.sin x| := by
  rw [Real.sin_add_int_mul_pi, abs_mul, abs_zpow, abs_neg, abs_one, one_zpow, one_mul]

theorem sin_inside {a x : ℝ} (h0 : 0 ≤ a) (h1 : a < x) (h2 : x < Real.pi - a) : Real.sin a < Real.sin x := by
  have hp := Real.pi_pos
  rcases le_total x (Real.pi / 2) with h | h
  · exact Real.sin_lt_sin_of_lt_of_le_pi_div_two (by linarith) h h1
  · rw [← Real.sin_pi_sub x]
    exact Real.sin_lt_sin_of_lt_of_le_pi_div_two (by linarith) (by linarith) (by linarith)

/-- the transform of a signal between the bins -/
theorem ifft_between {n : Nat} (s : ℝ) (A : ℂ) (d : Row n)
    (h : ∀ k, d k = A * Complex.exp (-(2 * Real.pi * Complex.I * ((s : ℂ) * (k : Nat)) / (n + 1)))) (m : Fin (n + 1)) :
    ‖ifft d m‖ * |Real.sin (Real.pi * ((m : Nat) - s) / (n + 1))| = ‖A‖ * |Real.sin (Real.pi * ((m : Nat) - s))| / (n + 1) := by
  set w : ℂ := Complex.exp (Complex.I * ((2 * Real.pi * ((m : Nat) - s) / (n + 1) : ℝ) : ℂ)) with hw
  have hn : ((n : ℝ) + 1) ≠ 0 := by positivity
  have e : ifft d m = A * (∑ k ∈ range (n + 1), w ^ k) / (n + 1) := by
    unfold ifft
    congr 1
    rw [← Fin.sum_univ_eq_sum_range, Finset.mul_sum]
    refine Finset.sum_congr rfl fun x _ => ?_
    rw [h, mul_assoc, ← Complex.exp_add, hw, ← Complex.exp_nat_mul]
    congr 2
    push_cast
    ring
  have g := geom_sum_mul w (n + 1)
  have n1 : ‖w - 1‖ = 2 * |Real.sin (Real.pi * ((m : Nat) - s) / (n + 1))| := by
    rw [hw, Complex.norm_exp_I_mul_ofReal_sub_one, Real.norm_eq_abs, abs_mul, abs_of_pos (by norm_num : (0 : ℝ) < 2)]
    congr 3
    ring
  have n2 : ‖w ^ (n + 1) - 1‖ = 2 * |Real.sin (Real.pi * ((m : Nat) - s))| := by
    have : w ^ (n + 1) = Complex.exp (Complex.I * ((2 * Real.pi * ((m : Nat) - s) : ℝ) : ℂ)) := by
      rw [hw, ← Complex.exp_nat_mul]
      congr 1
      push_cast
      have := succ_ne n
      field_simp
    rw [this, Complex.norm_exp_I_mul_ofReal_sub_one, Real.norm_eq_abs, abs_mul, abs_of_pos (by norm_num : (0 : ℝ) < 2)]
    congr 3
    ring
  have g2 := congrArg norm g
  rw [norm_mul, n1, n2] at g2
  have e2 : ‖(n : ℂ) + 1‖ = n + 1 := by
    have : (n : ℂ) + 1 = ((n + 1 : ℝ) : ℂ) := by push_cast; ring
    rw [this, Complex.norm_real, Real.norm_eq_abs, abs_of_pos (by positivity)]
  rw [e, norm_div, norm_mul, e2]
  field_simp
  linear_combination ‖A‖ / 2 * g2

/-- the transform is the largest in the bin nearest to the delay and nowhere else -/
theorem nearest_largest {n : Nat} (t : ℤ) (x : ℝ) (hx : |x| < 1 / 2) (hx0 : x ≠ 0) (A : ℂ) (hA : A ≠ 0) (d : Row n)
    (h : ∀ k, d k = A * Complex.exp (-(2 * Real.pi * Complex.I * (((t + x : ℝ) : ℂ) * (k : Nat)) / (n + 1)))) (u m : Fin (n + 1))
    (hu : ∃ q : ℤ, t = (u : Nat) + q * (n + 1)) (hm : m ≠ u) : ‖ifft d m‖ < ‖ifft d u‖ := by
  have hp := Real.pi_pos
  have hN : (0 : ℝ) < (n : ℝ) + 1 := by positivity
  have xl := (abs_lt.1 hx).1
  have xr := (abs_lt.1 hx).2
  have ax := abs_nonneg x
  -- the numerators are the same
  have num : ∀ k : Fin (n + 1), |Real.sin (Real.pi * ((k : Nat) - (t + x)))| = |Real.sin (Real.pi * x)| := by
    intro k
    have : Real.pi * ((k : Nat) - (t + x)) = -(Real.pi * x) + ((((k : Nat) : ℤ) - t : ℤ) : ℝ) * Real.pi := by push_cast; ring
    rw [this, abs_sin_add_int, Real.sin_neg, abs_neg]
  have numpos : 0 < |Real.sin (Real.pi * x)| := by
    rw [abs_pos]
    intro h0
    obtain ⟨q, hq⟩ := Real.sin_eq_zero_iff.1 h0
    have hq' : (q : ℝ) = x := by
      apply mul_right_cancel₀ hp.ne'
      rw [hq]; ring
    have : |(q : ℝ)| < 1 := by rw [hq']; linarith
    have h1 : |q| < 1 := by exact_mod_cast this
    have h2 : q = 0 := by
      rw [abs_lt] at h1; omega
    rw [h2] at hq'
    exact hx0 (by rw [← hq']; simp)
  obtain ⟨q, hq⟩ := hu
  have hqr : (t : ℝ) = (u : Nat) + q * (n + 1) := by exact_mod_cast hq
  have hux : |Real.sin (Real.pi * ((u : Nat) - (t + x)) / (n + 1))| = Real.sin (Real.pi * |x| / (n + 1)) := by
    have : Real.pi * ((u : Nat) - (t + x)) / (n + 1) = -(Real.pi * x / (n + 1)) + ((-q : ℤ) : ℝ) * Real.pi := by
      rw [hqr]; push_cast; field_simp; ring
    rw [this, abs_sin_add_int, Real.sin_neg, abs_neg]
    have small : Real.pi * |x| / (n + 1) ≤ Real.pi := by
      rw [div_le_iff₀ hN]
      have : (0 : ℝ) ≤ n := Nat.cast_nonneg n
      nlinarith
    have nonneg : 0 ≤ Real.pi * |x| / (n + 1) := by positivity
    rcases abs_cases x with ⟨e, _⟩ | ⟨e, _⟩
    · rw [e] at small nonneg ⊢
      exact abs_of_nonneg (Real.sin_nonneg_of_nonneg_of_le_pi nonneg small)
    · rw [e] at small nonneg ⊢
      have : Real.pi * x / (n + 1) = -(Real.pi * -x / (n + 1)) := by ring
      rw [this, Real.sin_neg, abs_neg]
      exact abs_of_nonneg (Real.sin_nonneg_of_nonneg_of_le_pi nonneg small)
  -- the other bins are further away
  obtain ⟨j, r, hj0, hj1, hj⟩ : ∃ j r : ℤ, 1 ≤ j ∧ j ≤ n ∧ ((m : Nat) : ℤ) - t = j + r * (n + 1) := by
    refine ⟨(((m : Nat) : ℤ) - t) % ((n : ℤ) + 1), (((m : Nat) : ℤ) - t) / ((n : ℤ) + 1), ?_, ?_, ?_⟩
    · have h1 := Int.emod_nonneg (((m : Nat) : ℤ) - t) (by omega : (n : ℤ) + 1 ≠ 0)
      rcases Int.lt_or_eq_of_le h1 with h2 | h2
      · omega
      · exfalso
        have h3 : ((n : ℤ) + 1) ∣ ((m : Nat) : ℤ) - t := Int.dvd_of_emod_eq_zero h2.symm
        rw [hq] at h3
        have h4 : ((n : ℤ) + 1) ∣ ((m : Nat) : ℤ) - (u : Nat) := by
          have := dvd_add h3 (Dvd.intro_left q rfl : ((n : ℤ) + 1) ∣ q * ((n : ℤ) + 1))
          have e : ((m : Nat) : ℤ) - ((u : Nat) + q * ((n : ℤ) + 1)) + q * ((n : ℤ) + 1) = ((m : Nat) : ℤ) - (u : Nat) := by ring
          rwa [e] at this
        have h5 : ((m : Nat) : ℤ) - (u : Nat) = 0 := by
          apply Int.eq_zero_of_abs_lt_dvd h4
          rw [abs_lt]
          have := m.isLt; have := u.isLt
          constructor <;> omega
        exact hm (Fin.ext (by omega))
    · have := Int.emod_lt_of_pos (((m : Nat) : ℤ) - t) (by omega : (0 : ℤ) < (n : ℤ) + 1)
      omega
    · have := Int.emod_add_mul_ediv (((m : Nat) : ℤ) - t) ((n : ℤ) + 1)
      linarith [mul_comm ((((m : Nat) : ℤ) - t) / ((n : ℤ) + 1)) ((n : ℤ) + 1)]
  have hjr : ((m : Nat) : ℝ) - t = j + r * (n + 1) := by exact_mod_cast hj
  have j0 : (1 : ℝ) ≤ j := by exact_mod_cast hj0
  have j1 : (j : ℝ) ≤ n := by exact_mod_cast hj1
  have far : Real.sin (Real.pi * |x| / (n + 1)) < |Real.sin (Real.pi * ((m : Nat) - (t + x)) / (n + 1))| := by
    have : Real.pi * ((m : Nat) - (t + x)) / (n + 1) = Real.pi * (j - x) / (n + 1) + (r : ℝ) * Real.pi := by
      have : ((m : Nat) : ℝ) - (t + x) = (j - x) + r * (n + 1) := by linarith
      rw [this]; field_simp
    rw [this, abs_sin_add_int]
    refine lt_of_lt_of_le (sin_inside (by positivity) ?_ ?_) (le_abs_self _)
    · rw [div_lt_div_iff_of_pos_right hN]
      exact mul_lt_mul_of_pos_left (by linarith) hp
    · rw [lt_sub_iff_add_lt, ← add_div, div_lt_iff₀ hN, ← mul_add]
      exact mul_lt_mul_of_pos_left (by linarith) hp
  have em := ifft_between (t + x) A d h m
  have eu := ifft_between (t + x) A d h u
  rw [num] at em eu
  rw [hux] at eu
  have right : 0 < ‖A‖ * |Real.sin (Real.pi * x)| / (n + 1) := by
    have := norm_pos_iff.2 hA
    positivity
  have s0 : 0 < Real.sin (Real.pi * |x| / (n + 1)) := by
    rcases lt_or_ge 0 (Real.sin (Real.pi * |x| / (n + 1))) with h1 | h1
    · exact h1
    · exfalso
      have := mul_nonpos_of_nonneg_of_nonpos (norm_nonneg (ifft d u)) h1
      linarith
  have m0 : 0 < ‖ifft d m‖ := by
    rcases (norm_nonneg (ifft d m)).lt_or_eq with h1 | h1
    · exact h1
    · exfalso
      rw [← h1, zero_mul] at em
      linarith
  have u0 : 0 ≤ ‖ifft d u‖ := norm_nonneg _
  by_contra hc
  rw [not_lt] at hc
  have h1 : ‖ifft d u‖ * Real.sin (Real.pi * |x| / (n + 1)) ≤ ‖ifft d m‖ * Real.sin (Real.pi * |x| / (n + 1)) :=
    mul_le_mul_of_nonneg_right hc s0.le
  have h2 := mul_lt_mul_of_pos_left far m0
  linarith

theorem measure_between {n : Nat} (sdf : ℝ) (f : Fin (n + 1) → Bool) (hf : ∀ k, f k = false) (t : ℤ) (ht : 0 ≤ t + ((n + 1) / 2 : Nat))
    (ht' : t + ((n + 1) / 2 : Nat) < n + 1) (x : ℝ) (hx : |x| < 1 / 2) (d : Row n) (hd : DelayedBy (t + x) d) (h0 : d ≠ 0) :
    measure sdf f d = some (-(1 / 2) / sdf + ((t : ℝ) + ((n + 1) / 2 : Nat)) * ((1 / 2 / sdf - -(1 / 2) / sdf) / n)) := by
  by_cases hx0 : x = 0
  · apply measure_delayed sdf f hf t ht ht' d _ h0
    obtain ⟨A, hA⟩ := hd
    refine ⟨A, fun k => ?_⟩
    rw [hA, hx0]
    congr 5
    push_cast
    ring
  obtain ⟨A, hA⟩ := hd
  have hA0 : A ≠ 0 := by
    intro h
    apply h0
    funext k
    rw [hA, h, zero_mul]
    rfl
  obtain ⟨u, hu⟩ : ∃ u : Fin (n + 1), ∃ q : ℤ, t = (u : Nat) + q * (n + 1) := by
    refine ⟨⟨(t % ((n : ℤ) + 1)).toNat, ?_⟩, t / ((n : ℤ) + 1), ?_⟩
    · have := Int.emod_lt_of_pos t (by omega : (0 : ℤ) < (n : ℤ) + 1)
      omega
    · have := Int.emod_nonneg t (by omega : (n : ℤ) + 1 ≠ 0)
      simp only
      rw [Int.toNat_of_nonneg this]
      have := Int.emod_add_mul_ediv t ((n : ℤ) + 1)
      linarith [mul_comm (t / ((n : ℤ) + 1)) ((n : ℤ) + 1)]
  have hc : cleanDelay f d = .ok fun k => ifft d (k - ⟨(n + 1) / 2 % (n + 1), Nat.mod_lt _ (Nat.succ_pos n)⟩) := by
    unfold cleanDelay
    rw [clean_ones _ (samples f) _ (fun k => by simp [samples, hf])]
  set c : Fin (n + 1) := ⟨(n + 1) / 2 % (n + 1), Nat.mod_lt _ (Nat.succ_pos n)⟩ with hcdef
  set m : Fin (n + 1) := u + c with hm
  have hmv : ((m : Nat) : ℤ) = t + ((n + 1) / 2 : Nat) := by
    obtain ⟨q, hq⟩ := hu
    have h1 : ((m : Nat) : ℤ) = ((u : Nat) + ((n + 1) / 2 : Nat) : ℤ) % ((n : ℤ) + 1) := by
      rw [hm, Fin.val_add]
      push_cast
      simp [hcdef]
    rw [h1]
    have h2 : ((u : Nat) + ((n + 1) / 2 : Nat) : ℤ) = (t + ((n + 1) / 2 : Nat)) + (-q) * ((n : ℤ) + 1) := by
      rw [hq]; ring
    rw [h2, Int.add_mul_emod_self_right]
    exact Int.emod_eq_of_lt ht ht'
  have hmu : m - c = u := by rw [hm, add_sub_cancel_right]
  have big : ∀ k, k ≠ m → ‖ifft d (k - c)‖ < ‖ifft d (m - c)‖ := by
    intro k hk
    rw [hmu]
    exact nearest_largest t x hx hx0 A hA0 d hA u (k - c) hu (fun h => hk (by rw [hm, ← h, sub_add_cancel]))
  unfold measure
  rw [if_neg (fun h => by have := h 0; rw [hf] at this; cases this), hc]
  simp only
  rw [if_neg (fun h => ?_)]
  · rw [lastMax_eq _ m big]
    simp only [Option.map_some, delays]
    have : ((m : Nat) : ℝ) = (t : ℝ) + ((n + 1) / 2 : Nat) := by
      have := congrArg (fun z : ℤ => (z : ℝ)) hmv
      push_cast at this ⊢
      exact this
    rw [this]
  · -- the transform of a signal that is not zero is not zero
    have e := ifft_between (t + x) A d hA u
    have hz := h m
    rw [hmu] at hz
    rw [hz, norm_zero, zero_mul] at e
    have hN : (0 : ℝ) < (n : ℝ) + 1 := by positivity
    have h1 : |Real.sin (Real.pi * ((u : Nat) - (t + x)))| = 0 := by
      have := norm_pos_iff.2 hA0
      rcases div_eq_zero_iff.1 e.symm with h2 | h2
      · rcases mul_eq_zero.1 h2 with h3 | h3
        · linarith
        · exact h3
      · linarith
    rw [abs_eq_zero] at h1
    obtain ⟨q, hq⟩ := Real.sin_eq_zero_iff.1 h1
    have hq' : (q : ℝ) = (u : Nat) - (t + x) := by
      apply mul_right_cancel₀ Real.pi_pos.ne'
      rw [hq]; ring
    have hxi : x = ((((u : Nat) : ℤ) - t - q : ℤ) : ℝ) := by push_cast; linarith
    rw [hxi] at hx
    have h2 : |((u : Nat) : ℤ) - t - q| < 1 := by
      have : |((((u : Nat) : ℤ) - t - q : ℤ) : ℝ)| < 1 := by linarith
      exact_mod_cast this
    have h3 : ((u : Nat) : ℤ) - t - q = 0 := by rw [abs_lt] at h2; omega
    rw [h3] at hxi
    exact hx0 (by simpa using hxi)

/-- **C129** (a delay between the bins): the bin that is found is the one nearest to the delay, so that the delay is measured to within one and
a half bins, if the last record has no flags. -/
theorem c129_between_partial {n : Nat} (hn0 : 0 < n) (e : Env) (hs : 0 < e.sdf) (rs : List (Rec n)) (r : Rec n) (pol : String) (a b : Nat) (t : ℤ)
    (ht : 0 ≤ t + ((n + 1) / 2 : Nat)) (ht' : t + ((n + 1) / 2 : Nat) < n + 1) (x : ℝ) (hx : |x| < 1 / 2)
    (hd : DelayedBy (t + x) (total e (rs ++ [r]) pol a b)) (h0 : total e (rs ++ [r]) pol a b ≠ 0) (hf : ∀ k, r.flags k = false) :
    ∃ D, delayOf e (rs ++ [r]) pol a b = some D ∧ |D - (t + x) / ((n + 1) * e.sdf)| ≤ 3 / 2 / ((n + 1) * e.sdf) := by
  have hn : (0 : ℝ) < n := by exact_mod_cast hn0
  have hne : chosen e (rs ++ [r]) pol a b ≠ [] := by
    intro h
    apply h0
    unfold total
    rw [h]
    rfl
  refine ⟨-(1 / 2) / e.sdf + ((t : ℝ) + ((n + 1) / 2 : Nat)) * ((1 / 2 / e.sdf - -(1 / 2) / e.sdf) / n), ?_, ?_⟩
  · unfold delayOf
    rw [gather_dd, if_neg hne, gather_f]
    rw [Option.bind_some]
    exact measure_between e.sdf r.flags hf t ht ht' x hx _ hd h0
  · have h1 : (-(n + 1) : ℝ) ≤ 2 * t := by
      have : -((n : ℤ) + 1) ≤ 2 * t := by omega
      exact_mod_cast this
    have h2 : (2 * t : ℝ) ≤ n := by
      have : 2 * t ≤ (n : ℤ) := by omega
      exact_mod_cast this
    have xl := (abs_lt.1 hx).1
    have xr := (abs_lt.1 hx).2
    have hpos : (0 : ℝ) < 1 / ((n + 1) * e.sdf) := by positivity
    set y : ℝ := -(1 / 2) / e.sdf + ((t : ℝ) + ((n + 1) / 2 : Nat)) * ((1 / 2 / e.sdf - -(1 / 2) / e.sdf) / n) - (t + x) / ((n + 1) * e.sdf) with hy
    have key : ∃ z : ℝ, y = (z - x) * (1 / ((n + 1) * e.sdf)) ∧ |z| ≤ 1 := by
      rcases Nat.mod_two_eq_zero_or_one (n + 1) with he | ho
      · have hh : (((n + 1) / 2 : Nat) : ℝ) = (n + 1) / 2 := by
          have : ((n + 1) / 2) * 2 = n + 1 := by omega
          have h2 : ((((n + 1) / 2) * 2 : Nat) : ℝ) = ((n + 1 : Nat) : ℝ) := by rw [this]
          push_cast at h2 ⊢
          linarith
        have h3 : (2 * t : ℝ) ≤ n - 1 := by
          have : 2 * t ≤ (n : ℤ) - 1 := by omega
          exact_mod_cast this
        refine ⟨(2 * t + (n + 1)) / (2 * n), ?_, ?_⟩
        · rw [hy, hh]
          field_simp
          ring
        · rw [abs_of_nonneg (by apply div_nonneg <;> linarith), div_le_one (by positivity)]
          linarith
      · have hh : (((n + 1) / 2 : Nat) : ℝ) = n / 2 := by
          have : ((n + 1) / 2) * 2 = n := by omega
          have h2 : ((((n + 1) / 2) * 2 : Nat) : ℝ) = (n : ℝ) := by rw [this]
          push_cast at h2 ⊢
          linarith
        refine ⟨t / n, ?_, ?_⟩
        · rw [hy, hh]
          field_simp
          ring
        · have h3 : (-n : ℝ) ≤ 2 * t := by
            have : -(n : ℤ) ≤ 2 * t := by omega
            exact_mod_cast this
          rw [abs_div, abs_of_pos hn, div_le_one hn, abs_le]
          constructor <;> linarith
    obtain ⟨z, hz, hz1⟩ := key
    have z1 := (abs_le.1 hz1).1
    have z2 := (abs_le.1 hz1).2
    have : (3 : ℝ) / 2 / ((n + 1) * e.sdf) = 3 / 2 * (1 / ((n + 1) * e.sdf)) := by ring
    rw [this, hz, abs_mul, abs_of_pos hpos]
    apply mul_le_mul_of_nonneg_right _ hpos.le
    rw [abs_le]
    constructor <;> linarith

/-- a signal of a turn and a third over a band of three channels -/
def off : Rec 2 := ⟨0, 1, "xx", fun k => 2 * Complex.exp (-(2 * Real.pi * Complex.I * (((((1 : ℤ) : ℝ) + 1 / 3 : ℝ) : ℂ) * (k : Nat)) / ((2 : Nat) + 1))), fun _ => false⟩

/-- it meets the hypotheses of `c129_between_partial` -/
example : DelayedBy (((1 : ℤ) : ℝ) + 1 / 3) (total env ([] ++ [off]) "xx" 0 1) ∧ total env ([] ++ [off]) "xx" 0 1 ≠ 0 ∧ |(1 / 3 : ℝ)| < 1 / 2 ∧
    (0 : ℤ) ≤ 1 + ((2 + 1) / 2 : Nat) ∧ (1 : ℤ) + ((2 + 1) / 2 : Nat) < 2 + 1 ∧ 0 < env.sdf := by
  have g : Good env off := by
    refine ⟨by decide, rfl, by decide, by decide, by simp [env], by simp [env]⟩
  have ht : total env ([] ++ [off]) "xx" 0 1 = off.data := by
    unfold total
    rw [chosen_pos env [] off "xx" 0 1 ⟨g, rfl, rfl, rfl⟩]
    simp [chosen]
  rw [ht]
  refine ⟨⟨2, fun k => rfl⟩, ?_, by norm_num [abs_of_pos], by decide, by decide, by norm_num [env]⟩
  intro h
  have := congrFun h 0
  simp [off] at this

end Verif.Dsp.FindDelay
