import Mathlib.Analysis.SpecialFunctions.Complex.Circle
import Mathlib.RingTheory.RootsOfUnity.Complex
import Mathlib.Algebra.BigOperators.Field
import Mathlib.Tactic.LinearCombination
/-!
# The discrete Fourier transform of `numpy.fft`

`fft` and `ifft` on arrays of `n + 1` complex numbers, as exact sums.
-/
noncomputable section
namespace Verif.Dsp
open Finset

/-- an array of `n + 1` complex numbers -/
abbrev Row (n : Nat) := Fin (n + 1) → ℂ

/-- `exp(2 pi i a b / (n+1))` -/
def turnN (n : Nat) (a b : Nat) : ℂ := Complex.exp (2 * Real.pi * Complex.I * ((a : ℂ) * b) / (n + 1))

/-- `np.fft.fft(d)` -/
def fft {n : Nat} (d : Row n) : Row n := fun k => ∑ x, d x * Complex.exp (-(2 * Real.pi * Complex.I * ((x.val : ℂ) * k.val) / (n + 1)))

/-- `np.fft.ifft(d)` -/
def ifft {n : Nat} (d : Row n) : Row n := fun k => (∑ x, d x * Complex.exp (2 * Real.pi * Complex.I * ((x.val : ℂ) * k.val) / (n + 1))) / (n + 1)

theorem succ_ne (n : Nat) : (n : ℂ) + 1 ≠ 0 := by exact_mod_cast Nat.succ_ne_zero n

/-- the roots of unity add up to zero -/
theorem orth {n : Nat} (a b : Fin (n + 1)) :
    ∑ k : Fin (n + 1), Complex.exp (2 * Real.pi * Complex.I * ((a.val : ℂ) * k.val) / (n + 1)) *
      Complex.exp (-(2 * Real.pi * Complex.I * ((b.val : ℂ) * k.val) / (n + 1))) = if a = b then (n : ℂ) + 1 else 0 := by
  have hn := succ_ne n
  set ζ : ℂ := Complex.exp (2 * Real.pi * Complex.I * (((a.val : ℂ) - b.val) / (n + 1))) with hζ
  have hterm : ∀ k : Fin (n + 1), Complex.exp (2 * Real.pi * Complex.I * ((a.val : ℂ) * k.val) / (n + 1)) *
      Complex.exp (-(2 * Real.pi * Complex.I * ((b.val : ℂ) * k.val) / (n + 1))) = ζ ^ k.val := by
    intro k
    rw [← Complex.exp_add, hζ, ← Complex.exp_nat_mul]
    congr 1
    field_simp
    ring
  rw [Finset.sum_congr rfl fun k _ => hterm k, Fin.sum_univ_eq_sum_range (fun k => ζ ^ k)]
  by_cases hab : a = b
  · subst hab
    rw [if_pos rfl]
    have : ζ = 1 := by rw [hζ, sub_self, zero_div, mul_zero, Complex.exp_zero]
    rw [this]
    simp
  · rw [if_neg hab]
    have h1 : ζ ≠ 1 := by
      intro h
      rw [hζ, Complex.exp_eq_one_iff] at h
      obtain ⟨m, hm⟩ := h
      have hp : (2 * Real.pi * Complex.I : ℂ) ≠ 0 := Complex.two_pi_I_ne_zero
      have h2 : ((a.val : ℂ) - b.val) / (n + 1) = m := by
        apply mul_left_cancel₀ hp
        rw [hm]; ring
      rw [div_eq_iff hn] at h2
      have h3 : (a.val : ℤ) - b.val = m * (n + 1) := by exact_mod_cast h2
      have ha := a.isLt
      have hb := b.isLt
      have hm0 : m = 0 := by
        by_contra hne
        rcases lt_or_gt_of_ne hne with h | h
        · have : m * ((n : ℤ) + 1) ≤ -1 * ((n : ℤ) + 1) := by
            apply mul_le_mul_of_nonneg_right <;> omega
          omega
        · have : 1 * ((n : ℤ) + 1) ≤ m * ((n : ℤ) + 1) := by
            apply mul_le_mul_of_nonneg_right <;> omega
          omega
      rw [hm0, zero_mul] at h3
      exact hab (Fin.ext (by omega))
    have h2 : ζ ^ (n + 1) = 1 := by
      rw [hζ, ← Complex.exp_nat_mul, Complex.exp_eq_one_iff]
      refine ⟨(a.val : ℤ) - b.val, ?_⟩
      push_cast
      field_simp
    rw [geom_sum_eq h1, h2, sub_self, zero_div]

theorem fft_ifft {n : Nat} (d : Row n) : fft (ifft d) = d := by
  have hn := succ_ne n
  funext x
  unfold fft ifft
  have e : ∀ k : Fin (n + 1), (∑ y, d y * Complex.exp (2 * Real.pi * Complex.I * ((y.val : ℂ) * k.val) / (n + 1))) / (n + 1) *
      Complex.exp (-(2 * Real.pi * Complex.I * ((k.val : ℂ) * x.val) / (n + 1))) =
      ∑ y, d y / (n + 1) * (Complex.exp (2 * Real.pi * Complex.I * ((y.val : ℂ) * k.val) / (n + 1)) *
        Complex.exp (-(2 * Real.pi * Complex.I * ((x.val : ℂ) * k.val) / (n + 1)))) := by
    intro k
    rw [Finset.sum_div, Finset.sum_mul]
    apply Finset.sum_congr rfl
    intro y _
    rw [mul_comm (k.val : ℂ) x.val]
    ring
  rw [Finset.sum_congr rfl fun k _ => e k, Finset.sum_comm]
  have e2 : ∀ y : Fin (n + 1), ∑ k : Fin (n + 1), d y / (n + 1) * (Complex.exp (2 * Real.pi * Complex.I * ((y.val : ℂ) * k.val) / (n + 1)) *
        Complex.exp (-(2 * Real.pi * Complex.I * ((x.val : ℂ) * k.val) / (n + 1)))) = if y = x then d x else 0 := by
    intro y
    rw [← Finset.mul_sum, orth]
    split
    · rename_i h; subst h; field_simp
    · simp
  rw [Finset.sum_congr rfl fun y _ => e2 y]
  simp

theorem ifft_fft {n : Nat} (d : Row n) : ifft (fft d) = d := by
  have hn := succ_ne n
  funext x
  unfold fft ifft
  have e : ∀ k : Fin (n + 1), (∑ y, d y * Complex.exp (-(2 * Real.pi * Complex.I * ((y.val : ℂ) * k.val) / (n + 1)))) *
      Complex.exp (2 * Real.pi * Complex.I * ((k.val : ℂ) * x.val) / (n + 1)) =
      ∑ y, d y * (Complex.exp (2 * Real.pi * Complex.I * ((x.val : ℂ) * k.val) / (n + 1)) *
        Complex.exp (-(2 * Real.pi * Complex.I * ((y.val : ℂ) * k.val) / (n + 1)))) := by
    intro k
    rw [Finset.sum_mul]
    apply Finset.sum_congr rfl
    intro y _
    rw [mul_comm (k.val : ℂ) x.val]
    ring
  rw [Finset.sum_congr rfl fun k _ => e k, Finset.sum_comm]
  have e2 : ∀ y : Fin (n + 1), ∑ k : Fin (n + 1), d y * (Complex.exp (2 * Real.pi * Complex.I * ((x.val : ℂ) * k.val) / (n + 1)) *
        Complex.exp (-(2 * Real.pi * Complex.I * ((y.val : ℂ) * k.val) / (n + 1)))) = if x = y then d x * (n + 1) else 0 := by
    intro y
    rw [← Finset.mul_sum, orth]
    split
    · rename_i h; subst h; rfl
    · simp
  rw [Finset.sum_congr rfl fun y _ => e2 y]
  simp [hn]

theorem fft_zero {n : Nat} : fft (0 : Row n) = 0 := by funext k; simp [fft]
theorem ifft_zero {n : Nat} : ifft (0 : Row n) = 0 := by funext k; simp [ifft]

theorem fft_add {n : Nat} (a b : Row n) : fft (a + b) = fft a + fft b := by
  funext k; simp [fft, add_mul, Finset.sum_add_distrib]

theorem fft_sub {n : Nat} (a b : Row n) : fft (a - b) = fft a - fft b := by
  funext k; simp [fft, sub_mul, Finset.sum_sub_distrib]

theorem ifft_sub {n : Nat} (a b : Row n) : ifft (a - b) = ifft a - ifft b := by
  funext k; simp [ifft, sub_mul, Finset.sum_sub_distrib, sub_div]

/-- the transform of ones is 1 at the origin -/
theorem ifft_ones {n : Nat} (k : Fin (n + 1)) : ifft (fun _ : Fin (n + 1) => (1 : ℂ)) k = if k = 0 then 1 else 0 := by
  have hn := succ_ne n
  have := orth k 0
  unfold ifft
  have e : ∀ x : Fin (n + 1), (1 : ℂ) * Complex.exp (2 * Real.pi * Complex.I * ((x.val : ℂ) * k.val) / (n + 1)) =
      Complex.exp (2 * Real.pi * Complex.I * ((k.val : ℂ) * x.val) / (n + 1)) *
      Complex.exp (-(2 * Real.pi * Complex.I * (((0 : Fin (n + 1)).val : ℂ) * x.val) / (n + 1))) := by
    intro x
    simp [mul_comm]
  rw [Finset.sum_congr rfl fun x _ => e x, this]
  split
  · exact div_self hn
  · simp

end Verif.Dsp
