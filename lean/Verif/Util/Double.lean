import Mathlib.Algebra.Order.Archimedean.Basic
import Mathlib.Algebra.Order.Field.Power
import Mathlib.Algebra.Order.Floor.Ring
import Mathlib.Algebra.Order.Round
import Mathlib.Data.Int.Log
import Mathlib.Data.Rat.Floor
import Mathlib.Tactic.FieldSimp
import Mathlib.Tactic.Linarith
import Mathlib.Tactic.NormNum
import Mathlib.Tactic.Positivity
import Mathlib.Tactic.Ring
/-!
# Rounding to doubles

IEEE 754 binary64, rounding to nearest and ties to even, for positive numbers that neither overflow nor underflow.
-/
namespace Verif.Util

variable {K : Type} [Field K] [LinearOrder K] [IsStrictOrderedRing K] [FloorRing K]

/-- the nearest integer, the even one of two -/
def roundEven (x : K) : Int :=
  if x - ⌊x⌋ < 1 / 2 then ⌊x⌋ else if 1 / 2 < x - ⌊x⌋ then ⌊x⌋ + 1 else if ⌊x⌋ % 2 = 0 then ⌊x⌋ else ⌊x⌋ + 1

/-- the double nearest to a positive number: 53 binary places -/
def rnd (q : K) : K := roundEven (q / 2 ^ (Int.log 2 q - 52)) * 2 ^ (Int.log 2 q - 52)

theorem roundEven_int (n : Int) : roundEven (n : K) = n := by
  unfold roundEven
  rw [Int.floor_intCast, sub_self, if_pos (by norm_num)]

theorem roundEven_near {x : K} {n : Int} (h1 : (n : K) - 1 / 2 < x) (h2 : x < n + 1 / 2) : roundEven x = n := by
  unfold roundEven
  by_cases h : (n : K) ≤ x
  · have hf : ⌊x⌋ = n := Int.floor_eq_iff.2 ⟨h, by linarith⟩
    rw [hf, if_pos (by linarith)]
  · have h := lt_of_not_ge h
    have hf : ⌊x⌋ = n - 1 := Int.floor_eq_iff.2 ⟨by push_cast; linarith, by push_cast; linarith⟩
    rw [hf, if_neg (by push_cast; linarith), if_pos (by push_cast; linarith)]
    omega

theorem log_eq {q : K} {e : Int} (h1 : (2 : K) ^ e ≤ q) (h2 : q < 2 ^ (e + 1)) : Int.log 2 q = e := by
  have hq : 0 < q := lt_of_lt_of_le (by positivity) h1
  have a : e ≤ Int.log 2 q := (Int.zpow_le_iff_le_log (b := 2) (by norm_num) hq).1 (by exact_mod_cast h1)
  have b : Int.log 2 q < e + 1 := (Int.lt_zpow_iff_log_lt (b := 2) (by norm_num) hq).1 (by exact_mod_cast h2)
  omega

/-- a number rounded, shown by its exponent and its digits -/
theorem rnd_eq {q : K} (e n : Int) (h1 : (2 : K) ^ e ≤ q) (h2 : q < 2 ^ (e + 1)) (h3 : ((n : K) - 1 / 2) * 2 ^ (e - 52) < q)
    (h4 : q < ((n : K) + 1 / 2) * 2 ^ (e - 52)) : rnd q = n * 2 ^ (e - 52) := by
  unfold rnd
  have hp : (0 : K) < 2 ^ (e - 52) := by positivity
  rw [log_eq h1 h2, roundEven_near (n := n) ((lt_div_iff₀ hp).2 h3) ((div_lt_iff₀ hp).2 h4)]

theorem roundEven_tie {x : K} {n : Int} (hn : n % 2 = 0) (h1 : (n : K) - 1 / 2 ≤ x) (h2 : x ≤ n + 1 / 2) : roundEven x = n := by
  rcases lt_or_eq_of_le h1 with h1 | h1
  · rcases lt_or_eq_of_le h2 with h2 | h2
    · exact roundEven_near h1 h2
    · have hf : ⌊x⌋ = n := Int.floor_eq_iff.2 ⟨by linarith, by linarith⟩
      unfold roundEven
      rw [hf, if_neg (by linarith), if_neg (by linarith), if_pos hn]
  · have hf : ⌊x⌋ = n - 1 := Int.floor_eq_iff.2 ⟨by push_cast; linarith, by push_cast; linarith⟩
    unfold roundEven
    rw [hf, if_neg (by push_cast; linarith), if_neg (by push_cast; linarith), if_neg (by omega)]
    omega

/-- also a number halfway between two doubles, whose digits are even -/
theorem rnd_eq_even {q : K} (e n : Int) (hn : n % 2 = 0) (h1 : (2 : K) ^ e ≤ q) (h2 : q < 2 ^ (e + 1)) (h3 : ((n : K) - 1 / 2) * 2 ^ (e - 52) ≤ q)
    (h4 : q ≤ ((n : K) + 1 / 2) * 2 ^ (e - 52)) : rnd q = n * 2 ^ (e - 52) := by
  unfold rnd
  have hp : (0 : K) < 2 ^ (e - 52) := by positivity
  rw [log_eq h1 h2, roundEven_tie (n := n) hn ((le_div_iff₀ hp).2 h3) ((div_le_iff₀ hp).2 h4)]

/-- numbers of 53 binary places stay as they are -/
theorem rnd_exact {m : Nat} {e : Int} (h0 : 0 < m) (h1 : m < 2 ^ 53) : rnd ((m : K) * 2 ^ e) = (m : K) * 2 ^ e := by
  have hq : (0 : K) < (m : K) * 2 ^ e := by positivity
  have hlog : Int.log 2 ((m : K) * 2 ^ e) < 53 + e := by
    apply (Int.lt_zpow_iff_log_lt (b := 2) (by norm_num) hq).1
    rw [zpow_add₀ (by norm_num)]
    apply mul_lt_mul_of_pos_right _ (by positivity)
    exact_mod_cast h1
  unfold rnd
  generalize Int.log 2 ((m : K) * 2 ^ e) = l at hlog
  obtain ⟨k, hk⟩ : ∃ k : Nat, e = (l - 52) + k := ⟨(e - (l - 52)).toNat, by omega⟩
  have hne : (2 : K) ^ (l - 52) ≠ 0 := by positivity
  have hx : (m : K) * 2 ^ e / 2 ^ (l - 52) = ((m * 2 ^ k : Nat) : Int) := by
    rw [hk, zpow_add₀ (by norm_num)]
    push_cast
    rw [zpow_natCast]
    field_simp
  have hx2 := hx
  rw [hx, roundEven_int, ← hx2]
  field_simp

theorem log_scale {q : K} (hq : 0 < q) (k : Int) : Int.log 2 (q * 2 ^ k) = Int.log 2 q + k := by
  apply log_eq
  · rw [zpow_add₀ (by norm_num)]
    apply mul_le_mul_of_nonneg_right _ (by positivity)
    have := Int.zpow_log_le_self (b := 2) (by norm_num) hq
    exact_mod_cast this
  · rw [show Int.log 2 q + k + 1 = (Int.log 2 q + 1) + k by ring, zpow_add₀ (by norm_num)]
    apply mul_lt_mul_of_pos_right _ (by positivity)
    have := Int.lt_zpow_succ_log_self (b := 2) (by norm_num) q
    exact_mod_cast this

/-- multiplying by a power of two is exact -/
theorem rnd_scale {q : K} (hq : 0 < q) (k : Int) : rnd (q * 2 ^ k) = rnd q * 2 ^ k := by
  unfold rnd
  rw [log_scale hq, show Int.log 2 q + k - 52 = (Int.log 2 q - 52) + k by ring, zpow_add₀ (by norm_num : (2 : K) ≠ 0)]
  have h1 : (2 : K) ^ (Int.log 2 q - 52) ≠ 0 := by positivity
  have h2 : (2 : K) ^ k ≠ 0 := by positivity
  rw [mul_div_mul_right _ _ h2, mul_assoc]

theorem roundEven_err (x : K) : |(roundEven x : K) - x| ≤ 1 / 2 := by
  have h1 := Int.floor_le x
  have h2 := Int.lt_floor_add_one x
  unfold roundEven
  rw [abs_le]
  split
  · constructor <;> linarith
  · split
    · push_cast; constructor <;> linarith
    · split
      · constructor <;> linarith
      · push_cast; constructor <;> linarith

/-- the relative error -/
theorem rnd_err {q : K} (hq : 0 < q) : |rnd q - q| ≤ q * 2 ^ (-53 : Int) := by
  unfold rnd
  have hp : (0 : K) < 2 ^ (Int.log 2 q - 52) := by positivity
  have h := roundEven_err (q / 2 ^ (Int.log 2 q - 52))
  have e : (roundEven (q / 2 ^ (Int.log 2 q - 52)) : K) * 2 ^ (Int.log 2 q - 52) - q =
      ((roundEven (q / 2 ^ (Int.log 2 q - 52)) : K) - q / 2 ^ (Int.log 2 q - 52)) * 2 ^ (Int.log 2 q - 52) := by
    rw [sub_mul, div_mul_cancel₀ _ (ne_of_gt hp)]
  rw [e, abs_mul, abs_of_pos hp]
  have hl : (2 : K) ^ Int.log 2 q ≤ q := by
    have := Int.zpow_log_le_self (b := 2) (by norm_num) hq
    exact_mod_cast this
  calc _ ≤ 1 / 2 * (2 : K) ^ (Int.log 2 q - 52) := mul_le_mul_of_nonneg_right h (le_of_lt hp)
    _ = 2 ^ Int.log 2 q * 2 ^ (-53 : Int) := by
      rw [← zpow_add₀ (by norm_num), show Int.log 2 q - 52 = (Int.log 2 q + -53) + 1 by ring, zpow_add_one₀ (by norm_num)]
      ring
    _ ≤ _ := mul_le_mul_of_nonneg_right hl (by positivity)

theorem rnd_bounds {q : K} (hq : 0 < q) : q * (1 - 2 ^ (-53 : Int)) ≤ rnd q ∧ rnd q ≤ q * (1 + 2 ^ (-53 : Int)) := by
  have := abs_le.1 (rnd_err hq)
  constructor <;> linarith [this.1, this.2]

end Verif.Util
