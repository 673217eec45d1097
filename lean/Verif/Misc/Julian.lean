import Mathlib.Algebra.Order.Round
import Mathlib.Data.Int.Log
import Mathlib.Data.Rat.Floor
import Mathlib.Algebra.Order.Field.Rat
import Mathlib.Tactic.Linarith
import Mathlib.Tactic.FieldSimp
import Mathlib.Tactic.Ring
import Mathlib.Tactic.NormNum

/-!
# Julian dates (C56)

`aipy/phs.py` 25-31.  The two functions subtract and add 2415020 in double precision.  A double is a dyadic
rational with a 53-bit mantissa (`IsDouble`; the exponent range is not bounded, dates do not come near its
ends) and each operation rounds the exact result (`Rounding`).  `ephem.date` and `float` only wrap the number.
-/

namespace Verif.Misc

/-- Rationals that a double can hold. -/
def IsDouble (x : ℚ) : Prop := ∃ (m : ℤ) (e : ℤ), |m| ≤ 2 ^ 53 ∧ x = m * (2 : ℚ) ^ e

/-- What the proofs use of IEEE arithmetic: results are doubles, exact results are not changed, and the
relative error is at most `2^-53`. -/
structure Rounding (rnd : ℚ → ℚ) : Prop where
  double : ∀ x, IsDouble (rnd x)
  exact : ∀ x, IsDouble x → rnd x = x
  close : ∀ x, |rnd x - x| ≤ |x| / 2 ^ 53

/-- The epoch of ephem dates.  `phs.py` 27, 31. -/
def epoch : ℚ := 2415020

/-- `juldate2ephem`.  `phs.py` 25-27. -/
def juldate2ephem (rnd : ℚ → ℚ) (num : ℚ) : ℚ := rnd (num - epoch)

/-- `ephem2juldate`.  `phs.py` 29-31. -/
def ephem2juldate (rnd : ℚ → ℚ) (num : ℚ) : ℚ := rnd (num + epoch)

/-! ## Helpers -/

/-- Numbers within a factor of two of each other have an exact difference. -/
theorem sterbenz (x y : ℚ) (hx : IsDouble x) (hy : IsDouble y) (h1 : y ≤ 2 * x) (h2 : x ≤ 2 * y) :
    IsDouble (x - y) := by
  have hx0 : 0 ≤ x := by linarith
  have hy0 : 0 ≤ y := by linarith
  obtain ⟨m1, e1, hm1, rfl⟩ := hx
  obtain ⟨m2, e2, hm2, rfl⟩ := hy
  have two : (2 : ℚ) ≠ 0 := by norm_num
  have key : ∀ (a b : ℤ) (e : ℤ), |a| ≤ 2 ^ 53 → |(a : ℚ) * 2 ^ e - b * 2 ^ e| ≤ (a : ℚ) * 2 ^ e →
      |a - b| ≤ 2 ^ 53 := by
    intro a b e ha h
    have hp : (0 : ℚ) < 2 ^ e := by apply zpow_pos; norm_num
    rw [← sub_mul, abs_mul, abs_of_pos hp] at h
    have h3 : |(a : ℚ) - b| ≤ a := le_of_mul_le_mul_right h hp
    have h4 : |a - b| ≤ a := by exact_mod_cast h3
    exact le_trans h4 (le_trans (le_abs_self a) ha)
  rcases le_total e1 e2 with he | he
  · obtain ⟨k, hk⟩ := Int.eq_ofNat_of_zero_le (sub_nonneg.mpr he)
    have he2 : e2 = e1 + k := by omega
    have hb : (m2 : ℚ) * 2 ^ e2 = ((m2 * 2 ^ k : ℤ) : ℚ) * 2 ^ e1 := by
      rw [he2, zpow_add₀ two]; push_cast; rw [zpow_natCast]; ring
    rw [hb] at h1 h2 hy0 ⊢
    refine ⟨m1 - m2 * 2 ^ k, e1, key _ _ e1 hm1 ?_, by push_cast; ring⟩
    rw [abs_le]; constructor <;> linarith
  · obtain ⟨k, hk⟩ := Int.eq_ofNat_of_zero_le (sub_nonneg.mpr he)
    have he2 : e1 = e2 + k := by omega
    have hb : (m1 : ℚ) * 2 ^ e1 = ((m1 * 2 ^ k : ℤ) : ℚ) * 2 ^ e2 := by
      rw [he2, zpow_add₀ two]; push_cast; rw [zpow_natCast]; ring
    rw [hb] at h1 h2 hx0 ⊢
    refine ⟨m1 * 2 ^ k - m2, e2, ?_, by push_cast; ring⟩
    rw [abs_sub_comm]
    refine key _ _ e2 hm2 ?_
    rw [abs_le]; constructor <;> linarith

theorem epoch_double : IsDouble epoch := ⟨2415020, 0, by norm_num, by norm_num [epoch]⟩

/-! ## Properties -/

/-- **C56** in exact arithmetic: the two conversions undo each other. -/
theorem c56_exact (x : ℚ) :
    ephem2juldate id (juldate2ephem id x) = x ∧ juldate2ephem id (ephem2juldate id x) = x := by
  unfold ephem2juldate juldate2ephem id; constructor <;> ring

/-- **C56** in double precision: a Julian date between 1207510 and 4830040 (the years -1406 to 8511) survives
the conversion to an ephem date and back without any error, and the ephem date is the exact difference. -/
theorem c56_julian_round_trip (rnd : ℚ → ℚ) (hr : Rounding rnd) (jd : ℚ) (hd : IsDouble jd)
    (hlo : 1207510 ≤ jd) (hhi : jd ≤ 4830040) :
    juldate2ephem rnd jd = jd - 2415020 ∧ ephem2juldate rnd (juldate2ephem rnd jd) = jd := by
  have h : juldate2ephem rnd jd = jd - 2415020 := by
    unfold juldate2ephem
    rw [hr.exact _ (sterbenz jd epoch hd epoch_double (by unfold epoch; linarith) (by unfold epoch; linarith))]
    rfl
  refine ⟨h, ?_⟩
  unfold ephem2juldate
  rw [h]
  unfold epoch
  rw [sub_add_cancel]
  exact hr.exact jd hd

/-- **C56**, the other direction, in part: an ephem date between 0 and 1779284 (the years 1899 to 6771) comes
back within `2^-31` days (40 microseconds).  What is missing is equality; see the next theorem. -/
theorem c56_ephem_round_trip_partial (rnd : ℚ → ℚ) (hr : Rounding rnd) (d : ℚ)
    (hlo : 0 ≤ d) (hhi : d ≤ 1779284) :
    |juldate2ephem rnd (ephem2juldate rnd d) - d| ≤ 1 / 2 ^ 31 := by
  have hc : |ephem2juldate rnd d - (d + 2415020)| ≤ 1 / 2 ^ 31 := by
    unfold ephem2juldate
    refine le_trans (hr.close _) ?_
    unfold epoch
    rw [abs_of_nonneg (by linarith)]
    rw [div_le_div_iff₀ (by norm_num) (by norm_num)]
    norm_num
    linarith
  have hb := abs_le.mp hc
  have hsmall : (1 : ℚ) / 2 ^ 31 ≤ 1 := by norm_num
  have h := (c56_julian_round_trip rnd hr (ephem2juldate rnd d) (hr.double _) (by linarith [hb.1])
    (by linarith [hb.2])).1
  rw [h]
  have : ephem2juldate rnd d - 2415020 - d = ephem2juldate rnd d - (d + 2415020) := by ring
  rw [this]
  exact hc

/-- **C56 is false in the other direction for small fractions of a day**: an ephem date of `2^-40` (0.1
microseconds after the epoch) comes back as zero or `2^-31`, whatever the rounding. -/
theorem c56_ephem_round_trip_violated (rnd : ℚ → ℚ) (hr : Rounding rnd) :
    juldate2ephem rnd (ephem2juldate rnd (1 / 2 ^ 40)) ≠ 1 / 2 ^ 40 := by
  intro h
  have hc : |ephem2juldate rnd (1 / 2 ^ 40) - (1 / 2 ^ 40 + 2415020)| ≤ 1 / 2 ^ 31 := by
    unfold ephem2juldate
    refine le_trans (hr.close _) ?_
    unfold epoch
    rw [abs_of_nonneg (by norm_num)]
    norm_num
  have hb := abs_le.mp hc
  have hsmall : (1 : ℚ) / 2 ^ 31 ≤ 1 := by norm_num
  have hsmall2 : (1 : ℚ) / 2 ^ 40 ≤ 1 := by norm_num
  have hpos2 : (0 : ℚ) ≤ 1 / 2 ^ 40 := by norm_num
  have h2 := (c56_julian_round_trip rnd hr (ephem2juldate rnd (1 / 2 ^ 40)) (hr.double _)
    (by linarith [hb.1]) (by linarith [hb.2])).1
  rw [h] at h2
  have h3 : ephem2juldate rnd (1 / 2 ^ 40) = 1 / 2 ^ 40 + 2415020 := by linarith
  obtain ⟨m, e, hm, he⟩ := hr.double ((1 / 2 ^ 40 : ℚ) + epoch)
  change ephem2juldate rnd (1 / 2 ^ 40) = _ at he
  rw [h3] at he
  -- m * 2^e = (1 + 2415020 * 2^40) / 2^40 with an odd numerator above 2^53
  rcases lt_or_ge e (-40) with hlt | hge
  · have hm' : |(m : ℚ)| ≤ 2 ^ 53 := by exact_mod_cast hm
    have hp : (0 : ℚ) < 2 ^ e := by apply zpow_pos; norm_num
    have hle : (2 : ℚ) ^ e ≤ 2 ^ (-40 : ℤ) := zpow_le_zpow_right₀ (by norm_num) (by omega)
    have : (m : ℚ) * 2 ^ e ≤ 2 ^ 53 * 2 ^ (-40 : ℤ) :=
      mul_le_mul (le_trans (le_abs_self _) hm') hle hp.le (by norm_num)
    rw [← he] at this
    norm_num at this
  · obtain ⟨k, hk⟩ := Int.eq_ofNat_of_zero_le (show 0 ≤ e + 40 by omega)
    have hek : e = -40 + k := by omega
    rw [hek, zpow_add₀ (by norm_num), zpow_natCast] at he
    have h4 : ((1 + 2415020 * 2 ^ 40 : ℤ) : ℚ) = ((m * 2 ^ k : ℤ) : ℚ) := by
      push_cast
      have h40 : (2 : ℚ) ^ (-40 : ℤ) = 1 / 2 ^ 40 := by norm_num
      rw [h40] at he
      have := congrArg (· * (2 : ℚ) ^ 40) he
      have h5 : (m : ℚ) * (1 / 2 ^ 40 * 2 ^ k) * 2 ^ 40 = m * 2 ^ k := by field_simp
      rw [h5] at this
      rw [← this]
      norm_num
    have h6 : (1 + 2415020 * 2 ^ 40 : ℤ) = m * 2 ^ k := by exact_mod_cast h4
    cases k with
    | zero =>
      have : m = 1 + 2415020 * 2 ^ 40 := by rw [h6]; ring
      rw [this] at hm
      norm_num at hm
    | succ k =>
      have : (1 + 2415020 * 2 ^ 40 : ℤ) % 2 = 0 := by
        rw [h6, pow_succ, ← mul_assoc]
        exact Int.mul_emod_left _ _
      norm_num at this

/-! ## A rounding function -/

/-- Rounding to 53 bits. -/
def round53 (x : ℚ) : ℚ :=
  if x = 0 then 0 else round (x / 2 ^ (Int.log 2 |x| - 52)) * (2 : ℚ) ^ (Int.log 2 |x| - 52)

/-- The hypotheses of the theorems above are met by rounding to 53 bits. -/
theorem round53_rounding : Rounding round53 := by
  have two : (2 : ℚ) ≠ 0 := by norm_num
  have hlog : ∀ x : ℚ, x ≠ 0 → (2 : ℚ) ^ Int.log 2 |x| ≤ |x| ∧ |x| < (2 : ℚ) ^ (Int.log 2 |x| + 1) := by
    intro x hx
    have h1 := Int.zpow_log_le_self (R := ℚ) (b := 2) (by norm_num) (abs_pos.mpr hx)
    have h2 := Int.lt_zpow_succ_log_self (R := ℚ) (b := 2) (by norm_num) |x|
    exact ⟨by exact_mod_cast h1, by exact_mod_cast h2⟩
  have hscale : ∀ x : ℚ, x ≠ 0 → (2 : ℚ) ^ 52 ≤ |x / 2 ^ (Int.log 2 |x| - 52)| ∧
      |x / 2 ^ (Int.log 2 |x| - 52)| < (2 : ℚ) ^ 53 := by
    intro x hx
    have hp : (0 : ℚ) < 2 ^ (Int.log 2 |x| - 52) := by apply zpow_pos; norm_num
    rw [abs_div, abs_of_pos hp, le_div_iff₀ hp, div_lt_iff₀ hp]
    obtain ⟨h1, h2⟩ := hlog x hx
    have e1 : (2 : ℚ) ^ 52 * 2 ^ (Int.log 2 |x| - 52) = 2 ^ Int.log 2 |x| := by
      rw [← zpow_natCast, ← zpow_add₀ two]; congr 1; push_cast; ring
    have e2 : (2 : ℚ) ^ 53 * 2 ^ (Int.log 2 |x| - 52) = 2 ^ (Int.log 2 |x| + 1) := by
      rw [← zpow_natCast, ← zpow_add₀ two]; congr 1; push_cast; ring
    rw [e1, e2]
    exact ⟨h1, h2⟩
  refine ⟨?_, ?_, ?_⟩
  · intro x
    unfold round53
    by_cases hx : x = 0
    · rw [if_pos hx]; exact ⟨0, 0, by norm_num, by norm_num⟩
    · rw [if_neg hx]
      refine ⟨_, _, ?_, rfl⟩
      obtain ⟨-, h2⟩ := hscale x hx
      have habs := abs_sub_round (x / 2 ^ (Int.log 2 |x| - 52))
      generalize x / 2 ^ (Int.log 2 |x| - 52) = y at *
      have h3 : |((round y : ℤ) : ℚ)| < 2 ^ 53 + 1 := by
        have : |((round y : ℤ) : ℚ)| ≤ |y| + |y - round y| := by
          have := abs_sub_abs_le_abs_sub ((round y : ℤ) : ℚ) y
          rw [abs_sub_comm] at this
          linarith
        linarith
      have h4 : |(round y : ℤ)| < 2 ^ 53 + 1 := by exact_mod_cast h3
      omega
  · intro x hd
    unfold round53
    by_cases hx : x = 0
    · rw [if_pos hx, hx]
    · rw [if_neg hx]
      have hp : (0 : ℚ) < 2 ^ (Int.log 2 |x| - 52) := by apply zpow_pos; norm_num
      have hint : ∃ z : ℤ, x / 2 ^ (Int.log 2 |x| - 52) = z := by
        obtain ⟨hs1, hs2⟩ := hscale x hx
        generalize Int.log 2 |x| - 52 = e at *
        obtain ⟨m, k, hm, rfl⟩ := hd
        have hq : (m : ℚ) * 2 ^ k / 2 ^ e = m * 2 ^ (k - e) := by
          rw [zpow_sub₀ two]; ring
        rw [hq] at hs1 hs2 ⊢
        rcases le_or_gt e k with h | h
        · obtain ⟨j, hj⟩ := Int.eq_ofNat_of_zero_le (sub_nonneg.mpr h)
          refine ⟨m * 2 ^ j, ?_⟩
          rw [hj, zpow_natCast]; push_cast; ring
        · have hk1 : (2 : ℚ) ^ (k - e) ≤ 2 ^ (-1 : ℤ) := zpow_le_zpow_right₀ (by norm_num) (by omega)
          have hkp : (0 : ℚ) < 2 ^ (k - e) := by apply zpow_pos; norm_num
          have hm' : |(m : ℚ)| ≤ 2 ^ 53 := by exact_mod_cast hm
          rw [abs_mul, abs_of_pos hkp] at hs1
          have h5 : |(m : ℚ)| * 2 ^ (k - e) ≤ 2 ^ 53 * 2 ^ (-1 : ℤ) :=
            mul_le_mul hm' hk1 hkp.le (by norm_num)
          have h6 : (2 : ℚ) ^ 53 * 2 ^ (-1 : ℤ) = 2 ^ 52 := by norm_num
          rw [h6] at h5
          have heq : |(m : ℚ)| * 2 ^ (k - e) = 2 ^ 52 := le_antisymm h5 hs1
          rcases abs_cases (m : ℚ) with ⟨ha, -⟩ | ⟨ha, -⟩
          · rw [ha] at heq
            exact ⟨2 ^ 52, by rw [heq]; norm_num⟩
          · rw [ha] at heq
            refine ⟨-2 ^ 52, ?_⟩
            have : (m : ℚ) * 2 ^ (k - e) = -2 ^ 52 := by linarith
            rw [this]; norm_num
      obtain ⟨z, hz⟩ := hint
      rw [hz, round_intCast, ← hz, div_mul_cancel₀ _ hp.ne']
  · intro x
    unfold round53
    by_cases hx : x = 0
    · rw [if_pos hx, hx]; norm_num
    · rw [if_neg hx]
      obtain ⟨h1, -⟩ := hlog x hx
      have hp : (0 : ℚ) < 2 ^ (Int.log 2 |x| - 52) := by apply zpow_pos; norm_num
      have habs := abs_sub_round (x / 2 ^ (Int.log 2 |x| - 52))
      have e1 : (2 : ℚ) ^ Int.log 2 |x| = 2 ^ 52 * 2 ^ (Int.log 2 |x| - 52) := by
        rw [← zpow_natCast, ← zpow_add₀ two]; congr 1; push_cast; ring
      rw [e1] at h1
      generalize (2 : ℚ) ^ (Int.log 2 |x| - 52) = t at *
      have h2 : (round (x / t) : ℚ) * t - x = -((x / t - round (x / t)) * t) := by
        rw [sub_mul, div_mul_cancel₀ _ hp.ne']; ring
      rw [h2, abs_neg, abs_mul, abs_of_pos hp, le_div_iff₀ (by norm_num)]
      have h3 : |x / t - round (x / t)| * t ≤ 1 / 2 * t := mul_le_mul_of_nonneg_right habs hp.le
      have h4 : |x / t - round (x / t)| * t * 2 ^ 53 ≤ 1 / 2 * t * 2 ^ 53 :=
        mul_le_mul_of_nonneg_right h3 (by norm_num)
      refine le_trans h4 ?_
      have : 1 / 2 * t * 2 ^ 53 = 2 ^ 52 * t := by ring
      rw [this]
      exact h1

/-- 2021 January 1, 06:00: exact both ways. -/
example : ephem2juldate round53 (juldate2ephem round53 2459215.75) = 2459215.75 :=
  (c56_julian_round_trip round53 round53_rounding _ ⟨9836863, -2, by norm_num, by norm_num⟩
    (by norm_num) (by norm_num)).2

end Verif.Misc
