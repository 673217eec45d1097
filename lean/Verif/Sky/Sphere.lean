import Mathlib.Analysis.Real.Pi.Bounds
import Mathlib.Analysis.SpecialFunctions.Trigonometric.Basic
import Mathlib.NumberTheory.Real.GoldenRatio
import Verif.Util.Double
/-!
# Points on the sphere (C121)

`pack_sphere`, `/repo/aipy/map.py` 20-28.  The two calls of `np.arange` find their sizes by arithmetic with doubles, which is modelled; the
coordinates themselves are exact.
-/
namespace Verif.Sky.Sphere
open Verif.Util

/-! ## Model -/

/-- `np.pi`, `np.sqrt(5)`, `dL`, map.py 26, as doubles -/
noncomputable def dLong : ℝ := rnd (rnd Real.pi * rnd (3 - rnd (Real.sqrt 5)))

/-- the size of `np.arange(0, dL * N, dL)`, map.py 27 -/
noncomputable def sizeLong (N : Nat) : Nat := (⌈rnd (rnd (dLong * N) / dLong)⌉).toNat

/-- the size of `np.arange(-1+dz/2, 1, dz)`, map.py 23, 24; `-1+dz/2` is not positive and is rounded as its opposite is -/
noncomputable def sizeZ (N : Nat) : Nat :=
  let dz : ℝ := rnd (2 / N)
  (⌈rnd (rnd (1 + rnd (1 - dz / 2)) / dz)⌉).toNat

/-- one point; `z = -1 + dz/2 + i dz`, the longitude `i dL`, map.py 24-28 -/
noncomputable def point (N i : Nat) : ℝ × ℝ × ℝ :=
  let dz : ℝ := 2 / N
  let z := -1 + dz / 2 + i * dz
  let r := Real.sqrt (1 - z ^ 2)
  let long := i * (Real.pi * (3 - Real.sqrt 5))
  (r * Real.cos long, r * Real.sin long, z)

/-- `pack_sphere(N)`, map.py 20-28, the points in order; `none` is an exception: a division by zero, or arrays of different sizes -/
noncomputable def packSphere (N : Nat) : Option (List (ℝ × ℝ × ℝ)) :=
  if N = 0 then none
  else if sizeZ N = sizeLong N then some ((List.range (sizeZ N)).map (point N)) else none

/-! ## Lemmas -/

theorem u_val : (2 : ℝ) ^ (-53 : Int) = 1 / 9007199254740992 := by norm_num

theorem ceil_toNat {x : ℝ} {n : Nat} (h1 : (n : ℝ) - 1 < x) (h2 : x ≤ n) : (⌈x⌉).toNat = n := by
  have : ⌈x⌉ = (n : Int) := Int.ceil_eq_iff.2 ⟨by exact_mod_cast h1, by exact_mod_cast h2⟩
  rw [this]; rfl

theorem sizeZ_ok {N : Nat} (h0 : 0 < N) (h1 : N ≤ 2 ^ 48) : sizeZ N = N := by
  unfold sizeZ
  simp only
  rcases Nat.lt_or_ge 1 N with h | h
  · have hN : (2 : ℝ) ≤ N := by exact_mod_cast h
    have hN2 : (N : ℝ) ≤ 281474976710656 := by
      have : N ≤ 281474976710656 := by simpa using h1
      exact_mod_cast this
    obtain ⟨x, hx⟩ : ∃ x : ℝ, x = 2 / N := ⟨_, rfl⟩
    have hNx : (N : ℝ) * x = 2 := by rw [hx]; field_simp
    have hx0 : 0 < x := by rw [hx]; positivity
    have hx1 : x ≤ 1 := by nlinarith
    have hx2 : 2 / 281474976710656 ≤ x := by
      rw [hx]
      exact div_le_div_of_nonneg_left (by norm_num) (by linarith) hN2
    rw [← hx]
    obtain ⟨a1, a2⟩ := rnd_bounds hx0
    rw [u_val] at a1 a2
    generalize rnd x = dz at *
    have hdz0 : 0 < dz := by nlinarith
    have b0 : 0 < 1 - dz / 2 := by nlinarith
    obtain ⟨b1, b2⟩ := rnd_bounds b0
    rw [u_val] at b1 b2
    generalize rnd (1 - dz / 2) = s at *
    have hs0 : 0 < s := by nlinarith
    obtain ⟨c1, c2⟩ := rnd_bounds (show 0 < 1 + s by linarith)
    rw [u_val] at c1 c2
    generalize rnd (1 + s) = d at *
    have hs1 : s ≤ 1 - x / 2 + 2 / 9007199254740992 := by nlinarith
    have hs2 : 1 - x / 2 - 2 / 9007199254740992 ≤ s := by nlinarith
    have hd1 : d ≤ 2 - x / 2 + 5 / 9007199254740992 := by nlinarith
    have hd2 : 2 - x / 2 - 5 / 9007199254740992 ≤ d := by nlinarith
    have hd0 : 0 < d := by nlinarith
    obtain ⟨e1, e2⟩ := rnd_bounds (show 0 < d / dz by positivity)
    rw [u_val] at e1 e2
    apply ceil_toNat
    · refine lt_of_lt_of_le ?_ e1
      rw [div_mul_eq_mul_div, lt_div_iff₀ hdz0]
      -- (N-1) dz < d (1-u)
      have h3 : ((N : ℝ) - 1) * dz ≤ ((N : ℝ) - 1) * (x * (1 + 1 / 9007199254740992)) := mul_le_mul_of_nonneg_left a2 (by linarith)
      have h4 : ((N : ℝ) - 1) * (x * (1 + 1 / 9007199254740992)) = (2 - x) * (1 + 1 / 9007199254740992) := by
        linear_combination (1 + 1 / 9007199254740992 : ℝ) * hNx
      rw [h4] at h3
      nlinarith
    · refine le_trans e2 ?_
      rw [div_mul_eq_mul_div, div_le_iff₀ hdz0]
      have h3 : (N : ℝ) * (x * (1 - 1 / 9007199254740992)) ≤ N * dz := mul_le_mul_of_nonneg_left a1 (by linarith)
      have h4 : (N : ℝ) * (x * (1 - 1 / 9007199254740992)) = 2 * (1 - 1 / 9007199254740992) := by
        linear_combination (1 - 1 / 9007199254740992 : ℝ) * hNx
      rw [h4] at h3
      nlinarith
  · obtain rfl : N = 1 := by omega
    have e1 : rnd (2 / ((1 : Nat) : ℝ)) = 2 := by
      have := rnd_exact (K := ℝ) (m := 1) (e := 1) (by norm_num) (by norm_num)
      norm_num at this ⊢
      exact this
    rw [e1]
    have e2 : rnd (1 - (2 : ℝ) / 2) = 0 := by
      norm_num
      unfold rnd roundEven
      simp
    rw [e2]
    have e3 : rnd (1 + 0 : ℝ) = 1 := by
      have := rnd_exact (K := ℝ) (m := 1) (e := 0) (by norm_num) (by norm_num)
      norm_num at this ⊢
      exact this
    rw [e3]
    have e4 : rnd (1 / 2 : ℝ) = 1 / 2 := by
      have := rnd_exact (K := ℝ) (m := 1) (e := -1) (by norm_num) (by norm_num)
      norm_num at this ⊢
      exact this
    rw [e4]
    exact ceil_toNat (by norm_num) (by norm_num)

theorem pi_double : rnd Real.pi = (7074237752028440 : Int) * 2 ^ ((1 : Int) - 52) := by
  have h1 := Real.pi_gt_d20
  have h2 := Real.pi_lt_d20
  apply rnd_eq 1 7074237752028440
  · norm_num; linarith
  · norm_num; linarith
  · refine lt_of_le_of_lt ?_ h1
    norm_num
  · refine lt_of_lt_of_le h2 ?_
    norm_num

theorem sqrt_double : rnd (Real.sqrt 5) = (5035177455121576 : Int) * 2 ^ ((1 : Int) - 52) := by
  apply rnd_eq 1 5035177455121576
  · apply Real.le_sqrt_of_sq_le; norm_num
  · rw [Real.sqrt_lt' (by norm_num)]; norm_num
  · apply Real.lt_sqrt_of_sq_lt; norm_num
  · rw [Real.sqrt_lt' (by norm_num)]; norm_num

theorem dLong_eq : dLong = (5404236753554427 : Int) * 2 ^ ((1 : Int) - 52) := by
  unfold dLong
  rw [pi_double, sqrt_double]
  have : rnd (3 - ((5035177455121576 : Int) : ℝ) * 2 ^ ((1 : Int) - 52)) = (6880887943736672 : Int) * 2 ^ ((-1 : Int) - 52) := by
    apply rnd_eq (-1) 6880887943736672 <;> norm_num
  rw [this]
  apply rnd_eq 1 5404236753554427 <;> norm_num

theorem dLong_pos : 0 < dLong := by rw [dLong_eq]; norm_num

theorem sizeLong_pow2 (k : Nat) : sizeLong (2 ^ k) = 2 ^ k := by
  unfold sizeLong
  have e : dLong * ((2 ^ k : Nat) : ℝ) = dLong * 2 ^ (k : Int) := by push_cast; rw [zpow_natCast]
  have h1 : rnd dLong = dLong := by
    rw [dLong_eq]
    have := rnd_exact (K := ℝ) (m := 5404236753554427) (e := (1 : Int) - 52) (by norm_num) (by norm_num)
    exact_mod_cast this
  rw [e, rnd_scale dLong_pos, h1, mul_div_cancel_left₀ _ (ne_of_gt dLong_pos)]
  have := rnd_exact (K := ℝ) (m := 1) (e := (k : Int)) (by norm_num) (by norm_num)
  rw [Nat.cast_one, one_mul] at this
  rw [this]
  apply ceil_toNat
  · push_cast; rw [zpow_natCast]; linarith
  · push_cast; rw [zpow_natCast]

theorem sizeLong_seven (k : Nat) : 7 * 2 ^ k < sizeLong (7 * 2 ^ k) := by
  unfold sizeLong
  have e : dLong * ((7 * 2 ^ k : Nat) : ℝ) = (dLong * 7) * 2 ^ (k : Int) := by push_cast; rw [zpow_natCast]; ring
  have e7 : rnd (dLong * 7) = (4728707159360124 : Int) * 2 ^ ((4 : Int) - 52) := by
    rw [dLong_eq]
    apply rnd_eq 4 4728707159360124 <;> norm_num
  have hd := dLong_pos
  rw [e, rnd_scale (by positivity), mul_div_right_comm, rnd_scale (by rw [e7]; positivity), e7, dLong_eq]
  have : rnd (((4728707159360124 : Int) : ℝ) * 2 ^ ((4 : Int) - 52) / (((5404236753554427 : Int) : ℝ) * 2 ^ ((1 : Int) - 52))) = (7881299347898369 : Int) * 2 ^ ((2 : Int) - 52) := by
    apply rnd_eq 2 7881299347898369 <;> norm_num
  rw [this]
  have h7 : (7 : ℝ) < ((7881299347898369 : Int) : ℝ) * 2 ^ ((2 : Int) - 52) := by norm_num
  rw [Int.lt_toNat, Int.lt_ceil]
  push_cast
  rw [zpow_natCast]
  have hp : (0 : ℝ) < 2 ^ k := by positivity
  push_cast at h7
  exact mul_lt_mul_of_pos_right h7 hp

/-! ## C121 -/

/-- C121: what `pack_sphere` returns are `N` points of the unit sphere from south to north, equally spaced in `z`, each the golden angle further. -/
theorem c121_points_partial {N : Nat} (h1 : N ≤ 2 ^ 48) {pts : List (ℝ × ℝ × ℝ)} (h : packSphere N = some pts) :
    pts.length = N ∧ ∀ i < N, ∃ x y z r, pts[i]? = some (x, y, z) ∧ x ^ 2 + y ^ 2 + z ^ 2 = 1 ∧ z = (2 * i + 1) / N - 1 ∧ 0 ≤ r ∧
      x = r * Real.cos (i * (2 * Real.pi * (1 - 1 / Real.goldenRatio))) ∧ y = r * Real.sin (i * (2 * Real.pi * (1 - 1 / Real.goldenRatio))) := by
  unfold packSphere at h
  by_cases h0 : N = 0
  · rw [if_pos h0] at h; cases h
  · rw [if_neg h0, sizeZ_ok (by omega) h1] at h
    by_cases hl : N = sizeLong N
    · rw [if_pos hl] at h
      have h := Option.some.inj h
      have hN : (0 : ℝ) < N := by exact_mod_cast (show 0 < N by omega)
      refine ⟨by rw [← h]; simp, ?_⟩
      intro i hi
      have hg : Real.pi * (3 - Real.sqrt 5) = 2 * Real.pi * (1 - 1 / Real.goldenRatio) := by
        rw [one_div, Real.inv_goldenRatio]
        unfold Real.goldenConj
        ring
      have hiN : (i : ℝ) + 1 ≤ N := by exact_mod_cast hi
      have hi0 : (0 : ℝ) ≤ i := by positivity
      obtain ⟨z, hz⟩ : ∃ z : ℝ, z = -1 + 2 / N / 2 + i * (2 / N) := ⟨_, rfl⟩
      have hz2 : z = (2 * i + 1) / N - 1 := by rw [hz]; field_simp; ring
      have hz3 : z ^ 2 ≤ 1 := by
        have a : -1 ≤ z := by
          rw [hz2]
          have : 0 ≤ (2 * (i : ℝ) + 1) / N := by positivity
          linarith
        have b : z ≤ 1 := by
          rw [hz2]
          have : (2 * (i : ℝ) + 1) / N ≤ 2 := by rw [div_le_iff₀ hN]; linarith
          linarith
        nlinarith
      refine ⟨(point N i).1, (point N i).2.1, z, Real.sqrt (1 - z ^ 2), ?_, ?_, hz2, Real.sqrt_nonneg _, ?_, ?_⟩
      · rw [← h, List.getElem?_map, List.getElem?_range hi]
        simp only [Option.map_some]
        rw [hz]
        rfl
      · have hs := Real.sq_sqrt (show 0 ≤ 1 - z ^ 2 by linarith)
        have hc := Real.sin_sq_add_cos_sq ((i : ℝ) * (Real.pi * (3 - Real.sqrt 5)))
        have e1 : (point N i).1 = Real.sqrt (1 - z ^ 2) * Real.cos (i * (Real.pi * (3 - Real.sqrt 5))) := by rw [hz]; rfl
        have e2 : (point N i).2.1 = Real.sqrt (1 - z ^ 2) * Real.sin (i * (Real.pi * (3 - Real.sqrt 5))) := by rw [hz]; rfl
        rw [e1, e2, mul_pow, mul_pow, hs]
        linear_combination (1 - z ^ 2) * hc
      · rw [← hg, hz]; rfl
      · rw [← hg, hz]; rfl
    · rw [if_neg hl] at h; cases h

/-- C121: powers of two are among the numbers of points that can be had. -/
theorem c121_powers {k : Nat} (hk : k ≤ 48) : ∃ pts, packSphere (2 ^ k) = some pts := by
  unfold packSphere
  rw [if_neg (ne_of_gt (Nat.two_pow_pos k)), sizeZ_ok (Nat.two_pow_pos k) (Nat.pow_le_pow_right (by norm_num) hk), sizeLong_pow2 k, if_pos rfl]
  exact ⟨_, rfl⟩

/-- C121: 7 points, 14, 28 and so on raise: there is one longitude too many. -/
theorem c121_seven_violated {k : Nat} (hk : k ≤ 45) : packSphere (7 * 2 ^ k) = none := by
  have h1 : 7 * 2 ^ k ≤ 2 ^ 48 := by
    have : 2 ^ k ≤ 2 ^ 45 := Nat.pow_le_pow_right (by norm_num) hk
    omega
  have hp := Nat.two_pow_pos k
  unfold packSphere
  rw [if_neg (by omega), sizeZ_ok (by omega) h1, if_neg (ne_of_lt (sizeLong_seven k))]

/-! ## Cases -/

example := c121_points_partial (N := 2 ^ 3) (by norm_num) (c121_powers (k := 3) (by norm_num)).choose_spec
example := c121_powers (k := 5) (by norm_num)
example : packSphere 28 = none := c121_seven_violated (k := 2) (by norm_num)

end Verif.Sky.Sphere
