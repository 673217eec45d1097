import Mathlib.Algebra.Order.Field.Basic
import Mathlib.Algebra.Order.Field.Power
import Mathlib.Algebra.Order.Archimedean.Basic
import Mathlib.Algebra.Order.Round
import Mathlib.Data.Int.Log
import Mathlib.Data.Rat.Floor
import Mathlib.Tactic.Linarith
import Mathlib.Tactic.Ring
import Mathlib.Tactic.Positivity
import Mathlib.Tactic.FieldSimp
import Mathlib.Tactic.NormNum
import Mathlib.Tactic.GCongr

/-!
# Data scaled to 16 bits (C49)

`uvwrite_c` and `uvread_line` of `/repo/aipy/_miriad/mir/uvio.c` for data sets opened with `corrmode='j'`.  Numbers are
rational; every floating point operation is the exact one followed by a rounding `fl`.  With `fl = id` this is exact
arithmetic; `fl24` rounds to the 24 bits of a `float`.

Simplified: no exponent range (no overflow, no subnormal numbers), no infinities and no NaN; `plscale`, the factor of the
reference line, is one.
-/
namespace Verif.Mir.Scale

/-! ## Model -/

/-- the conversion of a `float` to an `int`: towards zero -/
def ctrunc (x : ℚ) : ℤ := if 0 ≤ x then ⌊x⌋ else ⌈x⌉

/-- uvio.c 2085-2091: the largest absolute value -/
def maxAbs (xs : List ℚ) : ℚ :=
  xs.foldl (fun maxval x => let temp := if x < 0 then -x else x; if maxval < temp then temp else maxval) 0

/-- uvio.c 2092: `if(maxval == 0) maxval = 1;` -/
def maxval (xs : List ℚ) : ℚ := if maxAbs xs = 0 then 1 else maxAbs xs

/-- uvio.c 2093-2094: the variable `tscale` -/
def tscale (fl : ℚ → ℚ) (xs : List ℚ) : ℚ := fl (maxval xs / 32767)

/-- uvio.c 2095-2098: the integers -/
def ints (fl : ℚ → ℚ) (xs : List ℚ) : List ℤ :=
  let scale := fl (32767 / maxval xs)
  xs.map fun x => ctrunc (fl (scale * x))

/-- uvio.c 4080-4084 (`uvread_line`, straight copy): the data read -/
def unscale (fl : ℚ → ℚ) (ts : ℚ) (qs : List ℤ) : List ℚ :=
  qs.map fun (q : ℤ) => fl (ts * q)

/-- writing a record and reading it -/
def roundTrip (fl : ℚ → ℚ) (xs : List ℚ) : List ℚ :=
  unscale fl (tscale fl xs) (ints fl xs)

/-! ## Specification -/

/-- `m` is the largest absolute value among `xs`, or zero if there is none -/
def IsMaxAbs (xs : List ℚ) (m : ℚ) : Prop :=
  (∀ x ∈ xs, |x| ≤ m) ∧ ((∃ x ∈ xs, |x| = m) ∨ (m = 0 ∧ ∀ x ∈ xs, x = 0))

/-- arithmetic with relative error `u` -/
def Rounds (fl : ℚ → ℚ) (u : ℚ) : Prop := ∀ x, |fl x - x| ≤ u * |x|

/-- rounding to 24 bits (a `float`), halves up -/
def fl24 (x : ℚ) : ℚ :=
  if x = 0 then 0 else
    let ulp : ℚ := 2 ^ (Int.log 2 |x| - 23)
    round (x / ulp) * ulp

/-! ## Lemmas -/

theorem rounds_id : Rounds id 0 := by intro x; simp

theorem rounds_fl24 : Rounds fl24 (1 / 2 ^ 24) := by
  intro x
  unfold fl24
  by_cases hx : x = 0
  · simp [hx]
  · rw [if_neg hx]
    dsimp only
    generalize hu : (2 : ℚ) ^ (Int.log 2 |x| - 23) = ulp
    have hup : 0 < ulp := by rw [← hu]; positivity
    have h1 : |x / ulp - round (x / ulp)| ≤ 1 / 2 := abs_sub_round _
    have h2 : (round (x / ulp) : ℚ) * ulp - x = -((x / ulp - round (x / ulp)) * ulp) := by
      field_simp
      ring
    rw [h2, abs_neg, abs_mul, abs_of_pos hup]
    have h3 : ulp ≤ |x| / 2 ^ 23 := by
      rw [← hu, zpow_sub₀ (by norm_num)]
      have := Int.zpow_log_le_self (b := 2) (R := ℚ) (r := |x|) (by norm_num) (abs_pos.2 hx)
      push_cast at this
      have h23 : ((2 : ℚ) ^ (23 : ℤ)) = 2 ^ 23 := by norm_cast
      rw [h23]
      gcongr
    calc |x / ulp - round (x / ulp)| * ulp ≤ 1 / 2 * ulp := by gcongr
      _ ≤ 1 / 2 * (|x| / 2 ^ 23) := by gcongr
      _ = 1 / 2 ^ 24 * |x| := by ring

theorem fold_spec (xs : List ℚ) : ∀ (m0 : ℚ), 0 ≤ m0 →
    let m := xs.foldl (fun maxval x => let temp := if x < 0 then -x else x; if maxval < temp then temp else maxval) m0
    m0 ≤ m ∧ (∀ x ∈ xs, |x| ≤ m) ∧ (m = m0 ∨ ∃ x ∈ xs, |x| = m) := by
  induction xs with
  | nil => intro m0 h; simp
  | cons x xs ih =>
    intro m0 h
    have hx : (if x < 0 then -x else x) = |x| := by
      split
      · rw [abs_of_neg (by assumption)]
      · rw [abs_of_nonneg (by linarith)]
    dsimp only [List.foldl_cons]
    rw [hx]
    by_cases hc : m0 < |x|
    · rw [if_pos hc]
      obtain ⟨h1, h2, h3⟩ := ih |x| (by positivity)
      refine ⟨by linarith, ?_, ?_⟩
      · intro y hy
        rcases List.mem_cons.1 hy with rfl | hy
        · exact h1
        · exact h2 y hy
      · rcases h3 with h3 | ⟨y, hy, h3⟩
        · exact Or.inr ⟨x, by simp, h3.symm⟩
        · exact Or.inr ⟨y, by simp [hy], h3⟩
    · rw [if_neg hc]
      obtain ⟨h1, h2, h3⟩ := ih m0 h
      refine ⟨h1, ?_, ?_⟩
      · intro y hy
        rcases List.mem_cons.1 hy with rfl | hy
        · linarith
        · exact h2 y hy
      · rcases h3 with h3 | ⟨y, hy, h3⟩
        · exact Or.inl h3
        · exact Or.inr ⟨y, by simp [hy], h3⟩

theorem maxAbs_spec (xs : List ℚ) : IsMaxAbs xs (maxAbs xs) := by
  obtain ⟨h1, h2, h3⟩ := fold_spec xs 0 le_rfl
  refine ⟨h2, ?_⟩
  rcases h3 with h3 | h3
  · right
    refine ⟨h3, fun x hx => ?_⟩
    have := h2 x hx
    rw [h3] at this
    exact abs_eq_zero.1 (le_antisymm this (abs_nonneg x))
  · exact Or.inl h3

theorem isMaxAbs_unique {xs : List ℚ} {m m' : ℚ} (h : IsMaxAbs xs m) (h' : IsMaxAbs xs m') : m = m' := by
  obtain ⟨a, b⟩ := h
  obtain ⟨a', b'⟩ := h'
  rcases b with ⟨x, hx, b⟩ | ⟨b, c⟩ <;> rcases b' with ⟨y, hy, b'⟩ | ⟨b', c'⟩
  · have := a y hy; have := a' x hx; linarith
  · have := c' x hx; subst this; simp at b; linarith
  · have := c y hy; subst this; simp at b'; linarith
  · linarith

theorem maxAbs_eq {xs : List ℚ} {m : ℚ} (h : IsMaxAbs xs m) : maxAbs xs = m := isMaxAbs_unique (maxAbs_spec xs) h

theorem maxAbs_nonneg (xs : List ℚ) : 0 ≤ maxAbs xs := (fold_spec xs 0 le_rfl).1

theorem maxval_pos (xs : List ℚ) : 0 < maxval xs := by
  unfold maxval
  split
  · norm_num
  · have := maxAbs_nonneg xs
    exact lt_of_le_of_ne this (Ne.symm (by assumption))

theorem le_maxval {xs : List ℚ} {x : ℚ} (hx : x ∈ xs) : |x| ≤ maxval xs := by
  have := (maxAbs_spec xs).1 x hx
  unfold maxval
  split
  · linarith
  · exact this

theorem ctrunc_spec (x : ℚ) : |x - ctrunc x| < 1 ∧ |(ctrunc x : ℚ)| ≤ |x| ∧ 0 ≤ x * ctrunc x := by
  unfold ctrunc
  split
  · next h =>
    have h1 := Int.floor_le x
    have h2 := Int.lt_floor_add_one x
    have h3 : (0 : ℚ) ≤ ⌊x⌋ := by exact_mod_cast Int.floor_nonneg.2 h
    refine ⟨?_, ?_, by positivity⟩
    · rw [abs_lt]; constructor <;> linarith
    · rw [abs_of_nonneg h, abs_of_nonneg h3]; exact h1
  · next h =>
    have h1 := Int.le_ceil x
    have h2 := Int.ceil_lt_add_one x
    have h3 : (⌈x⌉ : ℚ) ≤ 0 := by
      have : ⌈x⌉ ≤ 0 := Int.ceil_le.2 (by push_cast; linarith)
      exact_mod_cast this
    refine ⟨?_, ?_, by nlinarith⟩
    · rw [abs_lt]; constructor <;> linarith
    · rw [abs_of_nonpos (by linarith : x ≤ 0), abs_of_nonpos h3]; linarith

theorem ctrunc_int (k : ℤ) : ctrunc (k : ℚ) = k := by
  unfold ctrunc
  split <;> simp

theorem rounds_le {fl : ℚ → ℚ} {u : ℚ} (h : Rounds fl u) (x : ℚ) : |fl x| ≤ (1 + u) * |x| := by
  have := h x
  have h2 : |fl x| ≤ |fl x - x| + |x| := by
    calc |fl x| = |(fl x - x) + x| := by ring_nf
      _ ≤ _ := abs_add_le _ _
  linarith

theorem rounds_nonneg {fl : ℚ → ℚ} {u : ℚ} (h : Rounds fl u) (hu : u ≤ 1) {x : ℚ} (hx : 0 ≤ x) : 0 ≤ fl x := by
  have h1 := h x
  rw [abs_of_nonneg hx] at h1
  have := (abs_le.1 h1).1
  nlinarith

theorem rounds_nonpos {fl : ℚ → ℚ} {u : ℚ} (h : Rounds fl u) (hu : u ≤ 1) {x : ℚ} (hx : x ≤ 0) : fl x ≤ 0 := by
  have h1 := h x
  rw [abs_of_nonpos hx] at h1
  have := (abs_le.1 h1).2
  nlinarith

theorem ctrunc_nonneg {x : ℚ} (hx : 0 ≤ x) : (0 : ℚ) ≤ ctrunc x := by
  unfold ctrunc
  rw [if_pos hx]
  exact_mod_cast Int.floor_nonneg.2 hx

theorem ctrunc_nonpos {x : ℚ} (hx : x ≤ 0) : (ctrunc x : ℚ) ≤ 0 := by
  rcases hx.lt_or_eq with hx | rfl
  · unfold ctrunc
    rw [if_neg (not_le.2 hx)]
    have : ⌈x⌉ ≤ 0 := Int.ceil_le.2 (by push_cast; linarith)
    exact_mod_cast this
  · have := ctrunc_int 0
    simp only [Int.cast_zero] at this
    rw [this]
    simp

theorem rounds_zero {fl : ℚ → ℚ} {u : ℚ} (h : Rounds fl u) : fl 0 = 0 := by
  have := h 0
  simpa using this

/-! ## C49 -/

/-- what becomes of one number -/
theorem one_value {fl : ℚ → ℚ} {u : ℚ} (h : Rounds fl u) (h0 : 0 ≤ u) {m x : ℚ} (hm : 0 < m) (hx : |x| ≤ m) :
    |(ctrunc (fl (fl (32767 / m) * x)) : ℚ)| ≤ 32767 * (1 + u) ^ 2 ∧
    |fl (fl (m / 32767) * ctrunc (fl (fl (32767 / m) * x))) - x| ≤
      ((1 + u) ^ 2 + 32767 * ((1 + u) ^ 4 - 1)) * (m / 32767) := by
  generalize hs : fl (32767 / m) = s
  generalize ht : fl (m / 32767) = t
  generalize hy : fl (s * x) = y
  obtain ⟨q1, q2, _⟩ := ctrunc_spec y
  generalize (ctrunc y : ℚ) = q at *
  have e1 : |s - 32767 / m| ≤ u * (32767 / m) := by
    have := h (32767 / m); rwa [hs, abs_of_pos (by positivity : 0 < 32767 / m)] at this
  have e2 : |t - m / 32767| ≤ u * (m / 32767) := by
    have := h (m / 32767); rwa [ht, abs_of_pos (by positivity : 0 < m / 32767)] at this
  have e3 : |y - s * x| ≤ u * |s * x| := by have := h (s * x); rwa [hy] at this
  have e4 := h (t * q)
  have as : |s| ≤ (1 + u) * (32767 / m) := by
    have := rounds_le h (32767 / m); rwa [hs, abs_of_pos (by positivity : 0 < 32767 / m)] at this
  have at' : |t| ≤ (1 + u) * (m / 32767) := by
    have := rounds_le h (m / 32767); rwa [ht, abs_of_pos (by positivity : 0 < m / 32767)] at this
  have ay : |y| ≤ (1 + u) * |s * x| := by have := rounds_le h (s * x); rwa [hy] at this
  have asx : |s * x| ≤ (1 + u) * 32767 := by
    rw [abs_mul]
    calc |s| * |x| ≤ ((1 + u) * (32767 / m)) * m := by gcongr
      _ = (1 + u) * 32767 := by field_simp
  refine ⟨?_, ?_⟩
  · calc |q| ≤ |y| := q2
      _ ≤ (1 + u) * |s * x| := ay
      _ ≤ (1 + u) * ((1 + u) * 32767) := by gcongr
      _ = _ := by ring
  · -- the error in four parts
    have hsplit : fl (t * q) - x = (fl (t * q) - t * q) + t * (q - y) + t * (y - s * x) +
        ((t - m / 32767) * (s * x) + (m / 32767) * ((s - 32767 / m) * x)) := by
      field_simp
      ring
    have hq : |q - y| ≤ 1 := by rw [abs_sub_comm]; linarith
    have b1 : |fl (t * q) - t * q| ≤ u * ((1 + u) * (m / 32767) * (32767 * (1 + u) ^ 2)) := by
      calc |fl (t * q) - t * q| ≤ u * |t * q| := e4
        _ = u * (|t| * |q|) := by rw [abs_mul]
        _ ≤ u * ((1 + u) * (m / 32767) * (32767 * (1 + u) ^ 2)) := by
          have : |q| ≤ 32767 * (1 + u) ^ 2 := by
            calc |q| ≤ |y| := q2
              _ ≤ (1 + u) * |s * x| := ay
              _ ≤ (1 + u) * ((1 + u) * 32767) := by gcongr
              _ = _ := by ring
          gcongr
    have b2 : |t * (q - y)| ≤ (1 + u) * (m / 32767) * 1 := by rw [abs_mul]; gcongr
    have b3 : |t * (y - s * x)| ≤ (1 + u) * (m / 32767) * (u * ((1 + u) * 32767)) := by
      rw [abs_mul]
      have : |y - s * x| ≤ u * ((1 + u) * 32767) := le_trans e3 (by gcongr)
      gcongr
    have b4 : |(t - m / 32767) * (s * x)| ≤ u * (m / 32767) * ((1 + u) * 32767) := by rw [abs_mul]; gcongr
    have b5 : |(m / 32767) * ((s - 32767 / m) * x)| ≤ (m / 32767) * (u * 32767) := by
      rw [abs_mul, abs_mul, abs_of_pos (by positivity : 0 < m / 32767)]
      have : |s - 32767 / m| * |x| ≤ u * 32767 := by
        calc |s - 32767 / m| * |x| ≤ (u * (32767 / m)) * m := by gcongr
          _ = u * 32767 := by field_simp
      gcongr
    rw [hsplit]
    have tri : ∀ a b c d e : ℚ, |a + b + c + (d + e)| ≤ |a| + |b| + |c| + |d| + |e| := by
      intro a b c d e
      have := abs_add_le (a + b + c) (d + e)
      have := abs_add_le (a + b) c
      have := abs_add_le a b
      have := abs_add_le d e
      linarith
    refine le_trans (tri _ _ _ _ _) ?_
    have hM : 0 < m / 32767 := by positivity
    generalize m / 32767 = M at *
    have hsum : u * ((1 + u) * M * (32767 * (1 + u) ^ 2)) + (1 + u) * M * 1 + (1 + u) * M * (u * ((1 + u) * 32767)) +
        u * M * ((1 + u) * 32767) + M * (u * 32767) + u * (1 + u) * M =
        ((1 + u) ^ 2 + 32767 * ((1 + u) ^ 4 - 1)) * M := by ring
    have : 0 ≤ u * (1 + u) * M := by positivity
    linarith

theorem roundTrip_get {fl : ℚ → ℚ} {xs : List ℚ} {i : Nat} {x' : ℚ} (h : (roundTrip fl xs)[i]? = some x') :
    ∃ x ∈ xs, xs[i]? = some x ∧ (ints fl xs)[i]? = some (ctrunc (fl (fl (32767 / maxval xs) * x))) ∧
      x' = fl (fl (maxval xs / 32767) * ctrunc (fl (fl (32767 / maxval xs) * x))) := by
  simp only [roundTrip, unscale, ints, List.getElem?_map, Option.map_eq_some_iff] at h
  obtain ⟨q, ⟨x, hx, hq⟩, h⟩ := h
  refine ⟨x, List.mem_of_getElem? hx, hx, ?_, ?_⟩
  · simp only [ints, List.getElem?_map, hx, Option.map_some]
  · rw [hq]; exact h.symm

theorem maxval_eq {xs : List ℚ} {m : ℚ} (h : IsMaxAbs xs m) (hm : m ≠ 0) : maxval xs = m := by
  unfold maxval
  rw [maxAbs_eq h, if_neg hm]

/-- **C49**: as many numbers are read as were written. -/
theorem c49_length (fl : ℚ → ℚ) (xs : List ℚ) : (roundTrip fl xs).length = xs.length := by
  simp [roundTrip, unscale, ints]

/-- **C49**: the integers fit 16 bits, for arithmetic with any relative error up to `2 ^ (-17)`. -/
theorem c49_fits {fl : ℚ → ℚ} {u : ℚ} (h : Rounds fl u) (h0 : 0 ≤ u) (h1 : u ≤ 1 / 2 ^ 17) (xs : List ℚ) :
    ∀ q ∈ ints fl xs, -32767 ≤ q ∧ q ≤ 32767 := by
  intro q hq
  simp only [ints, List.mem_map] at hq
  obtain ⟨x, hx, rfl⟩ := hq
  have := (one_value h h0 (maxval_pos xs) (le_maxval hx)).1
  generalize ctrunc (fl (fl (32767 / maxval xs) * x)) = q at *
  have h2 : 32767 * (1 + u) ^ 2 < 32768 := by
    have : (1 + u) ^ 2 ≤ (1 + 1 / 2 ^ 17) ^ 2 := by gcongr
    have h3 : 32767 * (1 + 1 / 2 ^ 17 : ℚ) ^ 2 < 32768 := by norm_num
    linarith
  have h3 : |(q : ℚ)| < 32768 := lt_of_le_of_lt this h2
  obtain ⟨h4, h5⟩ := abs_lt.1 h3
  have h4' : (-32768 : ℤ) < q := by exact_mod_cast h4
  have h5' : q < (32768 : ℤ) := by exact_mod_cast h5
  omega

example : ∀ q ∈ ints fl24 [15, -3, 1 / 7], -32767 ≤ q ∧ q ≤ 32767 :=
  c49_fits rounds_fl24 (by norm_num) (by norm_num) _

/-- **C49**: with relative error `u` in every operation each number is read within one step of the scale, and the
error of four operations on the largest value. -/
theorem c49_error {fl : ℚ → ℚ} {u : ℚ} (h : Rounds fl u) (h0 : 0 ≤ u) {xs : List ℚ} {m : ℚ} (hm : IsMaxAbs xs m)
    {i : Nat} {x x' : ℚ} (hx : xs[i]? = some x) (hx' : (roundTrip fl xs)[i]? = some x') :
    |x' - x| ≤ ((1 + u) ^ 2 + 32767 * ((1 + u) ^ 4 - 1)) * (m / 32767) := by
  obtain ⟨y, hy, hy1, _, rfl⟩ := roundTrip_get hx'
  rw [hx, Option.some.injEq] at hy1
  subst hy1
  by_cases hz : m = 0
  · have hx0 : x = 0 := by
      have := hm.1 x hy
      rw [hz] at this
      exact abs_eq_zero.1 (le_antisymm this (abs_nonneg x))
    subst hx0 hz
    have ct : ctrunc 0 = 0 := by simpa using ctrunc_int 0
    simp [rounds_zero h, ct]
  · rw [maxval_eq hm hz]
    have hp : 0 < m := lt_of_le_of_ne (by rw [← maxAbs_eq hm]; exact maxAbs_nonneg xs) (Ne.symm hz)
    exact (one_value h h0 hp (hm.1 x hy)).2

/-- **C49**: in single precision that is less than 1.008 steps. -/
theorem c49_single {xs : List ℚ} {m : ℚ} (hm : IsMaxAbs xs m) {i : Nat} {x x' : ℚ} (hx : xs[i]? = some x)
    (hx' : (roundTrip fl24 xs)[i]? = some x') : |x' - x| ≤ 1008 / 1000 * (m / 32767) := by
  have h := c49_error rounds_fl24 (by norm_num) hm hx hx'
  have h0 : 0 ≤ m := by rw [← maxAbs_eq hm]; exact maxAbs_nonneg xs
  refine le_trans h ?_
  have h1 : ((1 + 1 / 2 ^ 24 : ℚ) ^ 2 + 32767 * ((1 + 1 / 2 ^ 24) ^ 4 - 1)) ≤ 1008 / 1000 := by norm_num
  have h2 : 0 ≤ m / 32767 := by positivity
  exact mul_le_mul_of_nonneg_right h1 h2

/-- **C49**: in exact arithmetic the error is less than one step, and is towards zero. -/
theorem c49_exact {xs : List ℚ} {m : ℚ} (hm : IsMaxAbs xs m) (hz : m ≠ 0) {i : Nat} {x x' : ℚ} (hx : xs[i]? = some x)
    (hx' : (roundTrip id xs)[i]? = some x') : |x' - x| < m / 32767 ∧ |x'| ≤ |x| := by
  obtain ⟨y, hy, hy1, _, rfl⟩ := roundTrip_get hx'
  rw [hx, Option.some.injEq] at hy1
  subst hy1
  rw [maxval_eq hm hz]
  have hp : 0 < m := lt_of_le_of_ne (by rw [← maxAbs_eq hm]; exact maxAbs_nonneg xs) (Ne.symm hz)
  simp only [id]
  obtain ⟨h1, h2, _⟩ := ctrunc_spec (32767 / m * x)
  generalize (ctrunc (32767 / m * x) : ℚ) = q at *
  have hM : 0 < m / 32767 := by positivity
  refine ⟨?_, ?_⟩
  · have : m / 32767 * q - x = -(m / 32767 * (32767 / m * x - q)) := by field_simp; ring
    rw [this, abs_neg, abs_mul, abs_of_pos hM]
    calc _ < m / 32767 * 1 := by gcongr
      _ = _ := by ring
  · rw [abs_mul, abs_of_pos hM]
    calc m / 32767 * |q| ≤ m / 32767 * |32767 / m * x| := by gcongr
      _ = |m / 32767 * (32767 / m * x)| := by rw [abs_mul (m / 32767), abs_of_pos hM]
      _ = |x| := by congr 1; field_simp

/-- **C49**: zeros are read as zeros, also in a record of zeros only; other numbers do not change their sign. -/
theorem c49_sign {fl : ℚ → ℚ} {u : ℚ} (h : Rounds fl u) (h1 : u ≤ 1) {xs : List ℚ} {i : Nat} {x x' : ℚ}
    (hx : xs[i]? = some x) (hx' : (roundTrip fl xs)[i]? = some x') : 0 ≤ x * x' ∧ (x = 0 → x' = 0) := by
  obtain ⟨y, hy, hy1, _, rfl⟩ := roundTrip_get hx'
  rw [hx, Option.some.injEq] at hy1
  subst hy1
  have hm := maxval_pos xs
  generalize maxval xs = m at *
  have hs : 0 ≤ fl (32767 / m) := rounds_nonneg h h1 (by positivity)
  have ht : 0 ≤ fl (m / 32767) := rounds_nonneg h h1 (by positivity)
  refine ⟨?_, ?_⟩
  · rcases le_total 0 x with hx0 | hx0
    · exact mul_nonneg hx0 (rounds_nonneg h h1 (mul_nonneg ht (ctrunc_nonneg (rounds_nonneg h h1 (mul_nonneg hs hx0)))))
    · exact mul_nonneg_of_nonpos_of_nonpos hx0 (rounds_nonpos h h1 (mul_nonpos_of_nonneg_of_nonpos ht
        (ctrunc_nonpos (rounds_nonpos h h1 (mul_nonpos_of_nonneg_of_nonpos hs hx0)))))
  · rintro rfl
    have ct : ctrunc 0 = 0 := by simpa using ctrunc_int 0
    simp [rounds_zero h, ct]

/-- **C49**: in exact arithmetic the largest value is read exactly. -/
theorem c49_largest {xs : List ℚ} {m : ℚ} (hm : IsMaxAbs xs m) {i : Nat} {x x' : ℚ} (hx : xs[i]? = some x)
    (hl : |x| = m) (hx' : (roundTrip id xs)[i]? = some x') : x' = x := by
  by_cases hz : m = 0
  · have h0 : x = 0 := abs_eq_zero.1 (hl.trans hz)
    rw [h0]
    exact (c49_sign rounds_id (by norm_num) hx hx').2 h0
  · obtain ⟨y, hy, hy1, _, rfl⟩ := roundTrip_get hx'
    rw [hx, Option.some.injEq] at hy1
    subst hy1
    rw [maxval_eq hm hz]
    simp only [id]
    rcases abs_choice x with h | h
    · have hxm : x = m := by rw [← h, hl]
      subst hxm
      have : (32767 / x * x : ℚ) = ((32767 : ℤ) : ℚ) := by push_cast; field_simp
      rw [this, ctrunc_int]
      push_cast
      field_simp
    · have hxm : x = -m := by rw [← hl, h, neg_neg]
      subst hxm
      have : (32767 / m * -m : ℚ) = ((-32767 : ℤ) : ℚ) := by push_cast; field_simp
      rw [this, ctrunc_int]
      push_cast
      field_simp

theorem unscale_spec {xs : List ℚ} {m : ℚ} (hm : IsMaxAbs xs m) : IsMaxAbs (roundTrip id xs) m := by
  by_cases hz : m = 0
  · have hall : ∀ x' ∈ roundTrip id xs, x' = 0 := by
      intro x' hx'
      obtain ⟨i, hi⟩ := List.mem_iff_getElem?.1 hx'
      obtain ⟨x, hx, hxi, _⟩ := roundTrip_get hi
      refine (c49_sign rounds_id (by norm_num) hxi hi).2 ?_
      have := hm.1 x hx
      rw [hz] at this
      exact abs_eq_zero.1 (le_antisymm this (abs_nonneg x))
    refine ⟨fun x' hx' => ?_, Or.inr ⟨hz, hall⟩⟩
    rw [hall x' hx', hz, abs_zero]
  · refine ⟨fun x' hx' => ?_, ?_⟩
    · obtain ⟨i, hi⟩ := List.mem_iff_getElem?.1 hx'
      obtain ⟨x, hx, hxi, _⟩ := roundTrip_get hi
      exact le_trans (c49_exact hm hz hxi hi).2 (hm.1 x hx)
    · rcases hm.2 with ⟨x, hx, h⟩ | ⟨h, _⟩
      · obtain ⟨i, hi⟩ := List.mem_iff_getElem?.1 hx
        have hlt : i < (roundTrip id xs).length := by
          rw [c49_length]
          exact (List.getElem?_eq_some_iff.1 hi).1
        have hi' := List.getElem?_eq_getElem hlt
        refine Or.inl ⟨_, List.getElem_mem hlt, ?_⟩
        rw [c49_largest hm hi h hi', h]
      · exact absurd h hz

/-- **C49**: in exact arithmetic writing the numbers read gives the same scale and the same integers: copying a data
set loses nothing more. -/
theorem c49_copy (xs : List ℚ) : tscale id (roundTrip id xs) = tscale id xs ∧
    ints id (roundTrip id xs) = ints id xs ∧ roundTrip id (roundTrip id xs) = roundTrip id xs := by
  have hm := maxAbs_spec xs
  have hmv : maxval (roundTrip id xs) = maxval xs := by
    unfold maxval
    rw [maxAbs_eq (unscale_spec hm)]
  have h1 : tscale id (roundTrip id xs) = tscale id xs := by unfold tscale; rw [hmv]
  have h2 : ints id (roundTrip id xs) = ints id xs := by
    have hp := maxval_pos xs
    unfold ints
    rw [hmv]
    unfold roundTrip unscale tscale ints
    rw [List.map_map, List.map_map]
    apply List.map_congr_left
    intro x _
    simp only [Function.comp, id]
    rw [← mul_assoc, show 32767 / maxval xs * (maxval xs / 32767) = 1 by field_simp, one_mul, ctrunc_int]
  refine ⟨h1, h2, ?_⟩
  rw [roundTrip, h1, h2]
  rfl

/-! ## Disagreements in single precision, and examples -/

example : IsMaxAbs [15, -3, 1 / 7] 15 :=
  ⟨by intro x hx; simp at hx; rcases hx with rfl | rfl | rfl <;> norm_num [abs_le], Or.inl ⟨15, by simp, by norm_num⟩⟩

/-- **C49, disagreement**: in single precision a step can be lost at the largest value, the error of 1045 is more than
`1045 / 32767`. -/
theorem c49_step_lost : roundTrip fl24 [1045] = [1044.968017578125] ∧ 1045 / 32767 < |(1044.968017578125 : ℚ) - 1045| := by
  constructor
  · decide +kernel
  · norm_num

/-- **C49, disagreement**: in single precision a copy can lose a further step. -/
theorem c49_copy_drifts : roundTrip fl24 [55] ≠ roundTrip fl24 (roundTrip fl24 [55]) := by
  decide +kernel

example : ints fl24 [15, -3, 1 / 7, 0] = [32766, -6553, 312, 0] := by decide +kernel
example : roundTrip id [15, -3, 0] = [15, -3 + 6 / 32767, 0] := by decide +kernel

end Verif.Mir.Scale
