import Mathlib.Algebra.BigOperators.Group.Finset.Basic
import Mathlib.Algebra.BigOperators.Ring.Finset
import Mathlib.Algebra.Order.BigOperators.Group.Finset
import Mathlib.Algebra.Order.Field.Basic
import Mathlib.Algebra.Order.Ring.Rat
import Mathlib.Data.List.GetD
import Mathlib.Data.Rat.Defs
import Mathlib.Tactic.Ring
import Mathlib.Tactic.FieldSimp
import Mathlib.Tactic.Linarith

/-!
# Oversampling (C57) and interpolation (C67)

`aipy/interp.py`.  Samples are elements of a field `K`; numbers are exact.
-/

namespace Verif.Misc

variable {K : Type} [Field K]

/-- One row of the zero padded matrix: the value in column 0.  `interp.py` 19-20. -/
def padRow (v : K) (factor : Nat) : List K := v :: List.replicate (factor - 1) 0

/-- `subsample(a, factor)`: matrices of shape `(a.size, factor)`, flattened row by row.  `none` is the
`IndexError` of `rv[:,0]` when there is no column.  `interp.py` 18-23. -/
def subsample (a : List K) (factor : Nat) : Option (List K × List K) :=
  if factor = 0 then none
  else some (a.flatMap fun v => padRow v factor, a.flatMap fun _ => padRow 1 factor)

/-- `np.convolve(xs, fir, mode='valid')` for `fir` not longer than `xs` (numpy exchanges the arguments
otherwise, which does not happen in `interpolate`).  Used at `interp.py` 55-56. -/
def convValid (xs fir : List K) : List K :=
  (List.range (xs.length + 1 - fir.length)).map fun (i : Nat) =>
    ∑ j ∈ Finset.range fir.length, xs.getD (i + (fir.length - 1) - j) 0 * fir.getD j 0

/-- `interpolate`.  `ext` is `polyextend(ys, order)`: it puts `order` samples before and after; `fir` is the
filter sampled on the grid (`2*order*factor + 1` points).  `interp.py` 44-57. -/
def interpolate (ext : List K → List K) (fir : List K) (factor : Nat) (ys : List K) : Option (List K) :=
  match subsample (ext ys) factor with
  | none => none
  | some (ss, w) => some (List.zipWith (· / ·) (convValid ss fir) (convValid w fir))

/-! ## Properties -/

theorem padRow_length (v : K) (f : Nat) (hf : f ≠ 0) : (padRow v f).length = f := by
  simp only [padRow, List.length_cons, List.length_replicate]; omega

theorem padRow_getD (v : K) (f k : Nat) : (padRow v f).getD k 0 = if k = 0 then v else 0 := by
  unfold padRow
  cases k with
  | zero => simp
  | succ k => simp [List.getD_eq_getElem?_getD, List.getElem?_replicate]; split <;> rfl

theorem pad_length (a : List K) (g : K → K) (f : Nat) (hf : f ≠ 0) :
    (a.flatMap fun v => padRow (g v) f).length = a.length * f := by
  induction a with
  | nil => simp
  | cons v a ih =>
    rw [List.flatMap_cons, List.length_append, ih, padRow_length _ _ hf, List.length_cons]
    ring

theorem pad_getD (a : List K) (g : K → K) (f : Nat) (hf : f ≠ 0) (k : Nat) :
    (a.flatMap fun v => padRow (g v) f).getD k 0 =
      if k % f = 0 then ((a[k / f]?).map g).getD 0 else 0 := by
  induction a generalizing k with
  | nil => simp
  | cons v a ih =>
    rw [List.flatMap_cons]
    by_cases hk : k < f
    · rw [List.getD_append _ _ _ _ (by rw [padRow_length _ _ hf]; exact hk), padRow_getD,
        Nat.mod_eq_of_lt hk, Nat.div_eq_of_lt hk]
      simp
    · have hfk : f ≤ k := Nat.le_of_not_lt hk
      rw [List.getD_append_right _ _ _ _ (by rw [padRow_length _ _ hf]; exact hfk), padRow_length _ _ hf,
        ih]
      have h1 : (k - f) % f = k % f := (Nat.mod_eq_sub_mod hfk).symm
      have h2 : k / f = (k - f) / f + 1 := by
        have := Nat.div_eq_sub_div (Nat.pos_of_ne_zero hf) hfk
        omega
      rw [h1, h2, List.getElem?_cons_succ]

/-- **C57.**  Oversampling by `factor ≥ 1` returns `factor` times as many samples; the original samples sit,
in order, at the multiples of `factor` with weight one, and everything else is zero with weight zero. -/
theorem c57_subsample (a : List K) (factor : Nat) (hf : factor ≠ 0) :
    ∃ ss w, subsample a factor = some (ss, w) ∧
      ss.length = a.length * factor ∧ w.length = a.length * factor ∧
      (∀ i, i < a.length → ss.getD (i * factor) 0 = a.getD i 0 ∧ w.getD (i * factor) 0 = 1) ∧
      ∀ k, k % factor ≠ 0 → ss.getD k 0 = 0 ∧ w.getD k 0 = 0 := by
  have hp : 0 < factor := Nat.pos_of_ne_zero hf
  refine ⟨_, _, if_neg hf, pad_length a (fun v => v) factor hf, pad_length a (fun _ => 1) factor hf, ?_, ?_⟩
  · intro i hi
    constructor
    · rw [pad_getD a (fun v => v) factor hf, if_pos (Nat.mul_mod_left i factor),
        Nat.mul_div_cancel i hp]
      simp [List.getD_eq_getElem?_getD]
    · rw [pad_getD a (fun _ => 1) factor hf, if_pos (Nat.mul_mod_left i factor),
        Nat.mul_div_cancel i hp, List.getElem?_eq_getElem hi]
      rfl
  · intro k hk
    constructor
    · rw [pad_getD a (fun v => v) factor hf, if_neg hk]
    · rw [pad_getD a (fun _ => 1) factor hf, if_neg hk]

/-- **C57.**  Nothing is created or lost: both the samples and the weights add up to what went in. -/
theorem c57_totals (a : List K) (factor : Nat) (ss w : List K) (h : subsample a factor = some (ss, w)) :
    ss.sum = a.sum ∧ w.sum = a.length := by
  unfold subsample at h
  by_cases hf : factor = 0
  · rw [if_pos hf] at h; cases h
  · rw [if_neg hf] at h
    rw [Option.some.injEq, Prod.mk.injEq] at h
    obtain ⟨rfl, rfl⟩ := h
    have hr : ∀ v : K, (padRow v factor).sum = v := by
      intro v
      simp [padRow]
    constructor
    · induction a with
      | nil => rfl
      | cons v a ih => rw [List.flatMap_cons, List.sum_append, hr, ih, List.sum_cons]
    · induction a with
      | nil => simp
      | cons v a ih =>
        rw [List.flatMap_cons, List.sum_append, hr, ih, List.length_cons]
        push_cast
        ring

/-- **C57.**  Only the factor zero is refused. -/
theorem c57_factor_zero (a : List K) (factor : Nat) : subsample a factor = none ↔ factor = 0 := by
  unfold subsample
  by_cases hf : factor = 0 <;> simp [hf]

example : subsample [(3 : ℚ), 5] 3 = some ([3, 0, 0, 5, 0, 0], [1, 0, 0, 1, 0, 0]) := by decide +kernel

/-- The numerator and denominator of the output sample `i` of `interpolate`: sums over the filter taps that
hit an original sample. -/
theorem interpolate_eq (ext : List K → List K) (fir : List K) (factor : Nat) (hf : factor ≠ 0)
    (ys : List K) (out : List K) (h : interpolate ext fir factor ys = some out) :
    out.length = (ext ys).length * factor + 1 - fir.length ∧
    ∀ i, i < out.length → out.getD i 0 =
      (∑ j ∈ Finset.range fir.length,
        (if (i + (fir.length - 1) - j) % factor = 0 then
          ((ext ys).getD ((i + (fir.length - 1) - j) / factor) 0) * fir.getD j 0 else 0)) /
      (∑ j ∈ Finset.range fir.length,
        (if (i + (fir.length - 1) - j) % factor = 0 then
          (if (i + (fir.length - 1) - j) / factor < (ext ys).length then fir.getD j 0 else 0) else 0)) := by
  unfold interpolate subsample at h
  rw [if_neg hf] at h
  dsimp only at h
  rw [Option.some.injEq] at h
  subst h
  have hl : ∀ g : K → K, (convValid ((ext ys).flatMap fun v => padRow (g v) factor) fir).length =
      (ext ys).length * factor + 1 - fir.length := by
    intro g
    simp only [convValid, List.length_map, List.length_range, pad_length _ g factor hf]
  have hl1 := hl (fun v => v)
  have hl2 := hl (fun _ => 1)
  constructor
  · rw [List.length_zipWith, hl1, hl2, min_self]
  · intro i hi
    rw [List.length_zipWith, hl1, hl2, min_self] at hi
    have hg : ∀ g : K → K, (convValid ((ext ys).flatMap fun v => padRow (g v) factor) fir)[i]? =
        some (∑ j ∈ Finset.range fir.length,
          (if (i + (fir.length - 1) - j) % factor = 0 then
            (((ext ys)[(i + (fir.length - 1) - j) / factor]?).map g).getD 0 else 0) * fir.getD j 0) := by
      intro g
      unfold convValid
      rw [List.getElem?_map, pad_length _ g factor hf, List.getElem?_range hi, Option.map_some]
      congr 1
      apply Finset.sum_congr rfl
      intro j _
      rw [pad_getD _ g factor hf]
    have hg1 := hg (fun v => v)
    have hg2 := hg (fun _ => 1)
    rw [List.getD_eq_getElem?_getD, List.getElem?_zipWith, hg1, hg2, Option.getD_some]
    congr 1
    · apply Finset.sum_congr rfl
      intro j _
      by_cases hm : (i + (fir.length - 1) - j) % factor = 0
      · simp [hm, List.getD_eq_getElem?_getD]
      · simp [hm]
    · apply Finset.sum_congr rfl
      intro j _
      by_cases hm : (i + (fir.length - 1) - j) % factor = 0
      · rw [if_pos hm, if_pos hm]
        by_cases hlt : (i + (fir.length - 1) - j) / factor < (ext ys).length
        · rw [List.getElem?_eq_getElem hlt, if_pos hlt]; simp
        · rw [List.getElem?_eq_none (by omega), if_neg hlt]; simp
      · simp [hm]

/-- **C67.**  `interpolate` returns `factor` samples for each input sample, when the extension adds `order`
samples at both ends and the filter has `2*order*factor + 1` taps. -/
theorem c67_length (ext : List K → List K) (fir : List K) (factor order : Nat) (ys out : List K)
    (hf : factor ≠ 0) (he : (ext ys).length = ys.length + 2 * order)
    (hfir : fir.length = 2 * order * factor + 1)
    (h : interpolate ext fir factor ys = some out) : out.length = ys.length * factor := by
  rw [(interpolate_eq ext fir factor hf ys out h).1, he, hfir]
  have : (ys.length + 2 * order) * factor = ys.length * factor + 2 * order * factor := by ring
  omega

/-- The indices met by the filter lie inside the extended samples. -/
theorem tap_inside (n order factor i j : Nat) (hf : factor ≠ 0) (hi : i < n * factor) :
    (i + (2 * order * factor + 1 - 1) - j) / factor < n + 2 * order := by
  rw [Nat.div_lt_iff_lt_mul (Nat.pos_of_ne_zero hf)]
  have : (n + 2 * order) * factor = n * factor + 2 * order * factor := by ring
  omega

/-- The weight of tap `j` at output sample `i`: the tap if it falls on an original sample. -/
def tapWeight (fir : List K) (factor i j : Nat) : K :=
  if (i + (fir.length - 1) - j) % factor = 0 then fir.getD j 0 else 0

/-- **C67.**  Every output sample is the weighted mean, with the filter as weights, of the (extended) samples
the filter reaches; the centre tap `order*factor` of output `i*factor` falls on input sample `i`. -/
theorem c67_weighted_mean (ext : List K → List K) (fir : List K) (factor order : Nat) (ys out : List K)
    (hf : factor ≠ 0) (he : (ext ys).length = ys.length + 2 * order)
    (hfir : fir.length = 2 * order * factor + 1)
    (h : interpolate ext fir factor ys = some out) (i : Nat) (hi : i < ys.length * factor) :
    out.getD i 0 =
      (∑ j ∈ Finset.range fir.length,
        (ext ys).getD ((i + (fir.length - 1) - j) / factor) 0 * tapWeight fir factor i j) /
      (∑ j ∈ Finset.range fir.length, tapWeight fir factor i j) ∧
    ∀ k, i = k * factor → tapWeight fir factor i (order * factor) = fir.getD (order * factor) 0 ∧
      (i + (fir.length - 1) - order * factor) / factor = k + order := by
  have hlen := c67_length ext fir factor order ys out hf he hfir h
  constructor
  · rw [(interpolate_eq ext fir factor hf ys out h).2 i (by rw [hlen]; exact hi)]
    congr 1
    · apply Finset.sum_congr rfl
      intro j _
      unfold tapWeight
      split <;> simp
    · apply Finset.sum_congr rfl
      intro j _
      unfold tapWeight
      have hin := tap_inside ys.length order factor i j hf hi
      rw [hfir, he, if_pos hin]
  · intro k hk
    have he2 : i + (fir.length - 1) - order * factor = (k + order) * factor := by
      rw [hfir, hk]
      have : (k + order) * factor = k * factor + order * factor := by ring
      have : 2 * order * factor = order * factor + order * factor := by ring
      omega
    unfold tapWeight
    rw [he2, if_pos (Nat.mul_mod_left _ _), Nat.mul_div_cancel _ (Nat.pos_of_ne_zero hf)]
    exact ⟨rfl, rfl⟩

/-- **C67.**  Constant samples stay constant, whatever the filter, as long as its weights do not cancel and
the polynomial continuation of constant samples is that constant. -/
theorem c67_constant (ext : List K → List K) (fir : List K) (factor order n : Nat) (c : K) (out : List K)
    (hf : factor ≠ 0) (he : ext (List.replicate n c) = List.replicate (n + 2 * order) c)
    (hfir : fir.length = 2 * order * factor + 1)
    (h : interpolate ext fir factor (List.replicate n c) = some out) (i : Nat) (hi : i < n * factor)
    (hw : ∑ j ∈ Finset.range fir.length, tapWeight fir factor i j ≠ 0) : out.getD i 0 = c := by
  have hel : (ext (List.replicate n c)).length = (List.replicate n c).length + 2 * order := by
    rw [he]; simp
  rw [(c67_weighted_mean ext fir factor order _ out hf hel hfir h i (by simpa using hi)).1, he]
  have hs : ∑ j ∈ Finset.range fir.length,
      (List.replicate (n + 2 * order) c).getD ((i + (fir.length - 1) - j) / factor) 0 *
        tapWeight fir factor i j = c * ∑ j ∈ Finset.range fir.length, tapWeight fir factor i j := by
    rw [Finset.mul_sum]
    apply Finset.sum_congr rfl
    intro j _
    have hin := tap_inside n order factor i j hf hi
    rw [← hfir] at hin
    rw [List.getD_eq_getElem?_getD, List.getElem?_replicate, if_pos hin]
    rfl
  rw [hs, mul_div_assoc, div_self hw, mul_one]

/-- **C67.**  With a filter without negative taps (the default filter has none) no output sample overshoots:
it lies between bounds of the extended samples. -/
theorem c67_no_overshoot {F : Type} [Field F] [LinearOrder F] [IsStrictOrderedRing F]
    (ext : List F → List F) (fir : List F) (factor order : Nat) (ys out : List F)
    (hf : factor ≠ 0) (he : (ext ys).length = ys.length + 2 * order)
    (hfir : fir.length = 2 * order * factor + 1) (hpos : ∀ x ∈ fir, 0 ≤ x)
    (h : interpolate ext fir factor ys = some out) (i : Nat) (hi : i < ys.length * factor)
    (hw : ∑ j ∈ Finset.range fir.length, tapWeight fir factor i j ≠ 0)
    (lo hi' : F) (hb : ∀ y ∈ ext ys, lo ≤ y ∧ y ≤ hi') : lo ≤ out.getD i 0 ∧ out.getD i 0 ≤ hi' := by
  have ht : ∀ j, 0 ≤ tapWeight fir factor i j := by
    intro j
    unfold tapWeight
    split
    · rw [List.getD_eq_getElem?_getD]
      cases hj : fir[j]? with
      | none => simp
      | some x => exact hpos x (List.mem_of_getElem? hj)
    · exact le_refl 0
  have hW : 0 < ∑ j ∈ Finset.range fir.length, tapWeight fir factor i j :=
    lt_of_le_of_ne (Finset.sum_nonneg fun j _ => ht j) (Ne.symm hw)
  have hin : ∀ j, lo ≤ (ext ys).getD ((i + (fir.length - 1) - j) / factor) 0 ∧
      (ext ys).getD ((i + (fir.length - 1) - j) / factor) 0 ≤ hi' := by
    intro j
    have hin := tap_inside ys.length order factor i j hf hi
    rw [← hfir, ← he] at hin
    rw [List.getD_eq_getElem?_getD, List.getElem?_eq_getElem hin, Option.getD_some]
    exact hb _ (List.getElem_mem hin)
  rw [(c67_weighted_mean ext fir factor order ys out hf he hfir h i hi).1]
  constructor
  · rw [le_div_iff₀ hW, Finset.mul_sum]
    exact Finset.sum_le_sum fun j _ => mul_le_mul_of_nonneg_right (hin j).1 (ht j)
  · rw [div_le_iff₀ hW, Finset.mul_sum]
    exact Finset.sum_le_sum fun j _ => mul_le_mul_of_nonneg_right (hin j).2 (ht j)

/-- A triangle filter, one sample of continuation on either side: four input samples give eight. -/
example : interpolate (fun ys : List ℚ => ys.headD 0 :: ys ++ [ys.getLastD 0]) [0, 1, 2, 1, 0] 2 [4, 6, 0, 2] =
    some [4, 5, 6, 3, 0, 1, 2, 2] := by decide +kernel

end Verif.Misc
