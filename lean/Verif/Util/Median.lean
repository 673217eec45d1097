import Mathlib.Data.List.Sort
import Mathlib.Data.Real.Basic
import Mathlib.Tactic.Linarith
/-!
# The median of numbers, as `np.median` defines it
-/
noncomputable section
namespace Verif.Util

open Classical in
/-- `np.median` of a list that is not empty -/
def median (l : List ℝ) : ℝ :=
  let s := l.insertionSort (· ≤ ·)
  if s.length % 2 = 1 then s.getD (s.length / 2) 0 else (s.getD (s.length / 2 - 1) 0 + s.getD (s.length / 2) 0) / 2

/-- at least so many are not larger, so the others are at most the rest -/
theorem countP_gt_le {m : ℝ} [DecidablePred fun x : ℝ => m < x] : ∀ (s : List ℝ) (c : Nat), c ≤ s.length → (∀ x ∈ s.take c, x ≤ m) →
    s.countP (fun x => decide (m < x)) ≤ s.length - c := by
  intro s c hc h
  have h1 : s.countP (fun x => decide (m < x)) = (s.take c).countP (fun x => decide (m < x)) + (s.drop c).countP (fun x => decide (m < x)) := by
    rw [← List.countP_append, List.take_append_drop]
  have h2 : (s.take c).countP (fun x => decide (m < x)) = 0 := by
    rw [List.countP_eq_zero]
    intro x hx
    simp only [decide_eq_true_eq, not_lt]
    exact h x hx
  have h3 : (s.drop c).countP (fun x => decide (m < x)) ≤ s.length - c := by
    rw [← List.length_drop]
    exact List.countP_le_length
  omega

theorem sorted_take {s : List ℝ} (hs : s.Pairwise (· ≤ ·)) (i : Nat) (hi : i < s.length) : ∀ x ∈ s.take (i + 1), x ≤ s[i] := by
  intro x hx
  obtain ⟨j, hj, rfl⟩ := List.getElem_of_mem hx
  rw [List.length_take] at hj
  rw [List.getElem_take]
  rcases Nat.lt_or_ge j i with h | h
  · exact List.pairwise_iff_getElem.1 hs j i (by omega) hi h
  · have : j = i := by omega
    subst this
    exact le_refl _

/-- at most half of a list is larger than its median -/
theorem median_half (l : List ℝ) [DecidablePred fun x : ℝ => median l < x] : 2 * l.countP (fun x => decide (median l < x)) ≤ l.length := by
  classical
  have hperm := List.perm_insertionSort (fun a b : ℝ => a ≤ b) l
  have hsorted := List.pairwise_insertionSort (fun a b : ℝ => a ≤ b) l
  have hm : median l = median l := rfl
  conv_rhs at hm => unfold median
  simp only at hm
  rw [← hperm.countP_eq, ← hperm.length_eq]
  generalize median l = m at *
  generalize l.insertionSort (fun a b : ℝ => a ≤ b) = s at *
  rcases Nat.eq_zero_or_pos s.length with h0 | hpos
  · have : s = [] := List.eq_nil_of_length_eq_zero h0
    subst this
    simp
  have hp1 : s.length / 2 < s.length := by omega
  have g1 : s.getD (s.length / 2) 0 = s[s.length / 2] := by simp [List.getD, hp1]
  by_cases ho : s.length % 2 = 1
  · rw [if_pos ho, g1] at hm
    have := countP_gt_le (m := m) s (s.length / 2 + 1) (by omega) (by rw [hm]; exact sorted_take hsorted _ hp1)
    omega
  · have hp2 : s.length / 2 - 1 < s.length := by omega
    have g2 : s.getD (s.length / 2 - 1) 0 = s[s.length / 2 - 1] := by simp [List.getD, hp2]
    rw [if_neg ho, g1, g2] at hm
    have hle : s[s.length / 2 - 1] ≤ s[s.length / 2] := List.pairwise_iff_getElem.1 hsorted _ _ hp2 hp1 (by omega)
    have := countP_gt_le (m := m) s (s.length / 2 - 1 + 1) (by omega) (fun x hx => by
      have := sorted_take hsorted _ hp2 x hx
      rw [hm]
      linarith)
    omega

/-- the median is not below a bound of all -/
theorem le_median {l : List ℝ} {b : ℝ} (h0 : l ≠ []) (h : ∀ x ∈ l, b ≤ x) : b ≤ median l := by
  classical
  unfold median
  simp only
  have hperm := List.perm_insertionSort (fun a b : ℝ => a ≤ b) l
  have hlen := hperm.length_eq
  have h' : ∀ x ∈ l.insertionSort (fun a b : ℝ => a ≤ b), b ≤ x := fun x hx => h x (hperm.mem_iff.1 hx)
  generalize l.insertionSort (fun a b : ℝ => a ≤ b) = s at *
  have hpos : 0 < l.length := List.length_pos_iff.2 h0
  have hp1 : s.length / 2 < s.length := by omega
  have hp2 : s.length / 2 - 1 < s.length := by omega
  have g1 : s.getD (s.length / 2) 0 = s[s.length / 2] := by simp [List.getD, hp1]
  have g2 : s.getD (s.length / 2 - 1) 0 = s[s.length / 2 - 1] := by simp [List.getD, hp2]
  have e1 := h' _ (List.getElem_mem hp1)
  have e2 := h' _ (List.getElem_mem hp2)
  split
  · rw [g1]; exact e1
  · rw [g1, g2]; linarith

/-- the order does not matter -/
theorem median_perm {l l' : List ℝ} (h : l.Perm l') : median l = median l' := by
  classical
  unfold median
  have : l.insertionSort (fun a b : ℝ => a ≤ b) = l'.insertionSort (fun a b : ℝ => a ≤ b) :=
    List.Perm.eq_of_pairwise (fun a b _ _ h1 h2 => le_antisymm h1 h2) (List.pairwise_insertionSort _ l) (List.pairwise_insertionSort _ l')
      (((List.perm_insertionSort _ l).trans h).trans (List.perm_insertionSort _ l').symm)
  simp only [this]

end Verif.Util
