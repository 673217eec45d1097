import Verif.Codes.Props
/-!
# Property C13 : `AntennaArray.bl_indices`
-/
namespace Verif.Phs
open Verif.Codes

/-- `range(a, b)` -/
def pyRange (a b : Nat) : List Nat := (List.range (b - a)).map (· + a)

/-- `[self.ij2bl(i,j) for i in range(n) for j in range(i+d, n)]`, phs.py 288-290 (`d = 0`) and 293-295
(`d = 1`) -/
def blFrom (n d : Nat) : List Int :=
  (List.range n).flatMap (fun i => (pyRange (i + d) n).map (fun (j : Nat) => ij2bl i j))

/-- `AntennaArray.bl_indices`, phs.py 285-296; `n` is `len(self)`. -/
def blIndices (n : Nat) (auto cross : Bool) : List Int :=
  if auto then
    if cross then blFrom n 0
    else (List.range n).map (fun (i : Nat) => ij2bl i i)
  else
    if cross then blFrom n 1
    else []

/-! ## Specification -/

/-- the antenna pairs asked for -/
def wanted (n : Nat) (auto cross : Bool) (i j : Nat) : Prop :=
  i ≤ j ∧ j < n ∧ ((auto = true ∧ i = j) ∨ (cross = true ∧ i ≠ j))

/-! ## Lemmas -/

theorem mem_pyRange (a b x : Nat) : x ∈ pyRange a b ↔ a ≤ x ∧ x < b := by
  unfold pyRange
  simp only [List.mem_map, List.mem_range]
  constructor
  · rintro ⟨y, h, rfl⟩; omega
  · intro h; exact ⟨x - a, by omega, by omega⟩

theorem nodup_pyRange (a b : Nat) : (pyRange a b).Nodup := by
  unfold pyRange
  refine List.Pairwise.map _ (fun x y h e => h ?_) (List.nodup_range (n := b - a))
  omega

theorem mem_blFrom (n d : Nat) (b : Int) :
    b ∈ blFrom n d ↔ ∃ i j : Nat, i + d ≤ j ∧ i < n ∧ j < n ∧ b = ij2bl i j := by
  unfold blFrom
  simp only [List.mem_flatMap, List.mem_range, List.mem_map, mem_pyRange]
  constructor
  · rintro ⟨i, hi, j, ⟨h1, h2⟩, rfl⟩; exact ⟨i, j, h1, hi, h2, rfl⟩
  · rintro ⟨i, j, h1, hi, h2, rfl⟩; exact ⟨i, hi, j, ⟨h1, h2⟩, rfl⟩

theorem valid_of_lt {n i : Nat} (hn : n ≤ 2047) (h : i < n) : ValidAnt (i : Int) := by
  unfold ValidAnt; omega

theorem nodup_flatMap_of {α β : Type} (f : α → List β) (l : List α) (h1 : ∀ a ∈ l, (f a).Nodup)
    (h2 : l.Pairwise (fun a b => ∀ x ∈ f a, ∀ y ∈ f b, x ≠ y)) : (l.flatMap f).Nodup := by
  induction l with
  | nil => simp
  | cons a l ih =>
    rw [List.flatMap_cons, List.nodup_append]
    rw [List.pairwise_cons] at h2
    refine ⟨h1 a (by simp), ih (fun b hb => h1 b (by simp [hb])) h2.2, ?_⟩
    intro x hx y hy
    rw [List.mem_flatMap] at hy
    obtain ⟨b, hb, hy⟩ := hy
    exact h2.1 b hb x hx y hy

theorem nodup_blFrom (n d : Nat) (hn : n ≤ 2047) : (blFrom n d).Nodup := by
  unfold blFrom
  apply nodup_flatMap_of
  · intro i hi
    rw [List.mem_range] at hi
    have : ∀ l : List Nat, l.Nodup → (∀ x ∈ l, i + d ≤ x ∧ x < n) → (l.map (fun j : Nat => ij2bl i j)).Nodup := by
      intro l
      induction l with
      | nil => intros; simp
      | cons a l ih =>
        intro hl hm
        rw [List.nodup_cons] at hl
        rw [List.map_cons, List.nodup_cons]
        refine ⟨?_, ih hl.2 (fun x hx => hm x (by simp [hx]))⟩
        rw [List.mem_map]
        rintro ⟨b, hb, e⟩
        have ha := hm a (by simp)
        have hb' := hm b (by simp [hb])
        have := c02_injective _ _ _ _ (valid_of_lt hn hi) (valid_of_lt hn hb'.2) (valid_of_lt hn hi)
          (valid_of_lt hn ha.2) e
        have : b = a := by omega
        subst this; exact hl.1 hb
    exact this _ (nodup_pyRange _ _) (fun x hx => (mem_pyRange _ _ _).1 hx)
  · refine List.Pairwise.imp_of_mem ?_ (List.nodup_range (n := n))
    intro i k hi hk hne x hx y hy e
    rw [List.mem_map] at hx hy
    obtain ⟨j, hj, rfl⟩ := hx
    obtain ⟨l, hl, rfl⟩ := hy
    rw [mem_pyRange] at hj hl
    rw [List.mem_range] at hi hk
    have := c02_injective _ _ _ _ (valid_of_lt hn hi) (valid_of_lt hn hj.2) (valid_of_lt hn hk)
      (valid_of_lt hn hl.2) e
    omega

theorem length_blFrom (n d : Nat) : (blFrom n d).length = ((List.range n).map (fun i => n - (i + d))).sum := by
  unfold blFrom
  rw [List.length_flatMap]
  congr 1
  apply List.map_congr_left
  intro i _
  simp [pyRange]

theorem sum_tail (n d m : Nat) : m + d ≤ n →
    2 * ((List.range m).map (fun i => n - (i + d))).sum + m * m + 2 * (m * d) = m * (2 * n + 1) := by
  induction m with
  | zero => intro; simp
  | succ m ih =>
    intro h
    have := ih (by omega)
    rw [List.range_succ, List.map_append, List.sum_append]
    simp only [List.map_cons, List.map_nil, List.sum_cons, List.sum_nil]
    have e1 : (m + 1) * (m + 1) = m * m + 2 * m + 1 := by rw [Nat.add_mul, Nat.mul_add]; omega
    have e2 : (m + 1) * d = m * d + d := by rw [Nat.add_mul]; omega
    have e3 : (m + 1) * (2 * n + 1) = m * (2 * n + 1) + (2 * n + 1) := by rw [Nat.add_mul]; omega
    rw [e1, e2, e3]
    omega

/-! ## Properties -/

/-- C13: exactly the wanted baselines are listed. -/
theorem c13_members (n : Nat) (auto cross : Bool) (b : Int) :
    b ∈ blIndices n auto cross ↔ ∃ i j : Nat, wanted n auto cross i j ∧ b = ij2bl i j := by
  unfold wanted
  cases auto <;> cases cross <;> simp only [blIndices, if_true, if_false, Bool.false_eq_true]
  · simp
  · rw [mem_blFrom]
    constructor
    · rintro ⟨i, j, h1, h2, h3, rfl⟩
      exact ⟨i, j, ⟨by omega, h3, Or.inr ⟨trivial, by omega⟩⟩, rfl⟩
    · rintro ⟨i, j, ⟨h1, h2, h3⟩, rfl⟩
      have h4 : i ≠ j := by rcases h3 with ⟨h, _⟩ | ⟨_, h⟩; exact h.elim; exact h
      exact ⟨i, j, by omega, by omega, h2, rfl⟩
  · simp only [List.mem_map, List.mem_range]
    constructor
    · rintro ⟨i, h, rfl⟩; exact ⟨i, i, ⟨Nat.le_refl _, h, Or.inl ⟨trivial, rfl⟩⟩, rfl⟩
    · rintro ⟨i, j, ⟨h1, h2, h3⟩, rfl⟩
      have h4 : i = j := by rcases h3 with ⟨_, h⟩ | ⟨h, _⟩; exact h; exact h.elim
      subst h4; exact ⟨i, h2, rfl⟩
  · rw [mem_blFrom]
    constructor
    · rintro ⟨i, j, h1, h2, h3, rfl⟩
      refine ⟨i, j, ⟨by omega, h3, ?_⟩, rfl⟩
      by_cases e : i = j
      · exact Or.inl ⟨trivial, e⟩
      · exact Or.inr ⟨trivial, e⟩
    · rintro ⟨i, j, ⟨h1, h2, _⟩, rfl⟩
      exact ⟨i, j, by omega, by omega, h2, rfl⟩

/-- C13: no baseline is listed twice (arrays of up to 2047 antennas). -/
theorem c13_nodup (n : Nat) (hn : n ≤ 2047) (auto cross : Bool) : (blIndices n auto cross).Nodup := by
  cases auto <;> cases cross <;> simp only [blIndices, if_true, if_false, Bool.false_eq_true]
  · simp
  · exact nodup_blFrom n 1 hn
  · refine List.Pairwise.map _ ?_ (List.Pairwise.imp_of_mem (S := fun a b : Nat => a < n ∧ b < n ∧ a ≠ b) ?_
      (List.nodup_range (n := n)))
    · intro a b ⟨h1, h2, h3⟩ e
      have := c02_injective _ _ _ _ (valid_of_lt hn h1) (valid_of_lt hn h1) (valid_of_lt hn h2) (valid_of_lt hn h2) e
      omega
    · intro a b ha hb h
      rw [List.mem_range] at ha hb
      exact ⟨ha, hb, h⟩
  · exact nodup_blFrom n 0 hn

/-- C13: how many baselines. -/
theorem c13_counts (n : Nat) :
    2 * (blIndices n true true).length = n * (n + 1) ∧
    2 * (blIndices n false true).length = n * (n - 1) ∧
    (blIndices n true false).length = n ∧ blIndices n false false = [] := by
  refine ⟨?_, ?_, by simp [blIndices], rfl⟩
  · simp only [blIndices, if_true, length_blFrom]
    have := sum_tail n 0 n (by omega)
    have e : n * (2 * n + 1) = n * n + n * (n + 1) := by
      rw [← Nat.mul_add]; congr 1; omega
    rw [e] at this
    simp only [Nat.mul_zero, Nat.add_zero] at this ⊢
    omega
  · simp only [blIndices, if_true, if_false, Bool.false_eq_true, length_blFrom]
    cases n with
    | zero => simp
    | succ n =>
      have := sum_tail (n + 1) 1 n (by omega)
      rw [List.range_succ, List.map_append, List.sum_append]
      simp only [List.map_cons, List.map_nil, List.sum_cons, List.sum_nil, Nat.sub_self, Nat.add_zero,
        Nat.add_sub_cancel]
      have e : n * (2 * (n + 1) + 1) = n * n + 2 * (n * 1) + n * (n + 1) := by
        rw [← Nat.mul_assoc 2 n 1, Nat.mul_comm 2 n, Nat.mul_assoc n 2 1, ← Nat.mul_add, ← Nat.mul_add]
        congr 1; omega
      rw [e] at this
      rw [Nat.mul_comm (n + 1) n]
      omega

/-- C13: decoding the listed numbers gives the wanted pairs, lower antenna first. -/
theorem c13_decode (n : Nat) (hn : n ≤ 2047) (auto cross : Bool) (b : Int) (h : b ∈ blIndices n auto cross) :
    ∃ i j : Nat, wanted n auto cross i j ∧ bl2ij b = ((i : Int), (j : Int)) := by
  rw [c13_members] at h
  obtain ⟨i, j, hw, rfl⟩ := h
  refine ⟨i, j, hw, ?_⟩
  obtain ⟨h1, h2, _⟩ := hw
  rw [c01_roundtrip _ _ (valid_of_lt hn (by omega)) (valid_of_lt hn h2)]
  congr 1 <;> omega

example : blIndices 3 true true = [257, 258, 259, 514, 515, 771] := by decide
example : blIndices 3 false true = [258, 259, 515] := by decide
example : wanted 3 false true 0 2 := ⟨by decide, by decide, Or.inr ⟨rfl, by decide⟩⟩

end Verif.Phs
