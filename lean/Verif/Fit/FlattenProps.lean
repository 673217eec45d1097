import Verif.Fit.Flatten
import Mathlib.Tactic.Linarith
/-!
# Properties C09, C10 : the flat parameter vector
-/
namespace Verif.Fit
variable {K V : Type}

/-! ## Specification: dictionaries are compared by what is found under a path of keys -/

/-- what is found under a path: a value or a dictionary -/
inductive Found (V : Type) where
  | val (v : Leaf V)
  | dict
deriving DecidableEq

/-- `d[k1][k2]...` ; `none` is KeyError (or indexing into a number with a key) -/
def PDict.at [DecidableEq K] : PDict K V → List K → Option (Found V)
  | _, [] => some .dict
  | .nil, _ :: _ => none
  | .leaf k v r, k' :: p =>
    if k = k' then (if p = [] then some (.val v) else none) else r.at (k' :: p)
  | .sub k d r, k' :: p => if k = k' then d.at p else r.at (k' :: p)

/-- two dictionaries are equal (`==` in Python ignores the order of the entries) -/
def DictEq [DecidableEq K] (a b : PDict K V) : Prop := ∀ p, a.at p = b.at p

/-- keys of the top level -/
def PDict.keys : PDict K V → List K
  | .nil => []
  | .leaf k _ r => k :: r.keys
  | .sub k _ r => k :: r.keys

/-- keys are unique at every level, as in any Python dictionary -/
def PDict.Unique : PDict K V → Prop
  | .nil => True
  | .leaf k _ r => k ∉ r.keys ∧ r.Unique
  | .sub k d r => k ∉ r.keys ∧ d.Unique ∧ r.Unique

/-- every list value has at least two elements -/
def PDict.Long : PDict K V → Prop
  | .nil => True
  | .leaf _ v r => (match v with | .num _ => True | .vec vs => 2 ≤ vs.length) ∧ r.Long
  | .sub _ d r => d.Long ∧ r.Long

/-! ## Sorting does not change the dictionary -/

theorem at_nil [DecidableEq K] (d : PDict K V) : d.at [] = some .dict := by cases d <;> rfl

theorem at_insLeaf [LinearOrder K] (k : K) (v : Leaf V) (d : PDict K V) (h : k ∉ d.keys) (k' : K) (p : List K) :
    (insLeaf k v d).at (k' :: p) =
      if k = k' then (if p = [] then some (.val v) else none) else d.at (k' :: p) := by
  induction d with
  | nil => simp only [insLeaf, PDict.at]
  | leaf k2 v2 r ih =>
    rw [insLeaf]
    split
    · rw [PDict.at]
    · rw [PDict.keys, List.mem_cons, not_or] at h
      rw [PDict.at, ih h.2, PDict.at]
      by_cases e : k2 = k'
      · have : k ≠ k' := by rw [← e]; exact h.1
        simp [e, this]
      · simp [e]
  | sub k2 d2 r _ ih =>
    rw [insLeaf]
    split
    · rw [PDict.at]
    · rw [PDict.keys, List.mem_cons, not_or] at h
      rw [PDict.at, ih h.2, PDict.at]
      by_cases e : k2 = k'
      · have : k ≠ k' := by rw [← e]; exact h.1
        simp [e, this]
      · simp [e]

theorem at_insSub [LinearOrder K] (k : K) (d' : PDict K V) (d : PDict K V) (h : k ∉ d.keys) (k' : K) (p : List K) :
    (insSub k d' d).at (k' :: p) = if k = k' then d'.at p else d.at (k' :: p) := by
  induction d with
  | nil => simp only [insSub, PDict.at]
  | leaf k2 v2 r ih =>
    rw [insSub]
    split
    · simp only [PDict.at]
    · rw [PDict.keys, List.mem_cons, not_or] at h
      rw [PDict.at, ih h.2, PDict.at]
      by_cases e : k2 = k'
      · have : k ≠ k' := by rw [← e]; exact h.1
        simp [e, this]
      · simp [e]
  | sub k2 d2 r _ ih =>
    rw [insSub]
    split
    · rw [PDict.at]
    · rw [PDict.keys, List.mem_cons, not_or] at h
      rw [PDict.at, ih h.2, PDict.at]
      by_cases e : k2 = k'
      · have : k ≠ k' := by rw [← e]; exact h.1
        simp [e, this]
      · simp [e]

theorem mem_keys_insLeaf [LinearOrder K] (k : K) (v : Leaf V) (d : PDict K V) (x : K) :
    x ∈ (insLeaf k v d).keys ↔ x = k ∨ x ∈ d.keys := by
  induction d with
  | nil => simp [insLeaf, PDict.keys]
  | leaf k2 v2 r ih =>
    rw [insLeaf]; split
    · simp [PDict.keys]
    · simp only [PDict.keys, List.mem_cons, ih]; tauto
  | sub k2 v2 r _ ih =>
    rw [insLeaf]; split
    · simp [PDict.keys]
    · simp only [PDict.keys, List.mem_cons, ih]; tauto

theorem mem_keys_insSub [LinearOrder K] (k : K) (d' : PDict K V) (d : PDict K V) (x : K) :
    x ∈ (insSub k d' d).keys ↔ x = k ∨ x ∈ d.keys := by
  induction d with
  | nil => simp [insSub, PDict.keys]
  | leaf k2 v2 r ih =>
    rw [insSub]; split
    · simp [PDict.keys]
    · simp only [PDict.keys, List.mem_cons, ih]; tauto
  | sub k2 v2 r _ ih =>
    rw [insSub]; split
    · simp [PDict.keys]
    · simp only [PDict.keys, List.mem_cons, ih]; tauto

theorem mem_keys_sortD [LinearOrder K] (d : PDict K V) (x : K) : x ∈ (sortD d).keys ↔ x ∈ d.keys := by
  induction d with
  | nil => simp [sortD]
  | leaf k v r ih => rw [sortD, mem_keys_insLeaf, ih]; simp [PDict.keys]
  | sub k d r _ ih => rw [sortD, mem_keys_insSub, ih]; simp [PDict.keys]

theorem sortD_eq [LinearOrder K] (d : PDict K V) (h : d.Unique) : DictEq (sortD d) d := by
  induction d with
  | nil => intro p; rfl
  | leaf k v r ih =>
    intro p
    cases p with
    | nil => rw [at_nil, at_nil]
    | cons k' p =>
      rw [sortD, at_insLeaf _ _ _ (by rw [mem_keys_sortD]; exact h.1), ih h.2, PDict.at]
  | sub k d r ihd ihr =>
    intro p
    cases p with
    | nil => rw [at_nil, at_nil]
    | cons k' p =>
      rw [sortD, at_insSub _ _ _ (by rw [mem_keys_sortD]; exact h.1), ihr h.2.2, ihd h.2.1, PDict.at]

theorem unique_insLeaf [LinearOrder K] (k : K) (v : Leaf V) (d : PDict K V) (h : k ∉ d.keys) (hu : d.Unique) :
    (insLeaf k v d).Unique := by
  induction d with
  | nil => exact ⟨by simp [PDict.keys], trivial⟩
  | leaf k2 v2 r ih =>
    rw [insLeaf]; split
    · exact ⟨h, hu⟩
    · rw [PDict.keys, List.mem_cons, not_or] at h
      refine ⟨?_, ih h.2 hu.2⟩
      rw [mem_keys_insLeaf]; rintro (e | e)
      · exact h.1 e.symm
      · exact hu.1 e
  | sub k2 v2 r _ ih =>
    rw [insLeaf]; split
    · exact ⟨h, hu⟩
    · rw [PDict.keys, List.mem_cons, not_or] at h
      refine ⟨?_, hu.2.1, ih h.2 hu.2.2⟩
      rw [mem_keys_insLeaf]; rintro (e | e)
      · exact h.1 e.symm
      · exact hu.1 e

theorem unique_insSub [LinearOrder K] (k : K) (d' : PDict K V) (d : PDict K V) (h : k ∉ d.keys)
    (hu : d.Unique) (hd' : d'.Unique) : (insSub k d' d).Unique := by
  induction d with
  | nil => exact ⟨by simp [PDict.keys], hd', trivial⟩
  | leaf k2 v2 r ih =>
    rw [insSub]; split
    · exact ⟨h, hd', hu⟩
    · rw [PDict.keys, List.mem_cons, not_or] at h
      refine ⟨?_, ih h.2 hu.2⟩
      rw [mem_keys_insSub]; rintro (e | e)
      · exact h.1 e.symm
      · exact hu.1 e
  | sub k2 v2 r _ ih =>
    rw [insSub]; split
    · exact ⟨h, hd', hu⟩
    · rw [PDict.keys, List.mem_cons, not_or] at h
      refine ⟨?_, hu.2.1, ih h.2 hu.2.2⟩
      rw [mem_keys_insSub]; rintro (e | e)
      · exact h.1 e.symm
      · exact hu.1 e

theorem unique_sortD [LinearOrder K] (d : PDict K V) (h : d.Unique) : (sortD d).Unique := by
  induction d with
  | nil => trivial
  | leaf k v r ih => exact unique_insLeaf _ _ _ (by rw [mem_keys_sortD]; exact h.1) (ih h.2)
  | sub k d r ihd ih =>
    exact unique_insSub _ _ _ (by rw [mem_keys_sortD]; exact h.1) (ih h.2.2) (ihd h.2.1)

theorem long_insLeaf [LinearOrder K] (k : K) (v : Leaf V) (d : PDict K V)
    (hv : match v with | .num _ => True | .vec vs => 2 ≤ vs.length) (hu : d.Long) :
    (insLeaf k v d).Long := by
  induction d with
  | nil => exact ⟨hv, trivial⟩
  | leaf k2 v2 r ih =>
    rw [insLeaf]; split
    · exact ⟨hv, hu⟩
    · exact ⟨hu.1, ih hu.2⟩
  | sub k2 v2 r _ ih =>
    rw [insLeaf]; split
    · exact ⟨hv, hu⟩
    · exact ⟨hu.1, ih hu.2⟩

theorem long_insSub [LinearOrder K] (k : K) (d' : PDict K V) (d : PDict K V) (hd : d'.Long) (hu : d.Long) :
    (insSub k d' d).Long := by
  induction d with
  | nil => exact ⟨hd, trivial⟩
  | leaf k2 v2 r ih =>
    rw [insSub]; split
    · exact ⟨hd, hu⟩
    · exact ⟨hu.1, ih hu.2⟩
  | sub k2 v2 r _ ih =>
    rw [insSub]; split
    · exact ⟨hd, hu⟩
    · exact ⟨hu.1, ih hu.2⟩

theorem long_sortD [LinearOrder K] (d : PDict K V) (h : d.Long) : (sortD d).Long := by
  induction d with
  | nil => trivial
  | leaf k v r ih => exact long_insLeaf _ _ _ h.1 (ih h.2)
  | sub k d r ihd ih => exact long_insSub _ _ _ (ihd h.1) (ih h.2)

/-! ## The loop -/

/-- all numbers in visiting order -/
def PDict.numbers : PDict K V → List V
  | .nil => []
  | .leaf _ v r => v.elems ++ r.numbers
  | .sub _ d r => d.numbers ++ r.numbers

/-- the key list of a dictionary whose numbers start at `n` -/
def keyList (n : Nat) : PDict K V → KDict K
  | .nil => .nil
  | .leaf k v r => .leaf k n v.elems.length (keyList (n + v.elems.length) r)
  | .sub k d r => .sub k (keyList n d) (keyList (n + d.numbers.length) r)

theorem flatLoop_eq (d : PDict K V) (acc : List V) :
    flatLoop acc d = (acc ++ d.numbers, keyList acc.length d) := by
  induction d generalizing acc with
  | nil => simp [flatLoop, PDict.numbers, keyList]
  | leaf k v r ih => simp [flatLoop, PDict.numbers, keyList, ih]
  | sub k d r ihd ihr => simp [flatLoop, PDict.numbers, keyList, ihd, ihr]

theorem readLeaf_mid (pre post : List V) (v : Leaf V)
    (hv : match v with | .num _ => True | .vec vs => 2 ≤ vs.length) :
    readLeaf (pre ++ (v.elems ++ post)) pre.length v.elems.length = some v := by
  cases v with
  | num v => simp [readLeaf, Leaf.elems]
  | vec vs =>
    have : 1 < vs.length := hv
    simp [readLeaf, Leaf.elems, this]

theorem reconstruct_keyList (d : PDict K V) (h : d.Long) (pre post : List V) :
    reconstructPrms (pre ++ (d.numbers ++ post)) (keyList pre.length d) = some d := by
  induction d generalizing pre post with
  | nil => rfl
  | leaf k v r ih =>
    rw [keyList, reconstructPrms]
    simp only [PDict.numbers, List.append_assoc]
    rw [readLeaf_mid _ _ _ h.1]
    have := ih h.2 (pre ++ v.elems) post
    simp only [List.length_append, List.append_assoc] at this
    simp only [Option.bind_eq_bind, Option.bind_some]
    rw [this]; rfl
  | sub k d r ihd ihr =>
    rw [keyList, reconstructPrms]
    simp only [PDict.numbers, List.append_assoc]
    rw [ihd h.1]
    have := ihr h.2 (pre ++ d.numbers) post
    simp only [List.length_append, List.append_assoc] at this
    simp only [Option.bind_eq_bind, Option.bind_some]
    rw [this]; rfl

/-- C09 (for lists of two or more numbers): reconstructing the flattened dictionary gives it back.
Missing: lists of length 0 and 1, for which the claim is false, see the next two theorems. -/
theorem c09_roundtrip_partial [LinearOrder K] (d : PDict K V) (hu : d.Unique) (hl : d.Long) :
    ∃ d', reconstructPrms (flattenPrms d).1 (flattenPrms d).2 = some d' ∧ DictEq d' d := by
  refine ⟨sortD d, ?_, sortD_eq d hu⟩
  unfold flattenPrms
  rw [flatLoop_eq]
  have := reconstruct_keyList (sortD d) (long_sortD d hl) [] []
  simpa using this

/-- C09: every number of the dictionary is in the vector, in the order of the sorted keys, and nothing
else; this holds for lists of any length. -/
theorem c09_vector_complete [LinearOrder K] (d : PDict K V) :
    (flattenPrms d).1 = (sortD d).numbers := by
  unfold flattenPrms; rw [flatLoop_eq]; rfl

/-- C09 is false for a list of one number: it comes back as a bare number. -/
theorem c09_singleton_violated (v : V) :
    let d : PDict Nat V := .leaf 0 (.vec [v]) .nil
    reconstructPrms (flattenPrms d).1 (flattenPrms d).2 = some (.leaf 0 (.num v) .nil) := rfl

/-- C09 is false for an empty list: alone it raises IndexError, and followed by another parameter it comes back
as that other parameter's value. -/
theorem c09_empty_violated (v : V) :
    (let d : PDict Nat V := .leaf 0 (.vec []) .nil
     reconstructPrms (flattenPrms d).1 (flattenPrms d).2 = none) ∧
    (let d : PDict Nat V := .leaf 0 (.vec []) (.leaf 1 (.num v) .nil)
     reconstructPrms (flattenPrms d).1 (flattenPrms d).2 = some (.leaf 0 (.num v) (.leaf 1 (.num v) .nil))) :=
  ⟨rfl, rfl⟩

/-- a dictionary out of order with nested dictionaries meets the hypotheses -/
example : let d : PDict Nat Nat := .sub 7 (.leaf 2 (.num 5) (.leaf 1 (.vec [3, 4]) .nil)) (.leaf 3 (.num 9) .nil)
    d.Unique ∧ d.Long ∧ (flattenPrms d).1 = [9, 3, 4, 5] := by
  simp only
  refine ⟨?_, ?_, by decide⟩
  · simp [PDict.Unique, PDict.keys]
  · simp [PDict.Long]

/-! ## C10 -/

/-- the slices of the key list with the path they belong to -/
def KDict.slices (pre : List K) : KDict K → List (List K × Nat × Nat)
  | .nil => []
  | .leaf k i L r => (pre ++ [k], i, L) :: r.slices pre
  | .sub k d r => d.slices (pre ++ [k]) ++ r.slices pre

/-- consecutive slices: each starts where the previous one ended, from `n` to `m` -/
def Tiles (n : Nat) : List (List K × Nat × Nat) → Nat → Prop
  | [], m => n = m
  | (_, i, L) :: t, m => i = n ∧ Tiles (n + L) t m

theorem tiles_append {n m k : Nat} {a b : List (List K × Nat × Nat)} (h1 : Tiles n a m) (h2 : Tiles m b k) :
    Tiles n (a ++ b) k := by
  induction a generalizing n with
  | nil => have : n = m := h1; subst this; exact h2
  | cons x a ih => obtain ⟨p, i, L⟩ := x; exact ⟨h1.1, ih h1.2⟩

theorem tiles_keyList (d : PDict K V) (n : Nat) (pre : List K) :
    Tiles n ((keyList n d).slices pre) (n + d.numbers.length) := by
  induction d generalizing n pre with
  | nil => simp [keyList, KDict.slices, Tiles, PDict.numbers]
  | leaf k v r ih =>
    simp only [keyList, KDict.slices, Tiles, PDict.numbers, true_and, List.length_append]
    have := ih (n + v.elems.length) pre
    rw [Nat.add_assoc] at this; exact this
  | sub k d r ihd ihr =>
    simp only [keyList, KDict.slices, PDict.numbers, List.length_append]
    refine tiles_append (ihd n _) ?_
    have := ihr (n + d.numbers.length) pre
    rw [Nat.add_assoc] at this; exact this

/-- C10: the slices of distinct parameters are disjoint and cover the vector: listed in order, each begins
exactly where the previous one ends, the first at 0 and the last ending at the length of the vector. -/
theorem c10_slices_tile [LinearOrder K] (d : PDict K V) :
    Tiles 0 ((flattenPrms d).2.slices []) (flattenPrms d).1.length := by
  unfold flattenPrms
  rw [flatLoop_eq]
  have := tiles_keyList (sortD d) 0 []
  simpa using this

/-- a value with element `j` replaced -/
def Leaf.setElem (v : Leaf V) (j : Nat) (x : V) : Leaf V :=
  match v with
  | .num v => .num (if j = 0 then x else v)
  | .vec vs => .vec (vs.set j x)

/-- the dictionary with its number at position `k` (in visiting order) replaced -/
def setNum (x : V) : Nat → PDict K V → PDict K V
  | _, .nil => .nil
  | n, .leaf k v r =>
    if n < v.elems.length then .leaf k (v.setElem n x) r else .leaf k v (setNum x (n - v.elems.length) r)
  | n, .sub k d r =>
    if n < d.numbers.length then .sub k (setNum x n d) r
    else .sub k d (setNum x (n - d.numbers.length) r)

theorem elems_setElem (v : Leaf V) (j : Nat) (x : V) (h : j < v.elems.length) :
    (v.setElem j x).elems = v.elems.set j x := by
  cases v with
  | num v =>
    have : j = 0 := by simp [Leaf.elems] at h; exact h
    subst this; simp [Leaf.setElem, Leaf.elems]
  | vec vs => rfl

theorem numbers_setNum (x : V) (n : Nat) (d : PDict K V) :
    (setNum x n d).numbers = d.numbers.set n x := by
  induction d generalizing n with
  | nil => simp [setNum, PDict.numbers]
  | leaf k v r ih =>
    rw [setNum]
    split
    · rename_i h
      rw [PDict.numbers, PDict.numbers, elems_setElem _ _ _ h, List.set_append_left _ _ h]
    · rename_i h
      rw [PDict.numbers, PDict.numbers, ih, List.set_append_right _ _ (by omega)]
  | sub k d r ihd ihr =>
    rw [setNum]
    split
    · rename_i h
      rw [PDict.numbers, PDict.numbers, ihd, List.set_append_left _ _ h]
    · rename_i h
      rw [PDict.numbers, PDict.numbers, ihr, List.set_append_right _ _ (by omega)]

theorem keyList_setNum (x : V) (n m : Nat) (d : PDict K V) :
    keyList m (setNum x n d) = keyList m d := by
  induction d generalizing n m with
  | nil => simp [setNum]
  | leaf k v r ih =>
    rw [setNum]
    split
    · rename_i h
      simp [keyList, elems_setElem _ _ _ h]
    · simp [keyList, ih]
  | sub k d r ihd ihr =>
    rw [setNum]
    split
    · simp [keyList, ihd, numbers_setNum]
    · simp [keyList, ihr]

theorem long_setNum (x : V) (n : Nat) (d : PDict K V) (h : d.Long) : (setNum x n d).Long := by
  induction d generalizing n with
  | nil => exact h
  | leaf k v r ih =>
    rw [setNum]
    split
    · refine ⟨?_, h.2⟩
      have := h.1
      cases v with
      | num v => trivial
      | vec vs => simpa [Leaf.setElem] using this
    · exact ⟨h.1, ih _ h.2⟩
  | sub k d r ihd ihr =>
    rw [setNum]
    split
    · exact ⟨ihd _ h.1, h.2⟩
    · exact ⟨h.1, ihr _ h.2⟩

theorem at_mem_keys [DecidableEq K] (d : PDict K V) (k : K) (p : List K) (f : Found V)
    (h : d.at (k :: p) = some f) : k ∈ d.keys := by
  induction d with
  | nil => cases h
  | leaf k2 v r ih =>
    rw [PDict.at] at h
    by_cases e : k2 = k
    · simp [PDict.keys, e]
    · rw [if_neg e] at h
      simp [PDict.keys, ih h]
  | sub k2 d r _ ih =>
    rw [PDict.at] at h
    by_cases e : k2 = k
    · simp [PDict.keys, e]
    · rw [if_neg e] at h
      simp [PDict.keys, ih h]

theorem setNum_at [DecidableEq K] (x : V) (n : Nat) (d : PDict K V) (hu : d.Unique)
    (hn : n < d.numbers.length) :
    ∃ k0 p0 v0 j, d.at (k0 :: p0) = some (.val v0) ∧ j < v0.elems.length ∧
      (setNum x n d).at (k0 :: p0) = some (.val (v0.setElem j x)) ∧
      ∀ p, p ≠ k0 :: p0 → (setNum x n d).at p = d.at p := by
  induction d generalizing n with
  | nil => simp [PDict.numbers] at hn
  | leaf k v r ih =>
    rw [setNum]
    split
    · rename_i h
      refine ⟨k, [], v, n, by simp [PDict.at], h, by simp [PDict.at], ?_⟩
      intro p hp
      cases p with
      | nil => simp [at_nil]
      | cons k' p =>
        simp only [PDict.at]
        by_cases e : k = k'
        · subst e
          by_cases ep : p = []
          · subst ep; exact absurd rfl hp
          · simp [ep]
        · simp [e]
    · rename_i h
      rw [PDict.numbers, List.length_append] at hn
      obtain ⟨k0, p0, v0, j, h1, h2, h3, h4⟩ := ih (n - v.elems.length) hu.2 (by omega)
      have hk : k ≠ k0 := by
        intro e; subst e; exact hu.1 (at_mem_keys _ _ _ _ h1)
      refine ⟨k0, p0, v0, j, by simp [PDict.at, hk, h1], h2, by simp [PDict.at, hk, h3], ?_⟩
      intro p hp
      cases p with
      | nil => simp [at_nil]
      | cons k' p => simp only [PDict.at]; rw [h4 _ hp]
  | sub k d r ihd ihr =>
    rw [setNum]
    split
    · rename_i h
      obtain ⟨k0, p0, v0, j, h1, h2, h3, h4⟩ := ihd n hu.2.1 h
      refine ⟨k, k0 :: p0, v0, j, by simp [PDict.at, h1], h2, by simp [PDict.at, h3], ?_⟩
      intro p hp
      cases p with
      | nil => simp [at_nil]
      | cons k' p =>
        simp only [PDict.at]
        by_cases e : k = k'
        · subst e
          simp only [if_true]
          exact h4 p (fun e => hp (by rw [e]))
        · simp [e]
    · rename_i h
      rw [PDict.numbers, List.length_append] at hn
      obtain ⟨k0, p0, v0, j, h1, h2, h3, h4⟩ := ihr (n - d.numbers.length) hu.2.2 (by omega)
      have hk : k ≠ k0 := by
        intro e; subst e; exact hu.1 (at_mem_keys _ _ _ _ h1)
      refine ⟨k0, p0, v0, j, by simp [PDict.at, hk, h1], h2, by simp [PDict.at, hk, h3], ?_⟩
      intro p hp
      cases p with
      | nil => simp [at_nil]
      | cons k' p => simp only [PDict.at]; rw [h4 _ hp]

/-- C10: altering one element of the vector alters exactly one element of one parameter: there is a parameter
`path`, with value `v0` before, whose element `j` is now `x`, and everything found under any other path is
unchanged. -/
theorem c10_noninterference [LinearOrder K] (d : PDict K V) (hu : d.Unique) (hl : d.Long)
    (n : Nat) (hn : n < (flattenPrms d).1.length) (x : V) :
    ∃ d' path v0 j, reconstructPrms ((flattenPrms d).1.set n x) (flattenPrms d).2 = some d' ∧
      d.at path = some (.val v0) ∧ j < v0.elems.length ∧ d'.at path = some (.val (v0.setElem j x)) ∧
      ∀ p, p ≠ path → d'.at p = d.at p := by
  have e : flattenPrms d = ((sortD d).numbers, keyList 0 (sortD d)) := by
    unfold flattenPrms; rw [flatLoop_eq]; rfl
  rw [e] at hn ⊢
  obtain ⟨k0, p0, v0, j, h1, h2, h3, h4⟩ := setNum_at x n (sortD d) (unique_sortD d hu) hn
  refine ⟨setNum x n (sortD d), k0 :: p0, v0, j, ?_, by rw [← sortD_eq d hu, h1], h2, h3, ?_⟩
  · have := reconstruct_keyList (setNum x n (sortD d)) (long_setNum x n _ (long_sortD d hl)) [] []
    simpa [keyList_setNum, numbers_setNum] using this
  · intro p hp
    rw [h4 p hp, sortD_eq d hu]

example : let d : PDict Nat Nat := .sub 7 (.leaf 2 (.num 5) (.leaf 1 (.vec [3, 4]) .nil)) (.leaf 3 (.num 9) .nil)
    1 < (flattenPrms d).1.length ∧ d.Unique ∧ d.Long := by
  refine ⟨by decide, ?_, ?_⟩
  · simp [PDict.Unique, PDict.keys]
  · simp [PDict.Long]

end Verif.Fit
