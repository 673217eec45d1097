/-!
# Python dictionaries

A `dict` is an association list in insertion order with unique keys.
-/
namespace Verif.Util
variable {K V : Type} [DecidableEq K]

/-- `d.get(k)` -/
def dget (k : K) : List (K × V) → Option V
  | [] => none
  | (k', v) :: d => if k' = k then some v else dget k d

/-- `d[k] = v` : replaces in place or appends -/
def dset (k : K) (v : V) : List (K × V) → List (K × V)
  | [] => [(k, v)]
  | (k', v') :: d => if k' = k then (k, v) :: d else (k', v') :: dset k v d

theorem dget_dset_self (k : K) (v : V) (d : List (K × V)) : dget k (dset k v d) = some v := by
  induction d with
  | nil => simp [dget, dset]
  | cons e d ih =>
    obtain ⟨k', v'⟩ := e
    rw [dset]
    split
    · simp [dget]
    · rename_i h; rw [dget, if_neg h, ih]

theorem dget_dset_ne {k k' : K} (h : k ≠ k') (v : V) (d : List (K × V)) :
    dget k' (dset k v d) = dget k' d := by
  induction d with
  | nil => simp [dget, dset, h]
  | cons e d ih =>
    obtain ⟨k2, v2⟩ := e
    rw [dset]
    split
    · rename_i e; subst e; simp [dget, h]
    · rw [dget, dget, ih]

theorem dget_dset (k k' : K) (v : V) (d : List (K × V)) :
    dget k' (dset k v d) = if k = k' then some v else dget k' d := by
  split
  · rename_i e; subst e; exact dget_dset_self _ _ _
  · rename_i e; exact dget_dset_ne e _ _

theorem keys_dset (k : K) (v : V) (d : List (K × V)) :
    (dset k v d).map Prod.fst = if k ∈ d.map Prod.fst then d.map Prod.fst else d.map Prod.fst ++ [k] := by
  induction d with
  | nil => simp [dset]
  | cons e d ih =>
    obtain ⟨k2, v2⟩ := e
    rw [dset]
    split
    · rename_i e; subst e; simp
    · rename_i e
      have e' : ¬ k = k2 := fun h => e h.symm
      simp only [List.map_cons, ih, List.mem_cons, e', false_or]
      split <;> simp

/-- keys stay unique -/
theorem nodup_dset (k : K) (v : V) (d : List (K × V)) (h : (d.map Prod.fst).Nodup) :
    ((dset k v d).map Prod.fst).Nodup := by
  rw [keys_dset]
  split
  · exact h
  · rename_i hn
    rw [List.nodup_append]
    refine ⟨h, by simp, ?_⟩
    intro a ha b hb
    simp at hb; subst hb
    intro e; subst e; exact hn ha

theorem dget_isSome (k : K) (d : List (K × V)) : (dget k d).isSome = true ↔ k ∈ d.map Prod.fst := by
  induction d with
  | nil => simp [dget]
  | cons e d ih =>
    obtain ⟨k2, v2⟩ := e
    rw [dget]
    split
    · rename_i e; subst e; simp
    · rename_i e
      have e' : ¬ k = k2 := fun h => e h.symm
      simp [ih, e']

theorem dget_none (k : K) (d : List (K × V)) : dget k d = none ↔ k ∉ d.map Prod.fst := by
  rw [← dget_isSome]; cases dget k d <;> simp

theorem dget_mem {k : K} {v : V} {d : List (K × V)} (h : dget k d = some v) : (k, v) ∈ d := by
  induction d with
  | nil => cases h
  | cons e d ih =>
    obtain ⟨k2, v2⟩ := e
    rw [dget] at h
    split at h
    · rename_i e; subst e; cases h; simp
    · exact List.mem_cons_of_mem _ (ih h)

theorem dget_of_mem {k : K} {v : V} {d : List (K × V)} (hn : (d.map Prod.fst).Nodup) (h : (k, v) ∈ d) :
    dget k d = some v := by
  induction d with
  | nil => cases h
  | cons e d ih =>
    obtain ⟨k2, v2⟩ := e
    rw [List.map_cons, List.nodup_cons] at hn
    rw [dget]
    rcases List.mem_cons.1 h with h | h
    · cases h; simp
    · split
      · rename_i e; subst e
        exact absurd (List.mem_map_of_mem (f := Prod.fst) h) hn.1
      · exact ih hn.2 h

theorem dset_absent (k : K) (v : V) (d : List (K × V)) (h : k ∉ d.map Prod.fst) : dset k v d = d ++ [(k, v)] := by
  induction d with
  | nil => rfl
  | cons e d ih =>
    obtain ⟨k2, v2⟩ := e
    simp only [List.map_cons, List.mem_cons, not_or] at h
    rw [dset, if_neg (fun e => h.1 e.symm), ih h.2]; rfl

/-- updating with entries whose keys are all new appends them -/
theorem foldl_dset_append (es d : List (K × V)) (h : ((d ++ es).map Prod.fst).Nodup) :
    es.foldl (fun d e => dset e.1 e.2 d) d = d ++ es := by
  induction es generalizing d with
  | nil => simp
  | cons e es ih =>
    rw [List.foldl_cons]
    have h2 : e.1 ∉ d.map Prod.fst := by
      intro hm
      rw [List.map_append, List.nodup_append] at h
      exact h.2.2 _ hm e.1 (by simp) rfl
    rw [dset_absent _ _ _ h2, ih]
    · simp
    · simpa using h

end Verif.Util
