import Verif.Mir.Pipe
import Mathlib.Data.List.Perm.Subperm

/-!
# Writing never fails as long as the names and types of the variables make sense, for property C51
-/
namespace Verif.Mir.Uv

open Verif.Mir.Hio (Byte)

/-- the names in use and their types -/
structure Scheme where
  names : List Name
  ty : Name → Ty
  few : names.length ≤ 128
  short : ∀ n ∈ names, n.length ≤ MAXNAM

/-- the variables of a writer are among those of the scheme -/
structure Typed (σ : Scheme) (w : Writer) : Prop where
  vars : ∀ v ∈ w.vars, v.name ∈ σ.names ∧ v.ty = σ.ty v.name
  nodup : (w.vars.map (·.name)).Nodup

/-- a call that fits the scheme -/
def EvIn (σ : Scheme) : Ev → Prop
  | .put n ty _ => n ∈ σ.names ∧ ty = σ.ty n
  | .noCheck n ty => n ∈ σ.names ∧ ty = σ.ty n
  | .next => True
  | .reopen => True

theorem Typed.length {σ : Scheme} {w : Writer} (h : Typed σ w) : w.vars.length ≤ σ.names.length := by
  have hs : (w.vars.map (·.name)) ⊆ σ.names := by
    intro n hn
    obtain ⟨v, hv, rfl⟩ := List.mem_map.1 hn
    exact (h.vars v hv).1
  have := (List.subperm_of_subset h.nodup hs).length_le
  simpa using this

theorem mkvar_total {σ : Scheme} {w : Writer} (h : Typed σ w) {n : Name} {ty : Ty} (hn : n ∈ σ.names)
    (hty : ty = σ.ty n) : ∃ w1 i v, mkvar w n ty = some (w1, i) ∧ w1.vars[i]? = some v ∧ v.name = n ∧ v.ty = ty ∧
      Typed σ w1 := by
  unfold mkvar
  cases hl : locvar w.vars n with
  | some i =>
    obtain ⟨v, hv, hvn⟩ := locvar_some hl
    refine ⟨w, i, v, rfl, hv, hvn, ?_, h⟩
    rw [(h.vars v (List.mem_of_getElem? hv)).2, hvn, hty]
  | none =>
    have hnone := locvar_none hl
    have hfew := σ.few
    have hcons : (n :: w.vars.map (·.name)).Nodup := by
      refine List.nodup_cons.2 ⟨?_, h.nodup⟩
      intro hm
      obtain ⟨v, hv, hvn⟩ := List.mem_map.1 hm
      exact hnone v hv hvn
    have hlen : w.vars.length + 1 ≤ σ.names.length := by
      have hs : (n :: w.vars.map (·.name)) ⊆ σ.names := by
        intro m hm
        rcases List.mem_cons.1 hm with rfl | hm
        · exact hn
        · obtain ⟨v, hv, rfl⟩ := List.mem_map.1 hm
          exact (h.vars v hv).1
      have := (List.subperm_of_subset hcons hs).length_le
      simpa using this
    simp only
    rw [if_neg (by have := σ.short n hn; omega), if_neg (by show ¬ 256 ≤ _; omega)]
    refine ⟨_, _, ⟨n, ty, 0, [], 0, false⟩, rfl, by simp, rfl, rfl, ?_, ?_⟩
    · intro v hv
      rcases List.mem_append.1 hv with hv | hv
      · exact h.vars v hv
      · rw [List.mem_singleton] at hv
        subst hv
        exact ⟨hn, hty⟩
    · rw [List.map_append]
      rw [List.nodup_append]
      refine ⟨h.nodup, by simp, ?_⟩
      intro a ha b hb
      simp only [List.map_cons, List.map_nil, List.mem_singleton] at hb
      subst hb
      obtain ⟨v, hv, rfl⟩ := List.mem_map.1 ha
      exact hnone v hv

theorem typed_set {σ : Scheme} {w w' : Writer} (h : Typed σ w) {i : Nat} {v v' : WVar} (hv : w.vars[i]? = some v)
    (h1 : v'.name = v.name) (h2 : v'.ty = v.ty) (hw : w'.vars = w.vars.set i v') : Typed σ w' := by
  refine ⟨fun u hu => ?_, ?_⟩
  · rw [hw] at hu
    rcases List.mem_or_eq_of_mem_set hu with hu | rfl
    · exact h.vars u hu
    · rw [h1, h2]
      exact h.vars v (List.mem_of_getElem? hv)
  · have : w'.vars.map (·.name) = w.vars.map (·.name) := by
      rw [hw, List.map_set, h1]
      apply List.ext_getElem?
      intro j
      by_cases hij : i = j
      · subst hij
        rw [List.getElem?_set_self (by simpa using (List.getElem?_eq_some_iff.1 hv).1), List.getElem?_map, hv]
        rfl
      · rw [List.getElem?_set_ne hij]
    rw [this]
    exact h.nodup

theorem wstep_total {σ : Scheme} {w : Writer} (h : Typed σ w) {e : Ev} (he : EvIn σ e) :
    ∃ w', wstep w e = some w' ∧ Typed σ w' := by
  cases e with
  | next => exact ⟨_, rfl, h.vars, h.nodup⟩
  | reopen =>
    refine ⟨_, rfl, fun v hv => ?_, ?_⟩
    · obtain ⟨u, hu, rfl⟩ := List.mem_map.1 hv
      exact h.vars u hu
    · simpa [reopen, List.map_map, Function.comp_def] using h.nodup
  | noCheck n ty =>
    obtain ⟨w1, i, v, h1, h2, h3, h4, h5⟩ := mkvar_total h he.1 he.2
    refine ⟨{ w1 with vars := w1.vars.set i { v with nocheck := true } }, ?_, ?_⟩
    · show noCheck w n ty = _
      unfold noCheck
      rw [h1]
      simp only [h2]
    · exact typed_set (v' := { v with nocheck := true }) h5 h2 rfl rfl rfl
  | put n ty d =>
    by_cases h0 : d.length / ty.mem = 0
    · refine ⟨w, ?_, h⟩
      show put w n ty d = _
      unfold put
      simp only [h0, if_true]
    · obtain ⟨w1, i, v, h1, h2, h3, h4, h5⟩ := mkvar_total h he.1 he.2
      obtain ⟨f1, f2, f3⟩ := putVar_frame w1 i v d (d.length / ty.mem)
      refine ⟨{ (putVar w1 i v d (d.length / ty.mem)).1 with
        vars := (putVar w1 i v d (d.length / ty.mem)).1.vars.set i (putVar w1 i v d (d.length / ty.mem)).2 }, ?_, ?_⟩
      · show put w n ty d = _
        unfold put
        simp only [if_neg h0, h1, h2, h4, ne_eq, not_true_eq_false, if_false]
      · exact typed_set h5 h2 f2 f3 (by rw [f1])

theorem wrun_total {σ : Scheme} {w : Writer} (h : Typed σ w) (es : List Ev) (he : ∀ e ∈ es, EvIn σ e) :
    ∃ w', wrun w es = some w' ∧ Typed σ w' := by
  induction es generalizing w with
  | nil => exact ⟨w, rfl, h⟩
  | cons e es ih =>
    obtain ⟨w1, h1, h2⟩ := wstep_total h (he e List.mem_cons_self)
    obtain ⟨w2, h3, h4⟩ := ih h2 (fun e' he' => he e' (List.mem_cons_of_mem _ he'))
    exact ⟨w2, by simp only [wrun, h1, Option.bind_some, h3], h4⟩

end Verif.Mir.Uv
