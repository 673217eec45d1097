import Mathlib.Data.List.Sort
import Mathlib.Data.List.Pairwise
/-!
# C126: the shared parameters of fitmdl.py

Model of `/repo/scripts/fitmdl.py` 59-84 and 93-105: the options `--shprms` and `--prms` become the parameters that are varied, and what is varied
becomes the parameters that are set, in the meaning of python 2 (in python 3 `keys.sort()` and `has_key` raise).  Strings are parsed in C08;
here a piece of `--shprms` is its list of objects and its parameters.  Flattening and reconstruction are C09: the parameters that are varied
are a dictionary.
-/
set_option linter.unusedSectionVars false
namespace Verif.Fit.Shared

variable {O P V : Type} [LinearOrder O] [DecidableEq P]

/-- nested dictionary, `d[o][p]`; `none` is a KeyError -/
abbrev Dict (O P V : Type) := O → P → Option V

/-- what `parse_prms` returns for one piece, `(o1/o2/..)=(p1/p2/..)` with starting values: every object has the same parameters (scripting.py
200-211, C08); `none` for no starting value -/
structure Piece (O P V : Type) where
  objs : List O
  prms : List (P × Option V)

/-- `prms[k].update(s)`, or `prms[k] = s`, fitmdl.py 67-68 and 75-76 -/
def update (d : Dict O P (Option V)) (k : O) (s : List (P × Option V)) : Dict O P (Option V) :=
  fun o p => if o = k then (match s.lookup p with | some v => some v | none => d o p) else d o p

/-- `keys = s.keys(); keys.sort()`, fitmdl.py 64 -/
def keysOf (s : Piece O P V) : List O := s.objs.insertionSort (· ≤ ·)

/-- the loop over the shared parameters, fitmdl.py 63-70; `keys[0]` of no keys does not happen -/
def enterShared (shared : List (Piece O P V)) (d : Dict O P (Option V)) : Dict O P (Option V) :=
  shared.foldl (fun d s => match keysOf s with | k :: _ => update d k s.prms | [] => d) d

/-- the normal parameters, fitmdl.py 72-76: the items of the dictionary that `parse_prms` returns -/
def enterNormal (normal : List (O × List (P × Option V))) (d : Dict O P (Option V)) : Dict O P (Option V) :=
  normal.foldl (fun d x => update d x.1 x.2) d

/-- `prms`, fitmdl.py 60-76 -/
def entered (shared : List (Piece O P V)) (normal : List (O × List (P × Option V))) : Dict O P (Option V) :=
  enterNormal normal (enterShared shared fun _ _ => none)

/-- `start_prms`, fitmdl.py 77-83; `known` is what `aa.get_params` and `cat.get_params` find (C11, C12) -/
def start (known : Dict O P V) (shared : List (Piece O P V)) (normal : List (O × List (P × Option V))) : Dict O P V :=
  fun o p => match entered shared normal o p with
    | none => none
    | some given => match known o p with
      | none => none
      | some v => match given with
        | some w => some w
        | none => some v

/-- one assignment `prms[k2][sp] = prms[k][sp]`, fitmdl.py 104 -/
def assign (d : Dict O P V) (k k2 : O) (sp : P) : Option (Dict O P V) :=
  match d k sp with
  | none => none
  | some v => some fun o p => if o = k2 ∧ p = sp then some v else d o p

/-- the assignments of one entry of `shkeys`, fitmdl.py 99-104 -/
def tasks (s : Piece O P V) : List (O × O × P) :=
  match keysOf s with
  | [] => []
  | k :: ks => ks.flatMap fun k2 => s.prms.map fun sp => (k, k2, sp.1)

/-- one after the other, as far as no KeyError is raised -/
def run : List (O × O × P) → Dict O P V → Option (Dict O P V)
  | [], d => some d
  | t :: ts, d => match assign d t.1 t.2.1 t.2.2 with
    | none => none
    | some d' => run ts d'

/-- the parameters set in one evaluation, fitmdl.py 97-110; `d` is what `reconstruct_prms` returns -/
def setIn (shared : List (Piece O P V)) (d : Dict O P V) : Option (Dict O P V) := run (shared.flatMap tasks) d

/-- what is printed at the end, fitmdl.py 258-260: the parameters that were varied -/
def shown (d : Dict O P V) : Dict O P V := d

/-! ## Specification -/

/-- the object is named together with the parameter -/
def Names (s : Piece O P V) (o : O) (p : P) : Prop := o ∈ s.objs ∧ ∃ v, (p, v) ∈ s.prms

/-- the first object of a piece, in the order of their names -/
def First (s : Piece O P V) (k : O) : Prop := k ∈ s.objs ∧ ∀ o ∈ s.objs, k ≤ o

/-! ## Lemmas -/

theorem keys_perm (s : Piece O P V) : (keysOf s).Perm s.objs := List.perm_insertionSort _ _

theorem keys_sorted (s : Piece O P V) : (keysOf s).Pairwise (· ≤ ·) := List.pairwise_insertionSort _ _

theorem First.unique {s : Piece O P V} {k k' : O} (h : First s k) (h' : First s k') : k = k' := le_antisymm (h.2 _ h'.1) (h'.2 _ h.1)

theorem keys_first {s : Piece O P V} {k : O} {ks : List O} (h : keysOf s = k :: ks) : First s k := by
  constructor
  · exact (keys_perm s).mem_iff.1 (by rw [h]; simp)
  · intro o ho
    have ho' := (keys_perm s).mem_iff.2 ho
    have hs := keys_sorted s
    rw [h] at ho' hs
    rcases List.mem_cons.1 ho' with rfl | h2
    · exact le_refl _
    · exact List.rel_of_pairwise_cons hs h2

theorem mem_tasks {s : Piece O P V} (hn : s.objs.Nodup) {t : O × O × P} :
    t ∈ tasks s ↔ First s t.1 ∧ t.2.1 ∈ s.objs ∧ t.2.1 ≠ t.1 ∧ ∃ v, (t.2.2, v) ∈ s.prms := by
  unfold tasks
  cases h : keysOf s with
  | nil =>
    have hnil : s.objs = [] := by
      have := (keys_perm s).length_eq
      rw [h] at this
      exact List.length_eq_zero_iff.1 this.symm
    simp [hnil]
  | cons k ks =>
    have hf := keys_first h
    have hp := keys_perm s
    have hnd : (k :: ks).Nodup := by rw [← h]; exact hp.nodup_iff.2 hn
    simp only [List.mem_flatMap, List.mem_map]
    constructor
    · rintro ⟨k2, hk2, sp, hsp, rfl⟩
      refine ⟨hf, hp.mem_iff.1 (by rw [h]; simp [hk2]), ?_, sp.2, hsp⟩
      intro e
      have e' : k2 = k := e
      exact (List.nodup_cons.1 hnd).1 (e' ▸ hk2)
    · rintro ⟨h1, h2, h3, v, hv⟩
      have e : t.1 = k := First.unique h1 hf
      have h2' := hp.mem_iff.2 h2
      rw [h] at h2'
      rcases List.mem_cons.1 h2' with h4 | h4
      · exact absurd (h4.trans e.symm) h3
      · exact ⟨t.2.1, h4, (t.2.2, v), hv, by rw [← e]⟩

theorem run_ok : ∀ (ts : List (O × O × P)) (d : Dict O P V), (∀ t ∈ ts, (d t.1 t.2.2).isSome) → (∀ t ∈ ts, ∀ t' ∈ ts, (t.2.1, t.2.2) ≠ (t'.1, t'.2.2)) →
    (∀ t ∈ ts, ∀ t' ∈ ts, t.2 = t'.2 → t.1 = t'.1) →
    ∃ e, run ts d = some e ∧ (∀ t ∈ ts, e t.2.1 t.2.2 = d t.1 t.2.2) ∧ ∀ o p, (∀ t ∈ ts, t.2 ≠ (o, p)) → e o p = d o p := by
  intro ts
  induction ts with
  | nil => intro d _ _ _; exact ⟨d, rfl, by simp, fun _ _ _ => rfl⟩
  | cons t ts ih =>
    intro d hk hs hu
    have hk1 := hk t (by simp)
    cases hv : d t.1 t.2.2 with
    | none => rw [hv] at hk1; simp at hk1
    | some v =>
      have ha : assign d t.1 t.2.1 t.2.2 = some fun o p => if o = t.2.1 ∧ p = t.2.2 then some v else d o p := by
        unfold assign; rw [hv]
      have hr : ∀ (e : Dict O P V), assign d t.1 t.2.1 t.2.2 = some e → run (t :: ts) d = run ts e := by
        intro e he
        have e0 : run (t :: ts) d = match assign d t.1 t.2.1 t.2.2 with | none => none | some d' => run ts d' := rfl
        rw [e0, he]
      have hsrc : ∀ t' ∈ t :: ts, (if t'.1 = t.2.1 ∧ t'.2.2 = t.2.2 then some v else d t'.1 t'.2.2) = d t'.1 t'.2.2 := by
        intro t' ht'
        have := hs t (by simp) t' ht'
        have hc : ¬ (t'.1 = t.2.1 ∧ t'.2.2 = t.2.2) := by
          rintro ⟨h1, h2⟩
          exact this (by rw [h1, h2])
        simp only [if_neg hc]
      obtain ⟨e, he, h1, h2⟩ := ih (fun o p => if o = t.2.1 ∧ p = t.2.2 then some v else d o p)
        (fun t' ht' => by rw [hsrc t' (by simp [ht'])]; exact hk t' (by simp [ht']))
        (fun t' ht' t'' ht'' => hs t' (by simp [ht']) t'' (by simp [ht'']))
        (fun t' ht' t'' ht'' => hu t' (by simp [ht']) t'' (by simp [ht'']))
      refine ⟨e, by rw [hr _ ha]; exact he, ?_, ?_⟩
      · intro t' ht'
        rcases List.mem_cons.1 ht' with rfl | ht'
        · by_cases hx : ∃ t'' ∈ ts, t''.2 = t'.2
          · obtain ⟨t'', hm, heq⟩ := hx
            have h3 := h1 t'' hm
            rw [hsrc t'' (by simp [hm]), heq, hu t'' (by simp [hm]) t' (by simp) heq] at h3
            exact h3
          · have h3 := h2 t'.2.1 t'.2.2 (fun t'' hm heq => hx ⟨t'', hm, by rw [heq]⟩)
            rw [h3, hv]
            simp
        · rw [h1 t' ht', hsrc t' (by simp [ht'])]
      · intro o p hne
        rw [h2 o p (fun t' ht' => hne t' (by simp [ht']))]
        have hc : ¬ (o = t.2.1 ∧ p = t.2.2) := by
          rintro ⟨rfl, rfl⟩
          exact hne t (by simp) rfl
        simp only [if_neg hc]

theorem lookup_isSome {s : List (P × Option V)} {p : P} : (s.lookup p).isSome ↔ ∃ v, (p, v) ∈ s := by
  induction s with
  | nil => simp
  | cons x s ih =>
    obtain ⟨q, w⟩ := x
    by_cases h : p = q
    · subst h; simp
    · have hb : (p == q) = false := by simpa using h
      rw [List.lookup_cons, hb]
      simp only []
      rw [ih]
      simp [h]

theorem update_isSome (d : Dict O P (Option V)) (k : O) (s : List (P × Option V)) (o : O) (p : P) :
    (update d k s o p).isSome ↔ (d o p).isSome ∨ (o = k ∧ ∃ v, (p, v) ∈ s) := by
  unfold update
  by_cases h : o = k
  · rw [if_pos h]
    have hl := lookup_isSome (s := s) (p := p)
    cases hs : s.lookup p with
    | none =>
      rw [hs] at hl
      simp only [Option.isSome_none, Bool.false_eq_true, false_iff] at hl
      simp [hl]
    | some v =>
      rw [hs] at hl
      have := hl.1 rfl
      simp [h, this]
  · simp [h]

theorem shared_isSome (o : O) (p : P) : ∀ (shared : List (Piece O P V)) (d : Dict O P (Option V)),
    (enterShared shared d o p).isSome ↔ (d o p).isSome ∨ ∃ s ∈ shared, First s o ∧ ∃ v, (p, v) ∈ s.prms := by
  intro shared
  induction shared with
  | nil => intro d; simp [enterShared]
  | cons s shared ih =>
    intro d
    have e : enterShared (s :: shared) d = enterShared shared (match keysOf s with | k :: _ => update d k s.prms | [] => d) := rfl
    rw [e, ih]
    cases h : keysOf s with
    | nil =>
      have hnil : s.objs = [] := by
        have := (keys_perm s).length_eq
        rw [h] at this
        exact List.length_eq_zero_iff.1 this.symm
      simp [First, hnil]
    | cons k ks =>
      have hf := keys_first h
      simp only [update_isSome, List.mem_cons, exists_eq_or_imp]
      constructor
      · rintro ((h1 | ⟨rfl, h2⟩) | h3)
        · exact Or.inl h1
        · exact Or.inr (Or.inl ⟨hf, h2⟩)
        · exact Or.inr (Or.inr h3)
      · rintro (h1 | ⟨h2, h3⟩ | h3)
        · exact Or.inl (Or.inl h1)
        · exact Or.inl (Or.inr ⟨First.unique h2 hf, h3⟩)
        · exact Or.inr h3

theorem normal_isSome (o : O) (p : P) : ∀ (normal : List (O × List (P × Option V))) (d : Dict O P (Option V)),
    (enterNormal normal d o p).isSome ↔ (d o p).isSome ∨ ∃ x ∈ normal, o = x.1 ∧ ∃ v, (p, v) ∈ x.2 := by
  intro normal
  induction normal with
  | nil => intro d; simp [enterNormal]
  | cons x normal ih =>
    intro d
    have e : enterNormal (x :: normal) d = enterNormal normal (update d x.1 x.2) := rfl
    rw [e, ih, update_isSome]
    simp only [List.mem_cons, exists_eq_or_imp]
    tauto

/-- C126: the parameters varied are, of those that the array and the catalog know, the ones of `--prms` and, for every piece of `--shprms`, those of
its first object: a shared parameter is one variable. -/
theorem c126_free (known : Dict O P V) (shared : List (Piece O P V)) (normal : List (O × List (P × Option V))) (o : O) (p : P) :
    (start known shared normal o p).isSome ↔ (known o p).isSome ∧
      ((∃ s ∈ shared, First s o ∧ ∃ v, (p, v) ∈ s.prms) ∨ ∃ x ∈ normal, o = x.1 ∧ ∃ v, (p, v) ∈ x.2) := by
  have hE := normal_isSome o p normal (enterShared shared fun _ _ => none)
  rw [shared_isSome] at hE
  simp only [Option.isSome_none, Bool.false_eq_true, false_or] at hE
  rw [← hE]
  unfold start entered
  cases h1 : enterNormal normal (enterShared shared fun _ _ => none) o p with
  | none => simp
  | some given =>
    cases h2 : known o p with
    | none => simp
    | some v => cases given <;> simp

/-- C126: in every evaluation all objects of a shared piece are given the value varied for its first object, and everything else is what is varied.
(No two pieces name the same parameter of the same object, and the first object of every piece has its parameters.) -/
theorem c126_shared_partial (known : Dict O P V) (shared : List (Piece O P V)) (normal : List (O × List (P × Option V)))
    (hnd : ∀ s ∈ shared, s.objs.Nodup) (hdis : shared.Pairwise fun s s' => ∀ o p, ¬ (Names s o p ∧ Names s' o p))
    (hknown : ∀ s ∈ shared, ∀ k p, First s k → Names s k p → (known k p).isSome)
    (d : Dict O P V) (hd : ∀ o p, (d o p).isSome = (start known shared normal o p).isSome) :
    ∃ e, setIn shared d = some e ∧ (∀ s ∈ shared, ∀ k o p, First s k → Names s o p → e o p = d k p) ∧
      (∀ o p, (∀ s ∈ shared, ¬ Names s o p) → e o p = d o p) := by
  have same : ∀ s ∈ shared, ∀ s' ∈ shared, ∀ o p, Names s o p → Names s' o p → s = s' := by
    intro s hs s' hs' o p h h'
    by_contra hne
    have hP : shared.Pairwise fun s s' => s ≠ s' → ∀ o p, ¬ (Names s o p ∧ Names s' o p) := hdis.imp (fun {a b} h (_ : a ≠ b) => h)
    have hsym : Std.Symm (fun s s' : Piece O P V => s ≠ s' → ∀ o p, ¬ (Names s o p ∧ Names s' o p)) :=
      ⟨fun a b hab hne o p hh => hab (Ne.symm hne) o p ⟨hh.2, hh.1⟩⟩
    exact hP.forall hs hs' hne hne o p ⟨h, h'⟩
  have hmem : ∀ t, t ∈ shared.flatMap tasks ↔ ∃ s ∈ shared, First s t.1 ∧ t.2.1 ∈ s.objs ∧ t.2.1 ≠ t.1 ∧ ∃ v, (t.2.2, v) ∈ s.prms := by
    intro t
    rw [List.mem_flatMap]
    constructor
    · rintro ⟨s, hs, ht⟩; exact ⟨s, hs, (mem_tasks (hnd s hs)).1 ht⟩
    · rintro ⟨s, hs, ht⟩; exact ⟨s, hs, (mem_tasks (hnd s hs)).2 ht⟩
  obtain ⟨e, he, h1, h2⟩ := run_ok (shared.flatMap tasks) d
    (by
      intro t ht
      obtain ⟨s, hs, hf, _, _, hp⟩ := (hmem t).1 ht
      rw [hd, c126_free]
      exact ⟨hknown s hs _ _ hf ⟨hf.1, hp⟩, Or.inl ⟨s, hs, hf, hp⟩⟩)
    (by
      intro t ht t' ht' heq
      obtain ⟨s, hs, hf, ho, hne, hp⟩ := (hmem t).1 ht
      obtain ⟨s', hs', hf', ho', hne', hp'⟩ := (hmem t').1 ht'
      rw [Prod.mk.injEq] at heq
      have : s = s' := same s hs s' hs' t.2.1 t.2.2 ⟨ho, hp⟩ (by rw [heq.1, heq.2]; exact ⟨hf'.1, hp'⟩)
      subst this
      exact hne (heq.1.trans (First.unique hf' hf)))
    (by
      intro t ht t' ht' heq
      obtain ⟨s, hs, hf, ho, hne, hp⟩ := (hmem t).1 ht
      obtain ⟨s', hs', hf', ho', hne', hp'⟩ := (hmem t').1 ht'
      have : s = s' := same s hs s' hs' t.2.1 t.2.2 ⟨ho, hp⟩ (by rw [heq]; exact ⟨ho', hp'⟩)
      subst this
      exact First.unique hf hf')
  refine ⟨e, he, ?_, ?_⟩
  · intro s hs k o p hk hn
    by_cases hko : o = k
    · subst hko
      apply h2
      intro t ht heq
      obtain ⟨s', hs', hf', ho', hne', hp'⟩ := (hmem t).1 ht
      rw [heq] at ho' hne' hp'
      have : s = s' := same s hs s' hs' o p hn ⟨ho', hp'⟩
      subst this
      exact hne' (First.unique hk hf')
    · exact h1 (k, o, p) ((hmem (k, o, p)).2 ⟨s, hs, hk, hn.1, hko, hn.2⟩)
  · intro o p hno
    apply h2
    intro t ht heq
    obtain ⟨s', hs', hf', ho', hne', hp'⟩ := (hmem t).1 ht
    rw [heq] at ho' hp'
    exact hno s' hs' ⟨ho', hp'⟩

/-- C126: a value given for a parameter is where the fit starts, a parameter given without value starts where the array and the catalog have it. -/
theorem c126_start (known : Dict O P V) (shared : List (Piece O P V)) (o : O) (p : P) (v : V) (hk : known o p = some v) (given : Option V)
    (normal : List (O × List (P × Option V))) (hn : (normal.map Prod.fst).Nodup) (s : List (P × Option V)) (hs : (o, s) ∈ normal)
    (hu : (s.map Prod.fst).Nodup) (hp : (p, given) ∈ s) : start known shared normal o p = some (given.getD v) := by
  have hl : s.lookup p = some given := by
    clear hs
    induction s with
    | nil => simp at hp
    | cons x s ih =>
      obtain ⟨q, w⟩ := x
      rcases List.mem_cons.1 hp with h | h
      · cases h; simp
      · have hq : (p == q) = false := by
          rw [beq_eq_false_iff_ne]
          rintro rfl
          exact (List.nodup_cons.1 hu).1 (List.mem_map.2 ⟨_, h, rfl⟩)
        rw [List.lookup_cons, hq]
        exact ih (List.nodup_cons.1 hu).2 h
  have key : ∀ (normal : List (O × List (P × Option V))) (d : Dict O P (Option V)), (normal.map Prod.fst).Nodup →
      ((o, s) ∈ normal ∨ (d o p = some given ∧ o ∉ normal.map Prod.fst)) → enterNormal normal d o p = some given := by
    intro normal
    induction normal with
    | nil =>
      intro d _ h
      rcases h with h | h
      · cases h
      · exact h.1
    | cons x normal ih =>
      intro d hn h
      have e : enterNormal (x :: normal) d = enterNormal normal (update d x.1 x.2) := rfl
      rw [e]
      apply ih _ (List.nodup_cons.1 hn).2
      rcases h with h | h
      · rcases List.mem_cons.1 h with h | h
        · right
          subst h
          exact ⟨by simp [update, hl], (List.nodup_cons.1 hn).1⟩
        · exact Or.inl h
      · right
        have h3 := h.2
        rw [List.map_cons, List.mem_cons, not_or] at h3
        exact ⟨by simp [update, h3.1, h.1], h3.2⟩
  unfold start entered
  rw [key normal _ hn (Or.inl hs), hk]
  cases given <;> rfl

/-- C126: pieces that share an object depend on their order: after `(b/c)=x` and `(a/b)=x` the object c keeps what b had, and the three are not
equal, whatever was varied (if a and b differ). -/
theorem c126_order_violated (a b c : O) (hab : a < b) (hbc : b < c) (p : P) (d : Dict O P V) (va vb : V) (ha : d a p = some va) (hb : d b p = some vb) :
    ∃ e, setIn [⟨[b, c], [(p, none)]⟩, ⟨[a, b], [(p, none)]⟩] d = some e ∧ e a p = some va ∧ e b p = some va ∧ e c p = some vb := by
  have hac := hab.trans hbc
  have k1 : keysOf (⟨[b, c], [(p, none)]⟩ : Piece O P V) = [b, c] := by simp [keysOf, hbc.le]
  have k2 : keysOf (⟨[a, b], [(p, none)]⟩ : Piece O P V) = [a, b] := by simp [keysOf, hab.le]
  have ht : ([⟨[b, c], [(p, none)]⟩, ⟨[a, b], [(p, none)]⟩] : List (Piece O P V)).flatMap tasks = [(b, c, p), (a, b, p)] := by
    simp [tasks, k1, k2]
  unfold setIn
  rw [ht]
  simp only [run, assign, hb, ha, hac.ne, false_and, if_false]
  exact ⟨_, rfl, by simp [hab.ne, hac.ne, ha], by simp, by simp [hbc.ne']⟩

/-- C126: if the first object of a piece does not have the parameter (by name `10` comes before `2`, and sources after antennas), the first
evaluation raises KeyError, although another object of the piece has it. -/
theorem c126_first_violated (k o : O) (hko : k < o) (p : P) (known : Dict O P V) (hk : known k p = none) (d : Dict O P V)
    (normal : List (O × List (P × Option V))) (hd : ∀ o' p', (d o' p').isSome = (start known [⟨[o, k], [(p, none)]⟩] normal o' p').isSome) :
    setIn [⟨[o, k], [(p, none)]⟩] d = none := by
  have k1 : keysOf (⟨[o, k], [(p, none)]⟩ : Piece O P V) = [k, o] := by simp [keysOf, not_le.2 hko]
  have hnone : d k p = none := by
    have := hd k p
    cases h : d k p with
    | none => rfl
    | some v =>
      rw [h] at this
      have h2 := this.symm
      rw [Option.isSome_some, c126_free, hk] at h2
      simp at h2
  have ht : ([⟨[o, k], [(p, none)]⟩] : List (Piece O P V)).flatMap tasks = [(k, o, p)] := by simp [tasks, k1]
  unfold setIn
  rw [ht]
  simp [run, assign, hnone]

/-- C126: a parameter that is shared and also given in `--prms` is varied without effect, and what is printed at the end for it is not what was
used: for the second object any value can be printed. -/
theorem c126_shown_violated (k o : O) (hko : k < o) (p : P) (d : Dict O P V) (v : V) (hk : d k p = some v) (w : V) (hw : d o p = some w) :
    (shown d) o p = some w ∧ ∃ e, setIn [⟨[k, o], [(p, none)]⟩] d = some e ∧ e o p = some v := by
  have k1 : keysOf (⟨[k, o], [(p, none)]⟩ : Piece O P V) = [k, o] := by simp [keysOf, hko.le]
  have ht : ([⟨[k, o], [(p, none)]⟩] : List (Piece O P V)).flatMap tasks = [(k, o, p)] := by simp [tasks, k1]
  refine ⟨hw, ?_⟩
  unfold setIn
  rw [ht]
  simp only [run, assign, hk]
  exact ⟨_, rfl, by simp⟩

section Example
/-- two pieces that meet the hypotheses of `c126_shared_partial` -/
def exShared : List (Piece Nat Nat Nat) := [⟨[3, 1, 2], [(0, none), (1, some 7)]⟩, ⟨[1, 2], [(2, none)]⟩]

example : (∀ s ∈ exShared, s.objs.Nodup) := by decide
example : keysOf (exShared.headD ⟨[], []⟩) = [1, 2, 3] := by decide
example : exShared.Pairwise fun s s' => ∀ o p, ¬ (Names s o p ∧ Names s' o p) := by
  simp [exShared, Names]
  omega
example : (setIn exShared fun o p => if o = 1 then some (10 + p) else none).map (fun e => (e 1 0, e 2 0, e 3 0, e 3 1, e 2 2, e 3 2)) =
    some (some 10, some 10, some 10, some 11, some 12, none) := rfl
example : start (fun _ _ => some 5) exShared [(1, [(1, some 8)])] 1 1 = some 8 := by decide
end Example

end Verif.Fit.Shared
