import Verif.Mir.HeaderC53

/-!
# Property C51 : the header items and the history of a copy

`UV.items`, the first half of `UV.init_from_uv` and the first line of `UV.pipe` (`/repo/aipy/miriad.py` 99-107, 247-256,
275).  It is assumed that no UV variable has the name of an item (`uv[k]` would be the variable).
-/
namespace Verif.Mir.Head

open Verif.Mir.Hio

/-! ## Model -/

/-- `init_from_uv`, miriad.py 252-255, with `uv.items()` (99-107): the items of `itemtable` that can be opened, one after
the other; `g` is the memory the code does not initialise -/
def copyItems (c : Conv) (src : Tree) (over : List (Name × Val)) (excl : List Name) (g : Nat → Byte) :
    List (Name × Kind) → Tree → Except HErr Tree
  | [], t => .ok t
  | p :: rest, t =>
    match openItem src p.1 g with
    | .error .io => copyItems c src over excl g rest t
    | .error e => .error e
    | .ok _ =>
      if p.1 ∈ excl then copyItems c src over excl g rest t
      else
        match over.find? (fun q => q.1 = p.1) with
        | some q =>
          match wrhd c t p.1 g q.2 with
          | .error e => .error e
          | .ok t1 => copyItems c src over excl g rest t1
        | none =>
          match rdhd c src p.1 g with
          | .error e => .error e
          | .ok v =>
            match wrhd c t p.1 g v with
            | .error e => .error e
            | .ok t1 => copyItems c src over excl g rest t1

/-- `pipe`, miriad.py 275: `self._wrhd('history', self['history'] + append2hist)` -/
def pipeHist (c : Conv) (t : Tree) (g : Nat → Byte) (app : List Nat) : Except HErr Tree :=
  match rdhd c t hist g with
  | .error e => .error e
  | .ok (.str h) => wrhd c t hist g (.str (h ++ app))
  | .ok _ => .error .python

/-! ## Specification -/

/-- the item does not exist, or has a value that can be written -/
def Copyable (c : Conv) (src : Tree) (n : Name) (k : Kind) : Prop :=
  (∀ g, openItem src n g = .error .io) ∨
    ∃ v, (∀ g, (∃ it, openItem src n g = .ok it) ∧ rdhd c src n g = .ok v) ∧ ValOk n k v ∧ shown c k v = v

/-- what does not assign -/
def Still : HOp → Prop
  | .flush _ => True
  | .reopen _ => True
  | _ => False

/-! ## Proofs -/

theorem lastOf_append (a b : List HOp) (n : Name) : lastOf (a ++ b) n = (lastOf b n).or (lastOf a n) := by
  induction a with
  | nil => simp [lastOf]
  | cons o os ih =>
    rw [List.cons_append, lastOf_cons, ih, lastOf_cons]
    cases lastOf b n <;> simp

theorem lastOf_still (a : List HOp) (h : ∀ o ∈ a, Still o) (n : Name) : lastOf a n = none := by
  induction a with
  | nil => rfl
  | cons o os ih =>
    rw [lastOf_cons, ih (fun x hx => h x (List.mem_cons_of_mem _ hx))]
    have := h o List.mem_cons_self
    cases o with
    | flush _ => rfl
    | reopen _ => rfl
    | set _ _ _ => exact this.elim
    | put _ _ _ => exact this.elim
    | puta _ _ _ => exact this.elim

/-- the value that is written for an item -/
def target (c : Conv) (src : Tree) (over : List (Name × Val)) (excl : List Name) (g : Nat → Byte) (n : Name) : Option Val :=
  match openItem src n g with
  | .error _ => none
  | .ok _ =>
    if n ∈ excl then none
    else
      match over.find? (fun q => q.1 = n) with
      | some q => some q.2
      | none => match rdhd c src n g with
        | .error _ => none
        | .ok v => some v

def planOf (c : Conv) (src : Tree) (over : List (Name × Val)) (excl : List Name) (g : Nat → Byte) (l : List (Name × Kind)) :
    List HOp :=
  l.flatMap fun p => match target c src over excl g p.1 with
    | none => []
    | some v => [.set p.1 g v]

theorem plan_last (c : Conv) (src : Tree) (over : List (Name × Val)) (excl : List Name) (g : Nat → Byte)
    (l : List (Name × Kind)) (n : Name) : lastOf (planOf c src over excl g l) n =
      if n ∈ l.map (·.1) then (target c src over excl g n).map Asg.py else none := by
  induction l with
  | nil => rfl
  | cons p l ih =>
    have e : planOf c src over excl g (p :: l) = (match target c src over excl g p.1 with
      | none => []
      | some v => [HOp.set p.1 g v]) ++ planOf c src over excl g l := rfl
    rw [e, lastOf_append, ih]
    by_cases hn : p.1 = n
    · rw [hn]
      cases ht : target c src over excl g n with
      | none => simp [lastOf]
      | some v =>
        by_cases hl : n ∈ l.map (·.1)
        · rw [if_pos hl, if_pos (by simp [hl])]; rfl
        · rw [if_neg hl, if_pos (by simp [hn])]
          simp [lastOf, assigns]
    · have h1 : lastOf (match target c src over excl g p.1 with
        | none => []
        | some v => [HOp.set p.1 g v]) n = none := by
        cases target c src over excl g p.1 with
        | none => rfl
        | some v => simp [lastOf, assigns, hn]
      rw [h1, Option.or_none]
      by_cases hl : n ∈ l.map (·.1)
      · rw [if_pos hl, if_pos (by rw [List.map_cons]; exact List.mem_cons_of_mem _ hl)]
      · rw [if_neg hl, if_neg]
        rw [List.map_cons, List.mem_cons]
        rintro (h | h)
        · exact hn h.symm
        · exact hl h

theorem hrun_append (c : Conv) (a b : List HOp) : ∀ t, hrun c t (a ++ b) = match hrun c t a with
    | .error e => .error e
    | .ok t1 => hrun c t1 b := by
  induction a with
  | nil => intro t; rfl
  | cons o os ih =>
    intro t
    rw [List.cons_append, hrun, hrun]
    cases hstep c t o with
    | error e => rfl
    | ok t1 => exact ih t1

theorem copy_plan (c : Conv) (src : Tree) (over : List (Name × Val)) (excl : List Name) (g : Nat → Byte)
    (l : List (Name × Kind)) (h : ∀ p ∈ l, Copyable c src p.1 p.2) : ∀ t,
      copyItems c src over excl g l t = hrun c t (planOf c src over excl g l) := by
  induction l with
  | nil => intro t; rfl
  | cons p l ih =>
    intro t
    have ih := ih (fun q hq => h q (List.mem_cons_of_mem _ hq))
    have e : planOf c src over excl g (p :: l) = (match target c src over excl g p.1 with
      | none => []
      | some v => [HOp.set p.1 g v]) ++ planOf c src over excl g l := rfl
    have step : ∀ v, (match wrhd c t p.1 g v with
        | .error e => Except.error e
        | .ok t1 => copyItems c src over excl g l t1) = hrun c t ([HOp.set p.1 g v] ++ planOf c src over excl g l) := by
      intro v
      rw [List.singleton_append, hrun]
      show _ = match wrhd c t p.1 g v with
        | .error e => Except.error e
        | .ok t' => hrun c t' (planOf c src over excl g l)
      cases wrhd c t p.1 g v with
      | error e => rfl
      | ok t1 => exact ih t1
    rw [copyItems, e]
    unfold target
    rcases h p List.mem_cons_self with ho | ⟨v, ho, _, _⟩
    · rw [ho g]
      exact ih t
    · obtain ⟨⟨it, h1⟩, h2⟩ := ho g
      rw [h1]
      simp only
      by_cases hx : p.1 ∈ excl
      · rw [if_pos hx, if_pos hx]; exact ih t
      · rw [if_neg hx, if_neg hx]
        cases over.find? (fun q => q.1 = p.1) with
        | some q => exact step q.2
        | none =>
          simp only [h2]
          exact step v

theorem itype_mem {n : Name} {k : Kind} (h : itype n = some k) : (n, k) ∈ itemtable := by
  unfold itype at h
  cases hf : itemtable.find? (fun p => p.1 = n) with
  | none => rw [hf] at h; simp at h
  | some p =>
    rw [hf] at h
    simp only [Option.map_some, Option.some.injEq] at h
    have hp := List.find?_some hf
    simp only [decide_eq_true_eq] at hp
    have := List.mem_of_find?_eq_some hf
    rw [← h, ← hp]
    exact this

theorem itype_names : ∀ p ∈ itemtable, itype p.1 = some p.2 := by
  decide

theorem plan_ok (c : Conv) (src : Tree) (over : List (Name × Val)) (excl : List Name) (g : Nat → Byte)
    (h : ∀ p ∈ itemtable, Copyable c src p.1 p.2)
    (hover : ∀ p ∈ itemtable, ∀ q, over.find? (fun q => q.1 = p.1) = some q → ValOk p.1 p.2 q.2) :
    ∀ o ∈ planOf c src over excl g itemtable, HOk o ∧ ∀ n a, assigns n o = some a → n ∈ itemtable.map (·.1) := by
  intro o ho
  obtain ⟨p, hp, hpo⟩ := List.mem_flatMap.1 ho
  cases ht : target c src over excl g p.1 with
  | none => rw [ht] at hpo; simp at hpo
  | some v =>
    rw [ht] at hpo
    rw [List.mem_singleton] at hpo
    subst hpo
    refine ⟨⟨p.2, itype_names p hp, ?_⟩, ?_⟩
    · unfold target at ht
      rcases h p hp with h1 | ⟨w, h1, h2, h3⟩
      · rw [h1 g] at ht; simp at ht
      · obtain ⟨⟨it, e1⟩, e2⟩ := h1 g
        rw [e1] at ht
        simp only at ht
        by_cases hx : p.1 ∈ excl
        · rw [if_pos hx] at ht; simp at ht
        · rw [if_neg hx] at ht
          cases hq : over.find? (fun q => q.1 = p.1) with
          | some q =>
            rw [hq] at ht
            simp only [Option.some.injEq] at ht
            rw [← ht]
            exact hover p hp q hq
          | none =>
            rw [hq, e2] at ht
            simp only [Option.some.injEq] at ht
            rw [← ht]
            exact h2
    · intro n a ha
      unfold assigns at ha
      simp only at ha
      by_cases hn : p.1 = n
      · rw [← hn]; exact List.mem_map_of_mem hp
      · rw [if_neg hn] at ha; simp at ha

/-- **C51**: the items of the copy, now and after the data set is flushed and opened again: those of the source with the
same values, the overridden ones with the value given, the excluded ones not at all. -/
theorem c51_items (c : Conv) {src : Tree} (h : ∀ p ∈ itemtable, Copyable c src p.1 p.2) (over : List (Name × Val))
    (hover : ∀ p ∈ itemtable, ∀ q, over.find? (fun q => q.1 = p.1) = some q → ValOk p.1 p.2 q.2) (excl : List Name)
    (g : Nat → Byte) (still : List HOp) (hs : ∀ o ∈ still, Still o) :
    ∃ t t1, copyItems c src over excl g itemtable newTree = .ok t ∧ hrun c t still = .ok t1 ∧
      ∀ (n : Name) (k : Kind) (g' : Nat → Byte), itype n = some k →
        (n ∈ excl → rdhd c t1 n g' = .error .io) ∧
        (n ∉ excl → over.find? (fun q => q.1 = n) = none → rdhd c t1 n g' = rdhd c src n g') ∧
        (n ∉ excl → ∀ q, over.find? (fun q => q.1 = n) = some q →
          rdhd c t1 n g' = if (openItem src n g).toOption.isSome then .ok (shown c k q.2) else .error .io) := by
  have hp := plan_ok c src over excl g h hover
  have hstill : ∀ o ∈ still, HOk o ∧ ∀ n a, assigns n o ≠ some a := by
    intro o ho
    have := hs o ho
    cases o with
    | flush _ => exact ⟨trivial, fun n a => by simp [assigns]⟩
    | reopen _ => exact ⟨trivial, fun n a => by simp [assigns]⟩
    | set _ _ _ => exact this.elim
    | put _ _ _ => exact this.elim
    | puta _ _ _ => exact this.elim
  have hall : ∀ o ∈ planOf c src over excl g itemtable ++ still, HOk o := by
    intro o ho
    rcases List.mem_append.1 ho with ho | ho
    · exact (hp o ho).1
    · exact (hstill o ho).1
  have hfew : Few (planOf c src over excl g itemtable ++ still) := by
    refine ⟨itemtable.map (·.1), by decide, ?_⟩
    intro o ho n a ha
    rcases List.mem_append.1 ho with ho | ho
    · exact (hp o ho).2 n a ha
    · exact absurd ha ((hstill o ho).2 n a)
  obtain ⟨t1, e1, e2⟩ := c53_python c _ hall hfew
  rw [hrun_append] at e1
  cases hr : hrun c newTree (planOf c src over excl g itemtable) with
  | error e => rw [hr] at e1; simp at e1
  | ok t =>
    rw [hr] at e1
    refine ⟨t, t1, by rw [copy_plan c src over excl g _ h]; exact hr, e1, ?_⟩
    intro n k g' hk
    obtain ⟨f1, f2⟩ := e2 n k g' hk
    have hmem := itype_mem hk
    have hlast : lastOf (planOf c src over excl g itemtable ++ still) n = (target c src over excl g n).map Asg.py := by
      rw [lastOf_append, lastOf_still still hs, Option.none_or, plan_last, if_pos (List.mem_map.2 ⟨_, hmem, rfl⟩)]
    rw [hlast] at f1 f2
    refine ⟨fun hx => f2 ?_, fun hx ho => ?_, fun hx q hq => ?_⟩
    · have : target c src over excl g n = none := by
        unfold target
        cases openItem src n g with
        | error e => rfl
        | ok it => simp only; rw [if_pos hx]
      rw [this]; rfl
    · rcases h _ hmem with h1 | ⟨v, h1, h2, h3⟩
      · have h1 : ∀ g, openItem src n g = .error .io := h1
        have : target c src over excl g n = none := by
          unfold target; rw [h1 g]
        rw [f2 (by rw [this]; rfl)]
        unfold rdhd
        rw [hk]
        simp only [h1 g']
      · have h1 : ∀ g, (∃ it, openItem src n g = .ok it) ∧ rdhd c src n g = .ok v := h1
        have h3 : shown c k v = v := h3
        have : target c src over excl g n = some v := by
          unfold target
          obtain ⟨⟨it, a1⟩, a2⟩ := h1 g
          rw [a1]
          simp only
          rw [if_neg hx, ho, a2]
        rw [f1 v (by rw [this]; rfl), h3, (h1 g').2]
    · rcases h _ hmem with h1 | ⟨v, h1, h2, h3⟩
      · have h1 : ∀ g, openItem src n g = .error .io := h1
        have : target c src over excl g n = none := by
          unfold target; rw [h1 g]
        rw [f2 (by rw [this]; rfl), h1 g]
        rfl
      · have h1 : ∀ g, (∃ it, openItem src n g = .ok it) ∧ rdhd c src n g = .ok v := h1
        obtain ⟨⟨it, a1⟩, a2⟩ := h1 g
        have : target c src over excl g n = some q.2 := by
          unfold target
          rw [a1]
          simp only
          rw [if_neg hx, hq]
        rw [f1 q.2 (by rw [this]; rfl), a1]
        rfl

theorem shownE_again (c : Conv) (hw : ∀ x < 2 ^ 32, c.round (c.widen x) = x) (e : Elem) :
    shownE c (shownE c e) = shownE c e := by
  cases e with
  | complex re im =>
    show Elem.complex _ _ = Elem.complex _ _
    rw [hw _ (c.round_lt re), hw _ (c.round_lt im)]
  | int _ => rfl
  | float _ => rfl

theorem shownE_ok (c : Conv) (ty : Ty) (e : Elem) (h : ElemOk ty e) : ElemOk ty (shownE c e) := by
  cases e with
  | complex re im => cases ty <;> trivial
  | int _ => exact h
  | float _ => exact h

theorem shown_ok (c : Conv) (hw : ∀ x < 2 ^ 32, c.round (c.widen x) = x) (n : Name) (k : Kind) (v : Val)
    (h : ValOk n k v) : ValOk n k (shown c k v) ∧ shown c k (shown c k v) = shown c k v := by
  cases k with
  | text => exact ⟨h, rfl⟩
  | special => exact ⟨h, rfl⟩
  | num ty =>
    cases v with
    | str cs => exact h.elim
    | one e =>
      refine ⟨shownE_ok c ty e h, ?_⟩
      show Val.one _ = Val.one _
      rw [shownE_again c hw]
    | many l =>
      match l, h with
      | [], h => exact ⟨h, rfl⟩
      | [e], h =>
        refine ⟨shownE_ok c ty e (h.1 e List.mem_cons_self), ?_⟩
        show Val.one _ = Val.one _
        rw [shownE_again c hw]
      | e1 :: e2 :: l, h =>
        refine ⟨⟨?_, ?_⟩, ?_⟩
        · intro x hx
          obtain ⟨y, hy, rfl⟩ := List.mem_map.1 hx
          exact shownE_ok c ty y (h.1 y hy)
        · rw [List.length_map]; exact h.2
        · show Val.many (((e1 :: e2 :: l).map (shownE c)).map (shownE c)) = Val.many ((e1 :: e2 :: l).map (shownE c))
          rw [List.map_map]
          congr 1
          exact List.map_congr_left fun x _ => shownE_again c hw x

/-- the items of a data set written from Python can be copied -/
theorem copyable_written (c : Conv) (hw : ∀ x < 2 ^ 32, c.round (c.widen x) = x) (ops : List HOp)
    (hops : ∀ o ∈ ops, HOk o) (hfew : Few ops)
    (hpy : ∀ n ∈ itemtable.map (·.1), lastOf ops n = none ∨ ∃ v, lastOf ops n = some (.py v)) :
    ∃ src, hrun c newTree ops = .ok src ∧ (∀ p ∈ itemtable, Copyable c src p.1 p.2) ∧
      ∀ n k g, itype n = some k → ∀ v, lastOf ops n = some (.py v) → rdhd c src n g = .ok (shown c k v) := by
  obtain ⟨t, D, e, hR, hl, hn, hs⟩ := run_new c ops hops hfew
  obtain ⟨t', e', h⟩ := c53_python c ops hops hfew
  rw [e] at e'
  cases e'
  refine ⟨t, e, ?_, fun n k g hk v hv => (h n k g hk).1 v hv⟩
  intro p hp
  have hk := itype_names p hp
  rcases hpy p.1 (List.mem_map_of_mem hp) with h0 | ⟨v, hv⟩
  · refine Or.inl fun g => ?_
    have := (h p.1 p.2 g hk).2 h0
    exact openItem_none hR hl p.1 (hn p.1 h0) g
  · refine Or.inr ⟨shown c p.2 v, fun g => ⟨?_, (h p.1 p.2 g hk).1 v hv⟩, ?_⟩
    · obtain ⟨it, e, _⟩ := openItem_some hR hl p.1 _ (hs p.1 _ hv).2 g
      exact ⟨it, e⟩
    · obtain ⟨⟨k', hk', hok⟩, _⟩ := hs p.1 _ hv
      rw [hk, Option.some.injEq] at hk'
      subst hk'
      exact shown_ok c hw p.1 p.2 v hok

/-- **C51**: the same from the writing of the source on: whatever was assigned to the items of a data set from Python
(any history, with flushes and reopenings) is read from a copy of it as from the source. -/
theorem c51_written (c : Conv) (hw : ∀ x < 2 ^ 32, c.round (c.widen x) = x) (ops : List HOp)
    (hops : ∀ o ∈ ops, HOk o) (hfew : Few ops)
    (hpy : ∀ n ∈ itemtable.map (·.1), lastOf ops n = none ∨ ∃ v, lastOf ops n = some (.py v))
    (g : Nat → Byte) (still : List HOp) (hs : ∀ o ∈ still, Still o) :
    ∃ src t t1, hrun c newTree ops = .ok src ∧ copyItems c src [] [] g itemtable newTree = .ok t ∧
      hrun c t still = .ok t1 ∧ ∀ (n : Name) (k : Kind) (g' : Nat → Byte), itype n = some k →
        rdhd c t1 n g' = rdhd c src n g' ∧
        (∀ v, lastOf ops n = some (.py v) → rdhd c t1 n g' = .ok (shown c k v)) ∧
        (lastOf ops n = none → rdhd c t1 n g' = .error .io) := by
  obtain ⟨src, e, hc, hv⟩ := copyable_written c hw ops hops hfew hpy
  obtain ⟨t', e', h53⟩ := c53_python c ops hops hfew
  rw [e] at e'
  cases e'
  obtain ⟨t, t1, a1, a2, a3⟩ := c51_items c hc [] (fun _ _ q hq => by cases hq) [] g still hs
  refine ⟨src, t, t1, e, a1, a2, fun n k g' hk => ?_⟩
  have h0 := (a3 n k g' hk).2.1 List.not_mem_nil rfl
  refine ⟨h0, fun v hv' => ?_, fun hn => ?_⟩
  · rw [h0]; exact hv n k g' hk v hv'
  · rw [h0]; exact (h53 n k g' hk).2 hn

/-- **C51**: `pipe` appends its text to the history that was copied; the other items stay what they are in the source. -/
theorem c51_history (c : Conv) {src : Tree} (h : ∀ p ∈ itemtable, Copyable c src p.1 p.2) (over : List (Name × Val))
    (hover : ∀ p ∈ itemtable, ∀ q, over.find? (fun q => q.1 = p.1) = some q → ValOk p.1 p.2 q.2) (excl : List Name)
    (g : Nat → Byte) (old app : List Nat) (hold : ∀ g, rdhd c src hist g = .ok (.str old)) (hx : hist ∉ excl)
    (ho : over.find? (fun q => q.1 = hist) = none) (happ : ∀ ch ∈ app, 0 < ch ∧ ch < 128)
    (hlen : (old ++ app).length ≤ 2 ^ 31) (g2 : Nat → Byte) (still : List HOp) (hs : ∀ o ∈ still, Still o) :
    ∃ t t1 t2, copyItems c src over excl g itemtable newTree = .ok t ∧ pipeHist c t g2 app = .ok t1 ∧
      hrun c t1 still = .ok t2 ∧ (∀ g', rdhd c t2 hist g' = .ok (.str (old ++ app))) ∧
      ∀ (n : Name) (k : Kind) (g' : Nat → Byte), itype n = some k → n ≠ hist →
        (n ∈ excl → rdhd c t2 n g' = .error .io) ∧
        (n ∉ excl → over.find? (fun q => q.1 = n) = none → rdhd c t2 n g' = rdhd c src n g') ∧
        (n ∉ excl → ∀ q, over.find? (fun q => q.1 = n) = some q →
          rdhd c t2 n g' = if (openItem src n g).toOption.isSome then .ok (shown c k q.2) else .error .io) := by
  have hp := plan_ok c src over excl g h hover
  have hth : itype hist = some .text := by decide
  have hst : ∀ o ∈ HOp.set hist g2 (.str (old ++ app)) :: still, HOk o ∧
      ∀ n a, assigns n o = some a → n ∈ itemtable.map (·.1) := by
    intro o ho'
    rcases List.mem_cons.1 ho' with rfl | ho'
    · refine ⟨⟨.text, hth, Or.inl rfl, hlen, ?_⟩, ?_⟩
      · intro ch hch
        rcases List.mem_append.1 hch with hch | hch
        · rcases h _ (itype_mem hth) with h1 | ⟨v, h1, h2, -⟩
          · have h1 : ∀ g, openItem src hist g = .error .io := h1
            have e := hold g
            unfold rdhd at e
            rw [hth] at e
            simp only [h1 g] at e
            cases e
          · have e := (h1 g).2
            change rdhd c src hist g = .ok v at e
            rw [hold g] at e
            cases e
            exact h2.2.2 ch hch
        · exact happ ch hch
      · intro n a ha
        unfold assigns at ha
        simp only at ha
        by_cases hn : hist = n
        · rw [← hn]; decide
        · rw [if_neg hn] at ha; cases ha
    · have := hs o ho'
      cases o with
      | flush _ => exact ⟨trivial, fun n a ha => by cases ha⟩
      | reopen _ => exact ⟨trivial, fun n a ha => by cases ha⟩
      | set _ _ _ => exact this.elim
      | put _ _ _ => exact this.elim
      | puta _ _ _ => exact this.elim
  have hboth : ∀ o ∈ planOf c src over excl g itemtable ++ (HOp.set hist g2 (.str (old ++ app)) :: still), HOk o ∧
      ∀ n a, assigns n o = some a → n ∈ itemtable.map (·.1) := by
    intro o ho'
    rcases List.mem_append.1 ho' with ho' | ho'
    · exact hp o ho'
    · exact hst o ho'
  obtain ⟨t2, e1, e2⟩ := c53_python c _ (fun o ho' => (hboth o ho').1)
    ⟨itemtable.map (·.1), by decide, fun o ho' n a ha => (hboth o ho').2 n a ha⟩
  obtain ⟨t, t', b1, b2, b3⟩ := c51_items c h over hover excl g [] (fun _ h => by cases h)
  have ht' : t' = t := by cases b2; rfl
  subst ht'
  have hplan : hrun c newTree (planOf c src over excl g itemtable) = .ok t' := by
    rw [← copy_plan c src over excl g _ h]; exact b1
  rw [hrun_append, hplan] at e1
  simp only at e1
  rw [hrun] at e1
  have hstep' : hstep c t' (.set hist g2 (.str (old ++ app))) = wrhd c t' hist g2 (.str (old ++ app)) := rfl
  rw [hstep'] at e1
  have hrd : rdhd c t' hist g2 = .ok (.str old) := by
    rw [(b3 hist .text g2 hth).2.1 hx ho]; exact hold g2
  cases hwr : wrhd c t' hist g2 (.str (old ++ app)) with
  | error e => rw [hwr] at e1; cases e1
  | ok t1 =>
    rw [hwr] at e1
    refine ⟨t', t1, t2, b1, ?_, e1, fun g' => ?_, fun n k g' hk hn => ?_⟩
    · unfold pipeHist
      rw [hrd]
      exact hwr
    · refine (e2 hist .text g' hth).1 _ ?_
      rw [lastOf_append, lastOf_cons, lastOf_still still hs]
      rfl
    · obtain ⟨f1, f2⟩ := e2 n k g' hk
      have hmem := itype_mem hk
      have hlast : lastOf (planOf c src over excl g itemtable ++ (HOp.set hist g2 (.str (old ++ app)) :: still)) n =
          (target c src over excl g n).map Asg.py := by
        rw [lastOf_append, lastOf_cons, lastOf_still still hs, plan_last, if_pos (List.mem_map.2 ⟨_, hmem, rfl⟩)]
        have : assigns n (.set hist g2 (.str (old ++ app))) = none := by
          unfold assigns
          simp only
          rw [if_neg (fun e => hn e.symm)]
        rw [this]; rfl
      rw [hlast] at f1 f2
      obtain ⟨t3, d1, d2⟩ := c53_python c (planOf c src over excl g itemtable) (fun o ho' => (hp o ho').1)
        ⟨itemtable.map (·.1), by decide, fun o ho' n a ha => (hp o ho').2 n a ha⟩
      rw [hplan] at d1
      cases d1
      obtain ⟨d3, d4⟩ := d2 n k g' hk
      rw [plan_last, if_pos (List.mem_map.2 ⟨_, hmem, rfl⟩)] at d3 d4
      have hsame : rdhd c t2 n g' = rdhd c t' n g' := by
        cases ht : target c src over excl g n with
        | none => rw [f2 (by rw [ht]; rfl), d4 (by rw [ht]; rfl)]
        | some v => rw [f1 v (by rw [ht]; rfl), d3 v (by rw [ht]; rfl)]
      rw [hsame]
      exact b3 n k g' hk

/-- a source with a history, an integration time and gains -/
def srcOps : List HOp :=
  [.set hist (fun _ => 0) (.str [104, 105, 10]), .set interval (fun _ => 0) (.one (.float 5)),
    .set freqs (fun _ => 0) (.many [.int 1, .int 16, .float 7, .float 8]), .reopen (fun _ => 0)]

/-- conversions that round trip: the low 32 bits -/
def lowConv : Conv := ⟨⟨fun x => x % 2 ^ 32, fun x => x, fun _ => Nat.mod_lt _ (by decide)⟩, fun _ => 0⟩

theorem srcOps_ok : (∀ o ∈ srcOps, HOk o) ∧ Few srcOps ∧
    (∀ n ∈ itemtable.map (·.1), lastOf srcOps n = none ∨ ∃ v, lastOf srcOps n = some (.py v)) ∧
    ∀ x < 2 ^ 32, lowConv.round (lowConv.widen x) = x := by
  refine ⟨?_, ⟨[hist, interval, freqs], by decide, ?_⟩, ?_, fun x hx => Nat.mod_eq_of_lt hx⟩
  · intro o ho
    simp only [srcOps, List.mem_cons, List.not_mem_nil, or_false] at ho
    rcases ho with rfl | rfl | rfl | rfl
    · exact ⟨.text, by decide, by decide, by decide, by decide⟩
    · refine ⟨.num .dble, by decide, ?_⟩
      show 5 < _
      decide
    · refine ⟨.special, by decide, ⟨by decide, by decide⟩, by decide, ?_⟩
      intro i x hx
      match i, hx with
      | 0, hx => cases hx; exact ⟨by decide, by decide⟩
      | 1, hx => cases hx; show 7 < _; decide
      | 2, hx => cases hx; show 8 < _; decide
      | i + 3, hx => cases hx
    · trivial
  · intro o ho n a ha
    simp only [srcOps, List.mem_cons, List.not_mem_nil, or_false] at ho
    rcases ho with rfl | rfl | rfl | rfl
    · by_cases hn : hist = n
      · rw [← hn]; decide
      · simp [assigns, hn] at ha
    · by_cases hn : interval = n
      · rw [← hn]; decide
      · simp [assigns, hn] at ha
    · by_cases hn : freqs = n
      · rw [← hn]; decide
      · simp [assigns, hn] at ha
    · cases ha
  · intro n hn
    cases h : lastOf srcOps n with
    | none => exact Or.inl rfl
    | some a =>
      obtain ⟨o, ho, ha⟩ := List.exists_of_findSome?_eq_some h
      rw [List.mem_reverse] at ho
      simp only [srcOps, List.mem_cons, List.not_mem_nil, or_false] at ho
      refine Or.inr ?_
      rcases ho with rfl | rfl | rfl | rfl <;> simp only [assigns] at ha
      · split at ha
        · exact ⟨_, ha.symm⟩
        · cases ha
      · split at ha
        · exact ⟨_, ha.symm⟩
        · cases ha
      · split at ha
        · exact ⟨_, ha.symm⟩
        · cases ha
      · cases ha

/-- its items, copied, and its history, with something appended -/
example : ∃ src t t1, hrun lowConv newTree srcOps = .ok src ∧
    copyItems lowConv src [(interval, .one (.float 6))] [freqs] (fun _ => 0) itemtable newTree = .ok t ∧
    pipeHist lowConv t (fun _ => 0) [104, 111, 10] = .ok t1 ∧
    rdhd lowConv t1 hist (fun _ => 0) = .ok (.str [104, 105, 10, 104, 111, 10]) ∧
    rdhd lowConv t1 interval (fun _ => 0) = .ok (.one (.float 6)) ∧
    rdhd lowConv t1 freqs (fun _ => 0) = .error .io := by
  obtain ⟨src, e, hc, hv⟩ := copyable_written lowConv srcOps_ok.2.2.2 srcOps srcOps_ok.1 srcOps_ok.2.1 srcOps_ok.2.2.1
  obtain ⟨t, t1, t2, a1, a2, a3, a4, a5⟩ := c51_history lowConv hc [(interval, .one (.float 6))] (by
      intro p hp q hq
      have h1 := List.find?_some hq
      have h2 := List.mem_of_find?_eq_some hq
      rw [List.mem_singleton] at h2
      subst h2
      simp only [decide_eq_true_eq] at h1
      have h3 := itype_names p hp
      rw [← h1] at h3 ⊢
      have h4 : itype interval = some (.num .dble) := by decide
      rw [h4, Option.some.injEq] at h3
      rw [← h3]
      show 6 < _
      decide) [freqs] (fun _ => 0) [104, 105, 10] [104, 111, 10] (fun g => hv hist .text g (by decide) _ rfl)
    (by decide) (by decide) (by decide) (by decide) (fun _ => 0) [] (fun _ h => by cases h)
  cases a3
  have hi : (openItem src interval (fun _ => 0)).toOption.isSome = true := by
    have := hv interval (.num .dble) (fun _ => 0) (by decide) _ rfl
    unfold rdhd at this
    rw [show itype interval = some (.num .dble) by decide] at this
    simp only at this
    cases ho : openItem src interval (fun _ => 0) with
    | error e => rw [ho] at this; cases this
    | ok it => rfl
  refine ⟨src, t, t1, e, a1, a2, a4 _, ?_, ?_⟩
  · have := (a5 interval (.num .dble) (fun _ => 0) (by decide) (by decide)).2.2 (by decide) _ rfl
    rw [this, if_pos hi]
    rfl
  · exact (a5 freqs .special (fun _ => 0) (by decide) (by decide)).1 (by decide)

/-- **C51, disagreement.**  `pipe` into a data set without a history (because the source has none) raises. -/
theorem c51_no_history (c : Conv) (app : List Nat) (g : Nat → Byte) :
    copyItems c newTree [] [] g itemtable newTree = .ok newTree ∧ pipeHist c newTree g app = .error .io :=
  ⟨rfl, rfl⟩

end Verif.Mir.Head
