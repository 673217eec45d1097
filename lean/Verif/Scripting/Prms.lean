import Verif.Scripting.PrmsModel
import Verif.Scripting.Chans
/-!
# Property C08 : parameter strings
-/
namespace Verif.Scripting
open Verif.Util

/-! ## Specification: abstract syntax and its meaning -/

/-- one name, or several in parentheses -/
inductive Names where
  | bare (n : List Char)
  | paren (ns : List (List Char))

def Names.list : Names → List (List Char)
  | .bare n => [n]
  | .paren ns => ns

def Names.text : Names → List Char
  | .bare n => n
  | .paren ns => '(' :: joinWith '/' ns ++ [')']

/-- a name is not empty and avoids the characters `( / , ) =` -/
def ValidName (n : List Char) : Prop := n ≠ [] ∧ ∀ c ∈ n, c ∉ ['(', '/', ',', ')', '=']

def Names.Valid (g : Names) : Prop := g.list ≠ [] ∧ ∀ n ∈ g.list, ValidName n

/-- `obj=prm`, `obj=prm/val`, `obj=prm/val/sig` or `obj=prm//sig` -/
structure PrmItem where
  obj : Names
  prm : Names
  val : Option Names
  sig : Option Names

def PrmItem.text (i : PrmItem) : List Char :=
  i.obj.text ++ '=' :: i.prm.text ++
    match i.val, i.sig with
    | none, none => []
    | some v, none => '/' :: v.text
    | some v, some s => '/' :: v.text ++ '/' :: s.text
    | none, some s => '/' :: '/' :: s.text

structure PrmItem.Valid {V : Type} (fl : List Char → Option V) (i : PrmItem) : Prop where
  obj : i.obj.Valid
  prm : i.prm.Valid
  val : ∀ g, i.val = some g → g.Valid ∧ ∀ t ∈ g.list, (fl t).isSome
  sig : ∀ g, i.sig = some g → g.Valid ∧ ∀ t ∈ g.list, (fl t).isSome

/-- the numbers given (one missing number when none is given) -/
def numbers {V : Type} (fl : List Char → Option V) : Option Names → List (Option V)
  | none => [none]
  | some g => g.list.map fl

/-- `k` numbers may be given for `n` objects and `m` parameters -/
abbrev CountOk (n m k : Nat) : Prop := k = 1 ∨ (m = 1 ∧ k = n) ∨ (n = 1 ∧ k = m)

/-- the number for object `a` and parameter `b` -/
def pick {V : Type} (m : Nat) (l : List (Option V)) (a b : Nat) : Option V :=
  if l.length = 1 then l.getD 0 none
  else if m = 1 then l.getD a none
  else l.getD b none

def PrmItem.CountsOk {V : Type} (fl : List Char → Option V) (i : PrmItem) : Prop :=
  CountOk i.obj.list.length i.prm.list.length (numbers fl i.val).length ∧
  CountOk i.obj.list.length i.prm.list.length (numbers fl i.sig).length

/-- the assignments of an item, in order -/
def PrmItem.assigns {V : Type} (fl : List Char → Option V) (i : PrmItem) :
    List ((List Char × List Char) × (Option V × Option V)) :=
  i.obj.list.zipIdx.flatMap (fun oa => i.prm.list.zipIdx.map (fun pb =>
    ((oa.1, pb.1), (pick i.prm.list.length (numbers fl i.val) oa.2 pb.2,
                    pick i.prm.list.length (numbers fl i.sig) oa.2 pb.2))))

/-- the last assignment to `(o, p)` -/
def lastAssign {V : Type} (o p : List Char) (l : List ((List Char × List Char) × V)) : Option V :=
  (l.reverse.find? (fun x => decide (x.1 = (o, p)))).map Prod.snd

/-- `d[o][p]` -/
def look {V : Type} (d : Prms V) (o p : List Char) : Option (Option V × Option V) :=
  (dget o d).bind (dget p)

/-! ## Reading the syntax back -/

theorem validName_char {n : List Char} (h : ValidName n) : ∀ c ∈ n, isNameChar c = true := by
  intro c hc
  have := h.2 c hc
  simp at this
  simp [isNameChar, this]

/-- the rest of the string does not continue a name -/
def Stops (rest : List Char) : Prop := ∀ c cs, rest = c :: cs → isNameChar c = false

theorem spanName_append {n rest : List Char} (h : ∀ c ∈ n, isNameChar c = true) (hs : Stops rest) :
    spanName (n ++ rest) = (n, rest) := by
  induction n with
  | nil =>
    cases rest with
    | nil => rfl
    | cons c cs => rw [List.nil_append, spanName, if_neg (by simp [hs c cs rfl])]
  | cons c n ih =>
    rw [List.cons_append, spanName, if_pos (h c (by simp)), ih (fun x hx => h x (List.mem_cons_of_mem _ hx))]

theorem nameChar_ne {c d : Char} (h : isNameChar c = true) (hd : isNameChar d = false) : c ≠ d := by
  intro e; subst e; rw [h] at hd; cases hd

theorem takeInner_name {b : Bool} {n rest : List Char} (h : ∀ c ∈ n, isNameChar c = true) (hne : n ≠ []) :
    takeInner b (n ++ rest) = (takeInner true rest).map (fun p => (n ++ p.1, p.2)) := by
  induction n generalizing b with
  | nil => exact absurd rfl hne
  | cons c n ih =>
    have hc := h c (by simp)
    rw [List.cons_append, takeInner, if_neg (nameChar_ne hc (by decide)),
      if_neg (nameChar_ne hc (by decide)), if_pos hc]
    cases n with
    | nil => rfl
    | cons d n =>
      rw [ih (fun x hx => h x (List.mem_cons_of_mem _ hx)) (by simp), Option.map_map]
      rfl

theorem takeInner_join {ns : List (List Char)} {rest : List Char} (hne : ns ≠ [])
    (h : ∀ n ∈ ns, ValidName n) :
    takeInner false (joinWith '/' ns ++ ')' :: rest) = some (joinWith '/' ns, rest) := by
  induction ns with
  | nil => exact absurd rfl hne
  | cons n ns ih =>
    have hn := h n (by simp)
    cases ns with
    | nil =>
      rw [joinWith, takeInner_name (validName_char hn) hn.1, takeInner]
      simp
    | cons m ns =>
      show takeInner false ((n ++ '/' :: joinWith '/' (m :: ns)) ++ ')' :: rest) =
        some (n ++ '/' :: joinWith '/' (m :: ns), rest)
      rw [List.append_assoc, takeInner_name (validName_char hn) hn.1, List.cons_append, takeInner,
        if_neg (by decide), if_pos rfl, if_pos rfl,
        ih (by simp) (fun x hx => h x (List.mem_cons_of_mem _ hx))]
      rfl

theorem validName_no {n : List Char} (h : ValidName n) {c : Char} (hc : c ∈ ['(', '/', ',', ')', '=']) :
    c ∉ n := fun hm => h.2 c hm hc

theorem takeGrp_text {g : Names} {rest : List Char} (h : g.Valid) (hs : Stops rest) :
    takeGrp (g.text ++ rest) = some (g.list, rest) := by
  cases g with
  | bare n =>
    have hn : ValidName n := h.2 n (by simp [Names.list])
    have hch := validName_char hn
    have e : takeGrp (n ++ rest) = if (spanName (n ++ rest)).1 = [] then none
        else some ([(spanName (n ++ rest)).1], (spanName (n ++ rest)).2) := by
      cases n with
      | nil => exact absurd rfl hn.1
      | cons c n =>
        have := nameChar_ne (hch c (by simp)) (d := '(') (by decide)
        unfold takeGrp
        split
        · rename_i heq; cases heq; exact absurd rfl this
        · rfl
    show takeGrp (n ++ rest) = _
    rw [e, spanName_append hch hs]
    simp [hn.1, Names.list]
  | paren ns =>
    have : Names.text (.paren ns) ++ rest = '(' :: (joinWith '/' ns ++ ')' :: rest) := by
      simp [Names.text]
    rw [this]
    unfold takeGrp
    simp only
    have h1 : ns ≠ [] := h.1
    have h2 : ∀ n ∈ ns, ValidName n := h.2
    rw [takeInner_join h1 h2]
    simp only [Option.map_some, Names.list]
    rw [splitOn_joinWith h1 (fun p hp => validName_no (h2 p hp) (by simp))]

theorem stops_nil : Stops [] := by intro c cs h; cases h
theorem stops_cons {c : Char} (h : isNameChar c = false) (cs : List Char) : Stops (c :: cs) := by
  intro d ds e; cases e; exact h

theorem takeGrp_slash (cs : List Char) : takeGrp ('/' :: cs) = none := by
  unfold takeGrp; simp [spanName, isNameChar]

theorem matchPrm_text {V : Type} {fl : List Char → Option V} {i : PrmItem} (h : i.Valid fl) :
    matchPrm i.text = some ⟨i.obj.list, i.prm.list, i.val.map Names.list, i.sig.map Names.list⟩ := by
  obtain ⟨obj, prm, val, sig⟩ := i
  unfold PrmItem.text matchPrm
  simp only [List.append_assoc, List.cons_append]
  rw [takeGrp_text h.obj (stops_cons (by decide) _)]
  simp only
  cases val with
  | none =>
    cases sig with
    | none =>
      simp only
      rw [takeGrp_text h.prm stops_nil]; rfl
    | some s =>
      simp only
      rw [takeGrp_text h.prm (stops_cons (by decide) _)]
      simp only [takeVals, takeGrp_slash, takeSig]
      have := takeGrp_text (rest := []) (h.sig s rfl).1 stops_nil
      rw [List.append_nil] at this
      rw [this]; rfl
  | some v =>
    cases sig with
    | none =>
      simp only
      rw [takeGrp_text h.prm (stops_cons (by decide) _)]
      have := takeGrp_text (rest := []) (h.val v rfl).1 stops_nil
      rw [List.append_nil] at this
      simp only [takeVals, this, takeSig]; rfl
    | some s =>
      simp only
      rw [takeGrp_text h.prm (stops_cons (by decide) _)]
      have := takeGrp_text (rest := []) (h.sig s rfl).1 stops_nil
      rw [List.append_nil] at this
      simp only [takeVals]
      rw [takeGrp_text (h.val v rfl).1 (stops_cons (by decide) _)]
      simp only [takeSig, this]; rfl

/-! ## Broadcasting -/

theorem flatten_replicate_one {α : Type} (n : Nat) (x : α) :
    (List.replicate n [x]).flatten = List.replicate n x := by
  induction n with
  | zero => rfl
  | succ n ih => rw [List.replicate_succ, List.flatten_cons, ih]; rfl

theorem bcast_eq {V : Type} {n m : Nat} (_hn : 0 < n) (_hm : 0 < m) (l : List (Option V)) :
    bcast n m l = if CountOk n m l.length then
      some ((List.range n).map (fun a => (List.range m).map (fun b => pick m l a b))) else none := by
  unfold bcast CountOk
  by_cases h1 : l.length = 1
  · obtain ⟨x, rfl⟩ := List.length_eq_one_iff.1 h1
    have hp : ∀ a b, pick m [x] a b = x := by intro a b; simp [pick]
    simp only [List.length_singleton, true_or, if_true, hp, List.map_const', List.length_range,
      flatten_replicate_one, List.length_replicate, List.map_replicate]
    by_cases hn1 : n = 1 <;> by_cases hm1 : m = 1 <;> simp [hn1, hm1]
  · simp only [h1, if_false, false_or]
    by_cases hn1 : n = 1
    · subst hn1
      by_cases hm1 : m = 1
      · subst hm1; simp [h1]
      · simp only [ne_eq, not_true, if_false, hm1, not_false_eq_true, if_true, false_and, true_and, false_or]
        by_cases hk : l.length = m
        · rw [if_pos hk, if_pos hk]
          congr 1
          simp only [List.range_one, List.map_singleton, List.cons.injEq, and_true]
          apply List.ext_getElem
          · simp [hk]
          · intro i hi1 hi2
            simp only [List.getElem_map, List.getElem_range, pick, h1, if_false, hm1]
            simp [List.getD_eq_getElem?_getD, hi1]
        · rw [if_neg hk, if_neg hk]
    · simp only [ne_eq, hn1, not_false_eq_true, if_true, false_and, or_false]
      by_cases hm1 : m = 1
      · subst hm1
        simp only [not_true, if_false, true_and]
        by_cases hk : l.length = n
        · rw [if_pos hk, if_pos hk]
          congr 1
          apply List.ext_getElem
          · simp [hk]
          · intro i hi1 hi2
            rw [List.length_map] at hi1
            simp [pick, h1, List.getD_eq_getElem?_getD, hi1]
        · rw [if_neg hk, if_neg hk]
      · simp [hm1]

/-! ## Dictionary updates -/

/-- override the value of one key, left to right -/
def override {V : Type} (o p : List Char) (r : Option V) (l : List ((List Char × List Char) × V)) :
    Option V :=
  l.foldl (fun r x => if x.1 = (o, p) then some x.2 else r) r

theorem override_eq {V : Type} (o p : List Char) (l : List ((List Char × List Char) × V)) (r : Option V) :
    override o p r l = (lastAssign o p l).or r := by
  induction l generalizing r with
  | nil => simp [override, lastAssign]
  | cons x l ih =>
    have := ih (if x.1 = (o, p) then some x.2 else r)
    unfold override at this ⊢
    rw [List.foldl_cons, this]
    unfold lastAssign
    rw [List.reverse_cons, List.find?_append]
    cases hf : l.reverse.find? (fun x => decide (x.1 = (o, p))) with
    | some y => simp
    | none =>
      by_cases hx : x.1 = (o, p)
      · simp [hx]
      · simp [hx]

theorem look_setObj {V : Type} (o' : List Char) (ps : List (List Char × (Option V × Option V)))
    (d : Prms V) (o p : List Char) :
    look (setObj o' ps d) o p = override o p (look d o p) (ps.map (fun x => ((o', x.1), x.2))) := by
  unfold setObj look
  rw [dget_dset]
  split
  · rename_i e; subst e
    simp only [Option.bind_some]
    have : ∀ (cur : List (List Char × (Option V × Option V))),
        dget p (ps.foldl (fun c p => dset p.1 p.2 c) cur) =
        override o' p (dget p cur) (ps.map (fun x => ((o', x.1), x.2))) := by
      induction ps with
      | nil => intro cur; rfl
      | cons x ps ih =>
        intro cur
        rw [List.foldl_cons, ih, dget_dset]
        simp [override]
    rw [this]
    congr 1
    cases dget o' d <;> simp [dget]
  · rename_i e
    have : ∀ r : Option (Option V × Option V),
        override o p r (ps.map (fun x => ((o', x.1), x.2))) = r := by
      induction ps with
      | nil => intro r; rfl
      | cons x ps ih =>
        intro r
        have h2 := ih r
        unfold override at h2 ⊢
        rw [List.map_cons, List.foldl_cons, if_neg (by simp [e]), h2]
    rw [this]

theorem override_append {V : Type} (o p : List Char) (r : Option V)
    (l1 l2 : List ((List Char × List Char) × V)) :
    override o p r (l1 ++ l2) = override o p (override o p r l1) l2 := by
  unfold override; rw [List.foldl_append]

theorem look_foldl {V : Type} (pl : List (List Char))
    (rows : List (List Char × (List (Option V) × List (Option V)))) (d : Prms V) (o p : List Char) :
    look (rows.foldl (fun d x => setObj x.1 (pl.zip (x.2.1.zip x.2.2)) d) d) o p =
    override o p (look d o p) (rows.flatMap (fun x =>
      (pl.zip (x.2.1.zip x.2.2)).map (fun y => ((x.1, y.1), y.2)))) := by
  induction rows generalizing d with
  | nil => rfl
  | cons x rows ih =>
    rw [List.foldl_cons, ih, look_setObj, List.flatMap_cons, override_append]

theorem zip_rows {α β : Type} (l : List α) (f : Nat → β) :
    l.zip ((List.range l.length).map f) = l.zipIdx.map (fun x => (x.1, f x.2)) := by
  apply List.ext_getElem
  · simp
  · intro i h1 h2
    simp

theorem numbers_floats {V : Type} {fl : List Char → Option V} {g : Option Names}
    (h : ∀ g', g = some g' → g'.Valid ∧ ∀ t ∈ g'.list, (fl t).isSome) :
    floats fl (g.map Names.list) = some (numbers fl g) := by
  cases g with
  | none => rfl
  | some g =>
    obtain ⟨_, h2⟩ := h g rfl
    simp only [Option.map_some, floats, numbers]
    generalize g.list = l at *
    induction l with
    | nil => rfl
    | cons t l ih =>
      have ht := h2 t (by simp)
      cases hf : fl t with
      | none => rw [hf] at ht; cases ht
      | some v =>
        rw [List.mapM_cons, ih (fun x hx => h2 x (List.mem_cons_of_mem _ hx)), List.map_cons, hf]
        rfl

theorem addItem_text {V : Type} {fl : List Char → Option V} {i : PrmItem} (h : i.Valid fl) (d : Prms V) :
    (i.CountsOk fl → ∃ d', addItem fl d i.text = some d' ∧
      ∀ o p, look d' o p = override o p (look d o p) (i.assigns fl)) ∧
    (¬ i.CountsOk fl → addItem fl d i.text = none) := by
  have hn : 0 < i.obj.list.length := List.length_pos_iff.2 h.obj.1
  have hm : 0 < i.prm.list.length := List.length_pos_iff.2 h.prm.1
  have e1 := numbers_floats h.val
  have e2 := numbers_floats h.sig
  constructor
  · rintro ⟨h1, h2⟩
    have e : addItem fl d i.text = some ((i.obj.list.zip
        (((List.range i.obj.list.length).map (fun a => (List.range i.prm.list.length).map (fun b =>
          pick i.prm.list.length (numbers fl i.val) a b))).zip
         ((List.range i.obj.list.length).map (fun a => (List.range i.prm.list.length).map (fun b =>
          pick i.prm.list.length (numbers fl i.sig) a b))))).foldl
        (fun d x => setObj x.1 (i.prm.list.zip (x.2.1.zip x.2.2)) d) d) := by
      unfold addItem
      rw [matchPrm_text h]
      simp only [Option.bind_eq_bind, Option.bind_some]
      rw [e1, e2]
      simp only [Option.bind_some]
      rw [bcast_eq hn hm, if_pos h1]
      simp only [Option.bind_some]
      rw [bcast_eq hn hm, if_pos h2]
      rfl
    refine ⟨_, e, fun o p => ?_⟩
    rw [look_foldl]
    congr 1
    rw [List.zip_map', zip_rows, List.flatMap_map]
    unfold PrmItem.assigns
    congr 1
    funext x
    simp only
    rw [List.zip_map', zip_rows, List.map_map]
    rfl
  · intro hc
    unfold addItem
    rw [matchPrm_text h]
    simp only [Option.bind_eq_bind, Option.bind_some]
    rw [e1, e2]
    simp only [Option.bind_some]
    rw [bcast_eq hn hm, bcast_eq hn hm]
    by_cases h1 : CountOk i.obj.list.length i.prm.list.length (numbers fl i.val).length
    · rw [if_pos h1, if_neg (fun h2 => hc ⟨h1, h2⟩)]; rfl
    · rw [if_neg h1]; rfl

theorem comma_not_mem_names {g : Names} (h : g.Valid) : ',' ∉ g.text := by
  cases g with
  | bare n => exact validName_no (h.2 n (by simp [Names.list])) (by simp)
  | paren ns =>
    unfold Names.text
    have := joinWith_not_mem (sep := '/') (s := ',') (by decide)
      (ps := ns) (fun p hp => validName_no (h.2 p hp) (by simp))
    simp [this]

theorem comma_not_mem {V : Type} {fl : List Char → Option V} {i : PrmItem} (h : i.Valid fl) :
    ',' ∉ i.text := by
  obtain ⟨obj, prm, val, sig⟩ := i
  have h1 := comma_not_mem_names h.obj
  have h2 := comma_not_mem_names h.prm
  unfold PrmItem.text
  simp only at h1 h2
  cases val with
  | none =>
    cases sig with
    | none => simp [h1, h2]
    | some s => have h3 := comma_not_mem_names (h.sig s rfl).1; simp [h1, h2, h3]
  | some v =>
    have h3 := comma_not_mem_names (h.val v rfl).1
    cases sig with
    | none => simp [h1, h2, h3]
    | some s => have h4 := comma_not_mem_names (h.sig s rfl).1; simp [h1, h2, h3, h4]

/-! ## The property -/

/-- C08: every string made of items with admissible counts parses, and the value and error found under
`[o][p]` are those of the last assignment to that object and parameter; nothing else is in the dictionary. -/
theorem c08_meaning {V : Type} (fl : List Char → Option V) (items : List PrmItem) (hne : items ≠ [])
    (hv : ∀ i ∈ items, i.Valid fl) (hc : ∀ i ∈ items, i.CountsOk fl) :
    ∃ d, parsePrms fl (joinWith ',' (items.map PrmItem.text)) = some d ∧
      ∀ o p, look d o p = lastAssign o p (items.flatMap (PrmItem.assigns fl)) := by
  unfold parsePrms
  rw [splitOn_joinWith (by simpa using hne)
    (by intro p hp; rw [List.mem_map] at hp; obtain ⟨i, hi, rfl⟩ := hp; exact comma_not_mem (hv i hi))]
  have : ∀ (l : List PrmItem) (d : Prms V), (∀ i ∈ l, i.Valid fl) → (∀ i ∈ l, i.CountsOk fl) →
      ∃ d', (l.map PrmItem.text).foldlM (addItem fl) d = some d' ∧
        ∀ o p, look d' o p = override o p (look d o p) (l.flatMap (PrmItem.assigns fl)) := by
    intro l
    induction l with
    | nil => intro d _ _; exact ⟨d, rfl, fun _ _ => rfl⟩
    | cons i l ih =>
      intro d h1 h2
      obtain ⟨d1, e1, e2⟩ := (addItem_text (h1 i (by simp)) d).1 (h2 i (by simp))
      obtain ⟨d2, e3, e4⟩ := ih d1 (fun x hx => h1 x (List.mem_cons_of_mem _ hx))
        (fun x hx => h2 x (List.mem_cons_of_mem _ hx))
      refine ⟨d2, ?_, fun o p => ?_⟩
      · rw [List.map_cons, List.foldlM_cons, e1]; exact e3
      · rw [e4, e2, List.flatMap_cons, override_append]
  obtain ⟨d, e, h⟩ := this items [] hv hc
  refine ⟨d, e, fun o p => ?_⟩
  rw [h, override_eq]
  simp [look, dget]

/-- C08: an item with an inadmissible number of values or errors makes the whole string be rejected. -/
theorem c08_mismatch_rejected {V : Type} (fl : List Char → Option V) (items : List PrmItem)
    (hv : ∀ i ∈ items, i.Valid fl) (i : PrmItem) (hi : i ∈ items) (hbad : ¬ i.CountsOk fl) :
    parsePrms fl (joinWith ',' (items.map PrmItem.text)) = none := by
  have hne : items ≠ [] := by intro e; subst e; cases hi
  unfold parsePrms
  rw [splitOn_joinWith (by simpa using hne)
    (by intro p hp; rw [List.mem_map] at hp; obtain ⟨i, hi, rfl⟩ := hp; exact comma_not_mem (hv i hi))]
  clear hne
  have : ∀ (l : List PrmItem) (d : Prms V), (∀ i ∈ l, i.Valid fl) → i ∈ l →
      (l.map PrmItem.text).foldlM (addItem fl) d = none := by
    intro l
    induction l with
    | nil => intro d _ h; cases h
    | cons j l ih =>
      intro d h1 h2
      rw [List.map_cons, List.foldlM_cons]
      rcases List.mem_cons.1 h2 with rfl | h2
      · rw [(addItem_text (h1 i (by simp)) d).2 hbad]; rfl
      · cases addItem fl d j.text with
        | none => rfl
        | some d' => exact ih d' (fun x hx => h1 x (List.mem_cons_of_mem _ hx)) h2
  exact this items [] hv hi

/-- C08: an item that does not mention `(o, p)` does not change what the rest of the string says about it. -/
theorem c08_unrelated_item {V : Type} (fl : List Char → Option V) (items : List PrmItem) (i : PrmItem)
    (hne : items ≠ []) (hv : ∀ j ∈ i :: items, j.Valid fl) (hc : ∀ j ∈ i :: items, j.CountsOk fl)
    (o p : List Char) (hno : o ∉ i.obj.list ∨ p ∉ i.prm.list) :
    ∃ d d', parsePrms fl (joinWith ',' (items.map PrmItem.text)) = some d ∧
      parsePrms fl (joinWith ',' ((items ++ [i]).map PrmItem.text)) = some d' ∧
      look d' o p = look d o p := by
  obtain ⟨d, e, h⟩ := c08_meaning fl items hne (fun j hj => hv j (List.mem_cons_of_mem _ hj))
    (fun j hj => hc j (List.mem_cons_of_mem _ hj))
  obtain ⟨d', e', h'⟩ := c08_meaning fl (items ++ [i]) (by simp)
    (by intro j hj; rcases List.mem_append.1 hj with hj | hj
        · exact hv j (List.mem_cons_of_mem _ hj)
        · rw [List.mem_singleton] at hj; subst hj; exact hv _ (by simp))
    (by intro j hj; rcases List.mem_append.1 hj with hj | hj
        · exact hc j (List.mem_cons_of_mem _ hj)
        · rw [List.mem_singleton] at hj; subst hj; exact hc _ (by simp))
  refine ⟨d, d', e, e', ?_⟩
  rw [h, h', List.flatMap_append, List.flatMap_singleton]
  unfold lastAssign
  rw [List.reverse_append, List.find?_append]
  have : (PrmItem.assigns fl i).reverse.find? (fun x => decide (x.1 = (o, p))) = none := by
    rw [List.find?_eq_none]
    intro x hx
    rw [List.mem_reverse] at hx
    unfold PrmItem.assigns at hx
    rw [List.mem_flatMap] at hx
    obtain ⟨oa, h1, h2⟩ := hx
    rw [List.mem_map] at h2
    obtain ⟨pb, h3, rfl⟩ := h2
    have m1 := List.mem_zipIdx h1
    have m2 := List.mem_zipIdx h3
    simp only [decide_eq_true_eq, Prod.mk.injEq]
    rintro ⟨rfl, rfl⟩
    rcases hno with hno | hno
    · exact hno (by rw [m1.2.2]; exact List.getElem_mem _)
    · exact hno (by rw [m2.2.2]; exact List.getElem_mem _)
  rw [this]; rfl

/-- `(a/b)=x/(1/2)/5,a=(x/y)/7` meets the hypotheses and means: a.x = 7, a.y = 7, b.x = 2 with error 5. -/
example :
    let items : List PrmItem :=
      [⟨.paren ["a".toList, "b".toList], .bare "x".toList, some (.paren ["1".toList, "2".toList]),
        some (.bare "5".toList)⟩,
       ⟨.bare "a".toList, .paren ["x".toList, "y".toList], some (.bare "7".toList), none⟩]
    joinWith ',' (items.map PrmItem.text) = "(a/b)=x/(1/2)/5,a=(x/y)/7".toList ∧
    (∀ i ∈ items, i.CountsOk parseNat) ∧
    (parsePrms parseNat (joinWith ',' (items.map PrmItem.text))).map (fun d =>
      (look d "a".toList "x".toList, look d "b".toList "x".toList, look d "b".toList "y".toList)) =
      some (some (some 7, none), some (some 2, some 5), none) := by
  refine ⟨by decide, ?_, rfl⟩
  intro i hi
  simp only [List.mem_cons, List.not_mem_nil, or_false] at hi
  rcases hi with rfl | rfl <;> (unfold PrmItem.CountsOk; decide)

/-- Text after the recognised part of an item is silently dropped: a fourth field is not an error. -/
theorem c08_trailing_text_ignored :
    parsePrms parseNat "a=x/1/2/3".toList = parsePrms parseNat "a=x/1/2".toList ∧
    (parsePrms parseNat "a=x/1/2".toList).isSome := ⟨rfl, rfl⟩

end Verif.Scripting
