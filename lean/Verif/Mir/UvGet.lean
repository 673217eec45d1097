import Verif.Mir.TwoPass
import Verif.Util.Dict

/-!
# `uv[name]`, `uv.vars()`, `uv.items()` (C101)

What a user sees of a data set that is a directory: the table of variables that `UV` makes of the item `vartable`, the
variables and the header items that `uv[name]` finds.
-/

namespace Verif.Mir.Uv

open Verif.Mir.Hio (Byte Item Flat Op Tree Dataset Rel session reopenTree openRead newTree)
open Verif.Mir.Mask (Mask)
open Verif.Util (dget dset)
open Verif.Mir.Head (rdhd HOp Conv Asg Val Kind itype HErr itemtable)

/-! ## The model -/

/-- a string of Python: code points -/
abbrev PyStr := List Nat

/-- `str.isspace` of a code point -/
def pySpace (n : Nat) : Bool :=
  (9 ≤ n && n ≤ 13) || (28 ≤ n && n ≤ 32) || n = 0x85 || n = 0xA0 || n = 0x1680 || (0x2000 ≤ n && n ≤ 0x200A) || n = 0x2028 ||
    n = 0x2029 || n = 0x202F || n = 0x205F || n = 0x3000

/-- `s.split('\n')`, with what has been read of the current line -/
def splitNl (cur : PyStr) : PyStr → List PyStr
  | [] => [cur]
  | c :: cs => if c = 10 then cur :: splitNl [] cs else splitNl (cur ++ [c]) cs

/-- `s.split()`, with what has been read of the current word -/
def splitWords (cur : PyStr) : PyStr → List PyStr
  | [] => if cur = [] then [] else [cur]
  | c :: cs =>
    if pySpace c then (if cur = [] then splitWords [] cs else cur :: splitWords [] cs) else splitWords (cur ++ [c]) cs

/-- the dictionary `vartable`: the types of the variables -/
abbrev VarTable := List (PyStr × PyStr)

/-- one line of `_gen_vartable`, miriad.py 91-94; a line that has not two words is skipped -/
def tableEntry (vt : VarTable) (line : PyStr) : VarTable :=
  match splitWords [] line with
  | [ty, name] => dset name ty vt
  | _ => vt

/-- `_gen_vartable`, miriad.py 87-95, of the text of the item -/
def genVartable (s : PyStr) : VarTable := (splitNl [] s).foldl tableEntry []

/-- the same with `self._rdhd('vartable')`; `none` for the exceptions -/
def vartable (c : Conv) (t : Tree) (g : Nat → Byte) : Option VarTable :=
  match rdhd c t itVartable g with
  | .ok (.str s) => some (genVartable s)
  | _ => none

/-- `UV.vars`, miriad.py 96-98 -/
def varNames (vt : VarTable) : List PyStr := vt.map (·.1)

/-- the loop of `UV.items`, miriad.py 99-107 -/
def listItems (t : Tree) (g : Nat → Byte) : List (Hio.Name × Kind) → Except HErr (List Hio.Name)
  | [] => .ok []
  | p :: ps =>
    match Head.openItem t p.1 g with
    | .ok _ => (listItems t g ps).map (p.1 :: ·)
    | .error .io => listItems t g ps
    | .error e => .error e

/-- what `uv[name]` raises: `KeyError`, the exceptions of `_rdvr`, those of `_rdhd` -/
inductive GetErr
  | key
  | var
  | item (e : HErr)
  deriving DecidableEq, Repr

/-- what `uv[name]` is: the value of a variable or of an item -/
inductive Got
  | var (v : PyVal)
  | item (v : Val)
  deriving DecidableEq, Repr

/-- `itemtable[name]`, as the name in the directory -/
def itemNamed (name : PyStr) : Option Hio.Name :=
  (itemtable.find? fun p => decide (p.1.map (·.toNat) = name)).map (·.1)

/-- `UV.__getitem__`, miriad.py 182-189 (names of ASCII characters; `_rdvr` looks only at the first character of the type) -/
def pyGet (E : Env) (c : Conv) (t : Tree) (g : Nat → Byte) (vt : VarTable) (r : Reader) (name : PyStr) : Except GetErr Got :=
  match dget name vt with
  | some ty =>
    match rdvr E.fo E.junk r (name.map Char.ofNat) (Char.ofNat (ty.headD 0)) with
    | some v => .ok (.var v)
    | none => .error .var
  | none =>
    match itemNamed name with
    | none => .error .key
    | some i =>
      match rdhd c t i g with
      | .ok v => .ok (.item v)
      | .error e => .error (.item e)

/-- `self.nchan`, miriad.py 80 and 84-85: only `KeyError` is caught.  (A value that is no number is an exception here; in
the code it is one when it is first used.) -/
def sizeFrom (x : Except GetErr Got) : Option Nat :=
  match x with
  | .ok (.var (.int n)) => some n.toNat
  | .error .key => some MAXCHAN
  | _ => none

/-- `UV.__init__(filename)`, miriad.py 73-86 -/
def pyOpen (E : Env) (c : Conv) (g : Nat → Byte) (t : Tree) (m : Mask) : Option (VarTable × Item × VisR × Nat) :=
  (openOld t g).bind fun x =>
    (vartable c t g).bind fun vt =>
      match huvread g MAXCHAN x.1 ⟨x.2, 0, m⟩ with
      | (it', .ok S _) => (sizeFrom (pyGet E c t g vt (rewind S.r) (nmNchan.map (·.toNat)))).map fun n => (vt, it', rewindVis S, n)
      | _ => none

/-! ## The specification -/

/-- what the user calls a variable -/
def asPy (nm : Name) : PyStr := nm.map (·.toNat)

/-- what the user calls an item -/
def asItem (n : Hio.Name) : PyStr := n.map (·.toNat)

/-- the program gave a value to the variable, or (for `corr`) declared it -/
def Named (es : List Ev) (nm : Name) : Prop := (∃ ty d, Ev.put nm ty d ∈ es ∧ d ≠ []) ∨ ∃ ty, Ev.noCheck nm ty ∈ es

/-- the letters of the types in `data_types`, miriad.py 57-64 -/
def letterOf : Ty → Nat
  | .byte => 'a'.toNat
  | .int2 => 'j'.toNat
  | .int => 'i'.toNat
  | .real => 'r'.toNat
  | .dble => 'd'.toNat
  | .cmplx => 'c'.toNat

/-! ## The table -/

theorem nat_of_name {nm : Name} (h : Visible nm) : (nameBytes nm).map (·.toNat) = asPy nm := by
  unfold nameBytes asPy
  rw [List.map_map]
  refine List.map_congr_left fun ch hc => ?_
  have := h.2 ch hc
  show (UInt8.ofNat ch.toNat).toNat = _
  rw [UInt8.toNat_ofNat']
  omega

theorem char_of_py {nm : Name} : (asPy nm).map Char.ofNat = nm := by
  unfold asPy
  rw [List.map_map]
  conv_rhs => rw [← List.map_id nm]
  exact List.map_congr_left fun ch _ => Char.ofNat_toNat ch

theorem asPy_inj {a b : Name} (h : asPy a = asPy b) : a = b := by
  rw [← char_of_py (nm := a), h, char_of_py]

theorem visible_word {n : Nat} (h1 : 33 ≤ n) (h2 : n ≤ 126) : pySpace n = false := by
  unfold pySpace
  simp only [Bool.or_eq_false_iff, Bool.and_eq_false_iff, decide_eq_false_iff_not]
  omega

theorem words_of (s : PyStr) (h : ∀ n ∈ s, pySpace n = false) : ∀ cur, splitWords cur s = if cur ++ s = [] then [] else [cur ++ s] := by
  induction s with
  | nil => intro cur; rw [List.append_nil]; rfl
  | cons n s ih =>
    intro cur
    show (if pySpace n then _ else splitWords (cur ++ [n]) s) = _
    rw [h n List.mem_cons_self, if_neg (by decide), ih (fun x hx => h x (List.mem_cons_of_mem _ hx)), List.append_assoc]
    rfl

theorem line_words (p : Name × Ty) (h : Visible p.1) :
    splitWords [] ((tableLine p).map (·.toNat)) = [[letterOf p.2], asPy p.1] := by
  have hl : (tableLine p).map (·.toNat) = letterOf p.2 :: 32 :: asPy p.1 := by
    unfold tableLine
    rw [List.map_append, nat_of_name h]
    obtain ⟨nm, ty⟩ := p
    cases ty <;> rfl
  rw [hl]
  have h1 : ∀ ty : Ty, pySpace (letterOf ty) = false := by intro ty; cases ty <;> decide
  show (if pySpace (letterOf p.2) then _ else splitWords ([] ++ [letterOf p.2]) (32 :: asPy p.1)) = _
  rw [h1 p.2, if_neg (by decide)]
  show [letterOf p.2] :: splitWords [] (asPy p.1) = _
  rw [words_of]
  · rw [if_neg]
    · rfl
    · rw [List.nil_append]
      intro hc
      exact h.1 (List.map_eq_nil_iff.1 hc)
  · intro n hn
    obtain ⟨ch, hc, rfl⟩ := List.mem_map.1 hn
    exact visible_word (h.2 ch hc).1 (h.2 ch hc).2

theorem nl_line (s : PyStr) (h : ∀ n ∈ s, n ≠ 10) (rest : PyStr) : ∀ cur, splitNl cur (s ++ 10 :: rest) = (cur ++ s) :: splitNl [] rest := by
  induction s with
  | nil =>
    intro cur
    show (if (10 : Nat) = 10 then cur :: splitNl [] rest else _) = _
    rw [if_pos rfl, List.append_nil]
  | cons n s ih =>
    intro cur
    show (if n = 10 then _ else splitNl (cur ++ [n]) (s ++ 10 :: rest)) = _
    rw [if_neg (h n List.mem_cons_self), ih (fun x hx => h x (List.mem_cons_of_mem _ hx)), List.append_assoc]
    rfl

theorem line_bytes (p : Name × Ty) (h : Visible p.1) : ∀ b ∈ tableLine p, b.toNat ≠ 10 ∧ b ≠ 0 := by
  intro b hb
  rcases List.mem_append.1 hb with hb | hb
  · have h1 : ∀ ty : Ty, ∀ b ∈ [ty.letter, (32 : Byte)], b.toNat ≠ 10 ∧ b ≠ 0 := by
      intro ty
      cases ty <;> decide
    exact h1 p.2 b hb
  · obtain ⟨ch, hc, rfl⟩ := List.mem_map.1 hb
    have := h.2 ch hc
    have hn : (UInt8.ofNat ch.toNat).toNat = ch.toNat := by
      rw [UInt8.toNat_ofNat']
      omega
    refine ⟨by rw [hn]; omega, fun h0 => ?_⟩
    rw [h0] at hn
    have : (0 : Byte).toNat = 0 := rfl
    omega

theorem shown_lines : ∀ tbl : List (Name × Ty), (∀ p ∈ tbl, Visible p.1) →
    splitNl [] (shownText (Head.textOf (tbl.map tableLine))) = (tbl.map fun p => (tableLine p).map (·.toNat)) ++ [[]]
  | [], _ => rfl
  | p :: tbl, h => by
    have hp := h p List.mem_cons_self
    have hb := line_bytes p hp
    have e : shownText (Head.textOf ((p :: tbl).map tableLine)) =
        (tableLine p).map (·.toNat) ++ 10 :: shownText (Head.textOf (tbl.map tableLine)) := by
      unfold shownText
      rw [List.map_cons, Head.textOf_cons, List.filter_append, List.filter_append, List.map_append, List.map_append,
        List.filter_eq_self.2 (fun b hb' => by simpa using (hb b hb').2), List.append_assoc]
      rfl
    rw [e, nl_line _ _ _ [], shown_lines tbl fun q hq => h q (List.mem_cons_of_mem _ hq)]
    · rfl
    · intro n hn
      obtain ⟨b, hb', rfl⟩ := List.mem_map.1 hn
      exact (hb b hb').1

theorem dset_new {K V : Type} [DecidableEq K] (k : K) (v : V) : ∀ d : List (K × V), k ∉ d.map (·.1) → dset k v d = d ++ [(k, v)]
  | [], _ => rfl
  | (k', v') :: d, h => by
    rw [List.map_cons, List.mem_cons, not_or] at h
    show (if k' = k then _ else (k', v') :: dset k v d) = _
    rw [if_neg fun e => h.1 e.symm, dset_new k v d h.2]
    rfl

/-- the entry of a variable -/
def entryOf (p : Name × Ty) : PyStr × PyStr := (asPy p.1, [letterOf p.2])

theorem gen_fold : ∀ (tbl : List (Name × Ty)) (vt : VarTable), (∀ p ∈ tbl, Visible p.1) → (tbl.map (·.1)).Nodup →
    (∀ p ∈ tbl, asPy p.1 ∉ vt.map (·.1)) →
    (tbl.map fun p => (tableLine p).map (·.toNat)).foldl tableEntry vt = vt ++ tbl.map entryOf
  | [], vt, _, _, _ => by rw [List.map_nil, List.map_nil, List.append_nil]; rfl
  | p :: tbl, vt, h, hn, ha => by
    rw [List.map_cons, List.nodup_cons] at hn
    have e : tableEntry vt ((tableLine p).map (·.toNat)) = vt ++ [entryOf p] := by
      unfold tableEntry
      rw [line_words p (h p List.mem_cons_self)]
      exact dset_new _ _ _ (ha p List.mem_cons_self)
    rw [List.map_cons, List.foldl_cons, e, gen_fold tbl _ (fun q hq => h q (List.mem_cons_of_mem _ hq)) hn.2, List.append_assoc]
    · rfl
    · intro q hq hc
      rw [List.map_append, List.mem_append] at hc
      rcases hc with hc | hc
      · exact ha q (List.mem_cons_of_mem _ hq) hc
      · have : asPy q.1 = asPy p.1 := by simpa [entryOf] using hc
        exact hn.1 (by rw [← asPy_inj this]; exact List.mem_map.2 ⟨q, hq, rfl⟩)

/-- `_gen_vartable` gives the table of the C library -/
theorem vartable_eq {names : List Hio.Name} {t : Tree} {w : Writer} {fl : Nat} {D : Dataset} (h : Closed names t w fl D) (c : Conv)
    (g : Nat → Byte) : vartable c t g = some ((table w).map entryOf) := by
  obtain ⟨l1, l2⟩ := text_length (table w) h.tabled.plain
  have hfew := h.tabled.few
  have hvis : ∀ p ∈ table w, Visible p.1 := fun p hp => (h.tabled.plain p hp).2
  obtain ⟨_, e⟩ := rdhd_text h.good.rel h.good.items c (by decide) h.tbl (Head.text_flat _ _ (by omega)) (by omega) (by
    intro b hb
    obtain ⟨l, hl, hb⟩ := List.mem_flatMap.1 hb
    obtain ⟨p, hp, rfl⟩ := List.mem_map.1 hl
    rcases List.mem_append.1 hb with hb | hb
    · exact line_small p (hvis p hp) b hb
    · rw [List.mem_singleton.1 hb]; exact nl_small) g
  unfold vartable
  rw [e]
  show some (genVartable _) = _
  unfold genVartable
  rw [shown_lines _ hvis, List.foldl_append, gen_fold _ _ hvis h.tabled.nodup fun p _ hc => by cases hc]
  rfl

theorem dget_entry {tbl : List (Name × Ty)} (hn : (tbl.map (·.1)).Nodup) {nm : Name} {ty : Ty} (h : (nm, ty) ∈ tbl) :
    dget (asPy nm) (tbl.map entryOf) = some [letterOf ty] := by
  induction tbl with
  | nil => cases h
  | cons p tbl ih =>
    rw [List.map_cons, List.nodup_cons] at hn
    show (if asPy p.1 = asPy nm then some [letterOf p.2] else dget (asPy nm) (tbl.map entryOf)) = _
    rcases List.mem_cons.1 h with rfl | h
    · rw [if_pos rfl]
    · rw [if_neg]
      · exact ih hn.2 h
      · intro e
        exact hn.1 (by rw [asPy_inj e]; exact List.mem_map.2 ⟨_, h, rfl⟩)

theorem dget_absent {tbl : List (Name × Ty)} {k : PyStr} (h : ∀ p ∈ tbl, asPy p.1 ≠ k) : dget k (tbl.map entryOf) = none := by
  induction tbl with
  | nil => rfl
  | cons p tbl ih =>
    show (if asPy p.1 = k then some [letterOf p.2] else dget k (tbl.map entryOf)) = _
    rw [if_neg (h p List.mem_cons_self)]
    exact ih fun q hq => h q (List.mem_cons_of_mem _ hq)

/-! ## The variables of the program -/

theorem mkvar_names {w w1 : Writer} {name : Name} {ty : Ty} {i : Nat} (h : mkvar w name ty = some (w1, i)) (nm : Name) :
    nm ∈ (table w1).map (·.1) ↔ nm ∈ (table w).map (·.1) ∨ nm = name := by
  unfold mkvar at h
  cases hl : locvar w.vars name with
  | some j =>
    rw [hl] at h
    simp only [Option.some.injEq, Prod.mk.injEq] at h
    rw [← h.1]
    refine ⟨Or.inl, fun h' => ?_⟩
    rcases h' with h' | rfl
    · exact h'
    · unfold locvar at hl
      obtain ⟨hj, hp, _⟩ := List.findIdx?_eq_some_iff_getElem.1 hl
      exact List.mem_map.2 ⟨_, List.mem_map.2 ⟨_, List.getElem_mem hj, rfl⟩, by simpa using hp⟩
  | none =>
    rw [hl] at h
    simp only at h
    split at h
    · cases h
    · split at h
      · cases h
      · simp only [Option.some.injEq, Prod.mk.injEq] at h
        rw [← h.1]
        unfold table
        simp

theorem put_named {w w' : Writer} {name : Name} {ty : Ty} {d : List Byte} (h : wstep w (.put name ty d) = some w')
    (hok : EvOk (.put name ty d)) (nm : Name) :
    nm ∈ (table w').map (·.1) ↔ nm ∈ (table w).map (·.1) ∨ (d ≠ [] ∧ nm = name) := by
  simp only [wstep] at h
  by_cases hn : d.length / ty.mem = 0
  · have hd : d = [] := by
      have := Nat.div_add_mod d.length ty.mem
      rw [hn, hok.1] at this
      exact List.length_eq_zero_iff.1 (by omega)
    simp only [put, if_pos hn, Option.some.injEq] at h
    rw [← h]
    exact ⟨Or.inl, fun h' => h'.elim id fun h' => absurd hd h'.1⟩
  · have hd : d ≠ [] := by
      intro hd
      rw [hd, List.length_nil, Nat.zero_div] at hn
      exact hn rfl
    obtain ⟨w1, i, v, hm, hv, hty, rfl⟩ := put_some h hn
    have e : table ⟨w1.vars.set i (putVar w1 i v d (d.length / ty.mem)).2, (putVar w1 i v d (d.length / ty.mem)).1.offset,
        (putVar w1 i v d (d.length / ty.mem)).1.out⟩ = table w1 :=
      table_set hv (putVar_frame w1 i v d (d.length / ty.mem)).2.1 (putVar_frame w1 i v d (d.length / ty.mem)).2.2
    rw [e, mkvar_names hm]
    exact ⟨fun h' => h'.imp_right fun h' => ⟨hd, h'⟩, fun h' => h'.imp_right fun h' => h'.2⟩

theorem noCheck_named {w w' : Writer} {name : Name} {ty : Ty} (h : wstep w (.noCheck name ty) = some w') (nm : Name) :
    nm ∈ (table w').map (·.1) ↔ nm ∈ (table w).map (·.1) ∨ nm = name := by
  simp only [wstep] at h
  obtain ⟨w1, i, v, hm, hv, rfl⟩ := noCheck_some h
  have e : table ⟨w1.vars.set i { v with nocheck := true }, w1.offset, w1.out⟩ = table w1 := table_set hv rfl rfl
  rw [e, mkvar_names hm]

theorem named_cons (e : Ev) (es : List Ev) (nm : Name) : Named (e :: es) nm ↔ Named [e] nm ∨ Named es nm := by
  unfold Named
  constructor
  · rintro (⟨ty, d, h, hd⟩ | ⟨ty, h⟩)
    · rcases List.mem_cons.1 h with rfl | h
      · exact Or.inl (Or.inl ⟨ty, d, List.mem_cons_self, hd⟩)
      · exact Or.inr (Or.inl ⟨ty, d, h, hd⟩)
    · rcases List.mem_cons.1 h with rfl | h
      · exact Or.inl (Or.inr ⟨ty, List.mem_cons_self⟩)
      · exact Or.inr (Or.inr ⟨ty, h⟩)
  · rintro ((⟨ty, d, h, hd⟩ | ⟨ty, h⟩) | (⟨ty, d, h, hd⟩ | ⟨ty, h⟩))
    · exact Or.inl ⟨ty, d, by rw [List.mem_singleton.1 h]; exact List.mem_cons_self, hd⟩
    · exact Or.inr ⟨ty, by rw [List.mem_singleton.1 h]; exact List.mem_cons_self⟩
    · exact Or.inl ⟨ty, d, List.mem_cons_of_mem _ h, hd⟩
    · exact Or.inr ⟨ty, List.mem_cons_of_mem _ h⟩

/-- the variables of the table are those the program named -/
theorem named_table {es : List Ev} : ∀ {w w' : Writer}, wrun w es = some w' → HistOk es → ∀ nm,
    (nm ∈ (table w').map (·.1) ↔ nm ∈ (table w).map (·.1) ∨ Named es nm) := by
  induction es with
  | nil =>
    intro w w' h _ nm
    simp only [wrun, Option.some.injEq] at h
    subst h
    refine ⟨Or.inl, fun h => h.elim id ?_⟩
    rintro (⟨_, _, h, _⟩ | ⟨_, h⟩) <;> cases h
  | cons e es ih =>
    intro w w' h hok nm
    simp only [wrun] at h
    cases h1 : wstep w e with
    | none => rw [h1] at h; cases h
    | some w1 =>
      rw [h1] at h
      rw [ih h (fun x hx => hok x (List.mem_cons_of_mem _ hx)) nm, named_cons, ← or_assoc]
      refine or_congr_left ?_
      cases e with
      | put name ty d =>
        rw [put_named h1 (hok _ List.mem_cons_self)]
        refine or_congr_right ?_
        unfold Named
        simp only [List.mem_singleton, Ev.put.injEq, reduceCtorEq, exists_false, or_false]
        constructor
        · rintro ⟨hd, rfl⟩; exact ⟨ty, d, ⟨rfl, rfl, rfl⟩, hd⟩
        · rintro ⟨_, _, ⟨rfl, rfl, rfl⟩, hd⟩; exact ⟨hd, rfl⟩
      | noCheck name ty =>
        rw [noCheck_named h1]
        refine or_congr_right ?_
        unfold Named
        simp
      | next =>
        simp only [wstep, Option.some.injEq] at h1
        subst h1
        refine ⟨Or.inl, fun h => h.elim id ?_⟩
        rintro (⟨_, _, h, _⟩ | ⟨_, h⟩) <;> simp at h
      | reopen =>
        have ht : table w1 = table w := by
          simp only [wstep, Option.some.injEq] at h1
          subst h1
          unfold table
          simp only [reopen, List.map_map, Function.comp_def]
        rw [ht]
        refine ⟨Or.inl, fun h => h.elim id ?_⟩
        rintro (⟨_, _, h, _⟩ | ⟨_, h⟩) <;> simp at h

theorem named_new {es : List Ev} {w : Writer} (h : wrun newWriter es = some w) (hok : HistOk es) (nm : Name) :
    (∃ ty, (nm, ty) ∈ table w) ↔ Named es nm := by
  have := named_table h hok nm
  have h0 : nm ∈ (table newWriter).map (·.1) ↔ False := by
    refine ⟨fun h => ?_, False.elim⟩
    cases h
  rw [h0, false_or] at this
  rw [← this]
  constructor
  · rintro ⟨ty, h⟩; exact List.mem_map.2 ⟨_, h, rfl⟩
  · intro h
    obtain ⟨⟨_, ty⟩, h', rfl⟩ := List.mem_map.1 h
    exact ⟨ty, h'⟩

/-! ## The theorems -/

/-- **C101.**  `uv.vars()` of a data set lists the variables that the programs that wrote it named, each once, and the
table of `UV` has the type that each was given. -/
theorem c101_vars (c : Conv) (g : Nat → Byte) {names : List Hio.Name} {h : List DEv} {w : Writer} (p : Program names h w) :
    ∃ t, directory c g h = some t ∧ ∀ g', ∃ vt, vartable c t g' = some vt ∧ (varNames vt).Nodup ∧
      (∀ k, k ∈ varNames vt ↔ ∃ nm, k = asPy nm ∧ Named (evsOf h) nm) ∧
      ∀ nm ty d, Ev.put nm ty d ∈ evsOf h → d ≠ [] → dget (asPy nm) vt = some [letterOf ty] := by
  obtain ⟨t, D, e, hc, _⟩ := p.closed c g
  refine ⟨t, e, fun g' => ⟨_, vartable_eq hc c g', ?_, ?_, ?_⟩⟩
  · unfold varNames
    rw [List.map_map]
    have := hc.tabled.nodup
    have e : (fun x : PyStr × PyStr => x.1) ∘ entryOf = asPy ∘ fun x : Name × Ty => x.1 := rfl
    rw [e, ← List.map_map]
    exact this.map fun a b => asPy_inj
  · intro k
    unfold varNames
    rw [List.map_map, List.mem_map]
    constructor
    · rintro ⟨q, hq, rfl⟩
      exact ⟨q.1, rfl, (named_new p.run p.ok.evs q.1).1 ⟨q.2, hq⟩⟩
    · rintro ⟨nm, rfl, hn⟩
      obtain ⟨ty, ht⟩ := (named_new p.run p.ok.evs nm).2 hn
      exact ⟨_, ht, rfl⟩
  · intro nm ty d hm hd
    exact dget_entry hc.tabled.nodup (put_in_table p.run p.ok.evs hm hd)

/-- the items of the directory -/
theorem listItems_eq {t : Tree} {g : Nat → Byte} (P : Hio.Name → Prop) [DecidablePred P] (h : ∀ n, (P n → ∃ it, Head.openItem t n g = .ok it) ∧
    (¬ P n → Head.openItem t n g = .error .io)) : ∀ ps : List (Hio.Name × Kind),
    listItems t g ps = .ok ((ps.map (·.1)).filter fun n => decide (P n))
  | [] => rfl
  | p :: ps => by
    unfold listItems
    by_cases hp : P p.1
    · obtain ⟨it, e⟩ := (h p.1).1 hp
      rw [e, listItems_eq P h ps, List.map_cons, List.filter_cons_of_pos (by simpa using hp)]
      rfl
    · rw [(h p.1).2 hp, listItems_eq P h ps, List.map_cons, List.filter_cons_of_neg (by simpa using hp)]

theorem closed_open {names : List Hio.Name} {t : Tree} {w : Writer} {fl : Nat} {D : Dataset} (hc : Closed names t w fl D)
    (g : Nat → Byte) (n : Hio.Name) : (D n ≠ none → ∃ it, Head.openItem t n g = .ok it) ∧ (D n = none → Head.openItem t n g = .error .io) := by
  refine ⟨fun h => ?_, fun h => Head.openItem_none hc.good.rel hc.good.items n h g⟩
  obtain ⟨F, hF⟩ := Option.ne_none_iff_exists'.1 h
  obtain ⟨it, e, _⟩ := Head.openItem_some hc.good.rel hc.good.items n F hF g
  exact ⟨it, e⟩

/-- **C101.**  `uv.items()` lists `vartable` and those items of `itemtable` that the programs assigned, in the order of
`itemtable`. -/
theorem c101_items (c : Conv) (g : Nat → Byte) {names : List Hio.Name} {h : List DEv} {w : Writer} (p : Program names h w) :
    ∃ t, directory c g h = some t ∧ ∀ g', ∃ l, listItems t g' itemtable = .ok l ∧ l.Sublist (itemtable.map (·.1)) ∧
      ∀ n, n ∈ l ↔ n = itVartable ∨ (n ∈ itemtable.map (·.1) ∧ ∃ o ∈ itemsOf h, Head.assigns n o ≠ none) := by
  obtain ⟨t, D, e, hc, ho⟩ := p.closed c g
  classical
  refine ⟨t, e, fun g' => ⟨_, listItems_eq (fun n => D n ≠ none) (fun n => ⟨(closed_open hc g' n).1, fun h =>
    (closed_open hc g' n).2 (Classical.not_not.1 h)⟩) itemtable, List.filter_sublist, fun n => ?_⟩⟩
  rw [List.mem_filter, decide_eq_true_iff]
  have hres : ∀ q ∈ itemtable.map (·.1), q = itVartable ∨ q ∉ reserved := by decide
  have hin : itVartable ∈ itemtable.map (·.1) := by decide
  have hlast : Head.lastOf (itemsOf h) n ≠ none ↔ ∃ o ∈ itemsOf h, Head.assigns n o ≠ none := by
    unfold Head.lastOf
    rw [ne_eq, List.findSome?_eq_none_iff, not_forall]
    constructor
    · rintro ⟨o, ho⟩
      rw [Classical.not_imp] at ho
      exact ⟨o, List.mem_reverse.1 ho.1, ho.2⟩
    · rintro ⟨o, h1, h2⟩
      exact ⟨o, Classical.not_imp.2 ⟨List.mem_reverse.2 h1, h2⟩⟩
  constructor
  · rintro ⟨h1, h2⟩
    rcases hres n h1 with h3 | h3
    · exact Or.inl h3
    · refine Or.inr ⟨h1, hlast.1 fun h0 => h2 ?_⟩
      rw [ho n h3, h0]; rfl
  · rintro (rfl | ⟨h1, h2⟩)
    · exact ⟨hin, by rw [hc.tbl]; simp⟩
    · rcases hres n h1 with rfl | h3
      · exact ⟨hin, by rw [hc.tbl]; simp⟩
      · refine ⟨h1, ?_⟩
        rw [ho n h3]
        have := hlast.2 h2
        cases hh : Head.lastOf (itemsOf h) n with
        | none => exact absurd hh this
        | some a => simp

/-! ### Opening -/

theorem open_begun {E : Env} {o : FpOps} {q : Quant} {junk : Nat → Nat} {mode : Ty} {bs : List Block} {W : VisW}
    {n : Nat} (ha : Archive E o q junk mode bs W n) (hne : bs ≠ []) {f : Nat → Byte} {size : Nat} (hf : Holds f size W.w.out)
    {m : Mask} (hm : FlagFile W m) {S1 : VisR} {out1 : Out}
    (hu : uvread f size MAXCHAN ⟨openReader (table W.w) W.w.offset, 0, m⟩ = .ok S1 out1) : Begun W (rewindVis S1) ∧
      ∀ nm ty, valueAfter (upTo 1 W.evs) nm = none → getvr (rewindVis S1).r nm ty = none := by
  have hw := ha.wr
  have hnm : ∀ b ∈ bs, b.vis.flags.length ≤ MAXCHAN := fun b hb => by rw [ha.chans b hb]; exact ha.size
  have hpos : 0 < bs.length := List.length_pos_iff.2 hne
  obtain ⟨R, outs, i1, i2, _, i6, _, _⟩ := reads_k hw hf hnm (open_atStart W) hm 1 hpos
  rw [uvreadN, hu] at i1
  simp only [uvreadN, Option.map_some, Option.some.injEq, Prod.mk.injEq] at i1
  obtain ⟨rfl, _⟩ := i1
  obtain ⟨s0, sk, u1, u2, u3, u4, u5, u6, u7⟩ := written_upTo hw 0 hpos
  obtain ⟨r1, _, _, a1, _, _, _, a5, _, a7, _, a9, _⟩ := readN_all u6 u7 hw.vars hf (open_atStart W).vars rfl rfl u4
  rw [i2, Option.some.injEq] at a1
  subst a1
  have hb0 : Begun W ⟨openReader (table W.w) W.w.offset, 0, m⟩ := by
    refine ⟨open_atStart W, rfl, hm, open_good _ _, ?_, rfl, ?_⟩
    · intro v hv'
      obtain ⟨p, _, rfl⟩ := List.mem_map.1 hv'
      rfl
    · intro v hv'
      obtain ⟨p, _, rfl⟩ := List.mem_map.1 hv'
      rfl
  refine ⟨begun_of hb0 ?_ ?_ i6 (uvread_good hu (open_good _ _)) ?_, fun nm ty hv => ?_⟩
  · rw [a9]; exact (open_rtable _ _).symm
  · exact a7
  · intro v hv
    obtain ⟨u0, hu0, _, _, e, _⟩ := keeps_back (uvread_keeps hu).2.2 hv
    obtain ⟨p, _, rfl⟩ := List.mem_map.1 hu0
    exact e
  · show getvr (rewind S1.r) nm ty = none
    rw [rewind_getvr]
    exact getvr_unassigned a5 (by
      intro u hu
      obtain ⟨p, _, rfl⟩ := List.mem_map.1 hu
      rfl) hv

theorem letter_char (ty : Ty) : Char.ofNat (letterOf ty) = tyChar ty := by cases ty <;> rfl

theorem tyChar_of {tc : Char} {ty : Ty} (h : tyOf tc = some ty) : tyChar ty = tc := by
  unfold tyOf at h
  split at h
  all_goals first
    | (rw [Option.some.injEq] at h; subst h; rfl)
    | cases h

/-- a name that is in the table -/
theorem get_named {tbl : List (Name × Ty)} (hn : (tbl.map (·.1)).Nodup) (E : Env) (c : Conv) (t : Tree) (g : Nat → Byte) (r : Reader)
    {nm : Name} {ty : Ty} (h : (nm, ty) ∈ tbl) : pyGet E c t g (tbl.map entryOf) r (asPy nm) =
      match rdvr E.fo E.junk r nm (tyChar ty) with
      | some v => .ok (.var v)
      | none => .error .var := by
  unfold pyGet
  rw [dget_entry hn h]
  simp only [List.headD_cons, letter_char, char_of_py]

/-- a variable that has a value -/
theorem get_set {tbl : List (Name × Ty)} (hn : (tbl.map (·.1)).Nodup) (E : Env) (c : Conv) (t : Tree) (g : Nat → Byte) {r : Reader}
    (hg : AllGood r.vars) {nm : Name} {ty : Ty} (h : (nm, ty) ∈ tbl) {tc : Char} {v : PyVal} {d : List Byte}
    (he : encode E.fo tc v = some (ty, d)) (hv : Good tc v) (hr : getvr r nm ty = some d) :
    pyGet E c t g (tbl.map entryOf) r (asPy nm) = .ok (.var (shown E.fo tc v)) := by
  obtain ⟨ty', d', e1, e2, _, _, e5, e6⟩ := encode_good E.fo E.junk tc v hv
  rw [he, Option.some.injEq, Prod.mk.injEq] at e1
  obtain ⟨rfl, rfl⟩ := e1
  rw [get_named hn E c t g r h, rdvr_of_getvr hg E.fo E.junk hr e5, tyChar_of e2, e6]

/-- a variable that has none -/
theorem get_unset {tbl : List (Name × Ty)} (hn : (tbl.map (·.1)).Nodup) (E : Env) (c : Conv) (t : Tree) (g : Nat → Byte) {r : Reader}
    {nm : Name} {ty : Ty} (h : (nm, ty) ∈ tbl) (hr : getvr r nm ty = none) :
    pyGet E c t g (tbl.map entryOf) r (asPy nm) = .error .var := by
  have e : rdvr E.fo E.junk r nm (tyChar ty) = none := by
    unfold rdvr
    rw [tyOf_tyChar]
    simp only [hr, Option.bind_none, ite_self]
  rw [get_named hn E c t g r h, e]

theorem open_py (c : Conv) {E : Env} {o q junk bs W n names h old} (O : Origin E o q junk bs W n names h old) {m : Mask}
    (hm : FlagFile W m) (g0 g : Nat → Byte) :
    ∃ t it F f S, directory c g0 h = some t ∧ pyOpen E c g t m = some ((table W.w).map entryOf, it, S, n) ∧
      hopenUv E g t m = some (it, S, n) ∧ Loaded it F f ∧ Holds f F.size W.w.out ∧ Sound S.r ∧ Begun W S ∧
      ∀ nm ty, (∀ d, (nm, ty) ∈ table W.w → valueAfter (upTo 1 W.evs) nm = some d → getvr S.r nm ty = some d) ∧
        (valueAfter (upTo 1 W.evs) nm = none → getvr S.r nm ty = none) := by
  have hs := written_sessions O.arch.wr
  have hne' : allBlocks (bs.map .block) ≠ [] := by rw [allBlocks_map]; exact O.nonempty
  have hprog := hs.program hne' O.size O.ok O.evs O.flags O.count O.apart
  obtain ⟨t, D, d1, d2, d3⟩ := hprog.closed c g0
  obtain ⟨it, F, f, o1, o2, o3⟩ := old_ok d2 O.size g
  obtain ⟨S, h1, h2, h3⟩ := archive_opens O.arch O.nonempty o3 hm
  obtain ⟨it', u1, u2, u3⟩ := hopenUv_eq o1 o2 m h1
  unfold openUv at h1
  cases hu : uvread f F.size MAXCHAN ⟨openReader (table W.w) W.w.offset, 0, m⟩ with
  | eof x => rw [hu] at h1; cases h1
  | bad => rw [hu] at h1; cases h1
  | ok S1 out1 =>
    rw [hu] at h1
    simp only at h1
    obtain ⟨hb, hun⟩ := open_begun O.arch O.nonempty o3 hm hu
    obtain ⟨it1, e1, l1, s1⟩ := huvread_eq g MAXCHAN o2 (s := ⟨openReader (table W.w) W.w.offset, 0, m⟩) (sound_open _ _)
    rw [hu] at e1
    cases hn : nchanOf E (rewind S1.r) with
    | none => rw [hn] at h1; cases h1
    | some n' =>
      rw [hn] at h1
      simp only [Option.map_some, Option.some.injEq, Prod.mk.injEq] at h1
      obtain ⟨rfl, rfl⟩ := h1
      have hit : it1 = it' := by
        unfold hopenUv at u1
        rw [o1] at u1
        simp only [e1, hn, Option.map_some, Option.some.injEq, Prod.mk.injEq] at u1
        exact u1.1
      subst hit
      have htab : rtable (rewind S1.r).vars = table W.w := hb.start.vars
      have hsz : sizeFrom (pyGet E c t g ((table W.w).map entryOf) (rewind S1.r) (nmNchan.map (·.toNat))) = some n' := by
        rw [← hn]
        unfold nchanOf
        cases hl : rlocvar (rewind S1.r).vars nmNchan with
        | none =>
          have ha := rlocvar_none hl
          have e : dget (asPy nmNchan) ((table W.w).map entryOf) = none := by
            refine dget_absent fun p hp hc => ?_
            rw [← htab] at hp
            obtain ⟨v, hv, rfl⟩ := List.mem_map.1 hp
            exact ha v hv (asPy_inj hc)
          have e2 : itemNamed (asPy nmNchan) = none := by decide
          show sizeFrom (pyGet E c t g _ _ (asPy nmNchan)) = _
          unfold pyGet
          rw [e]
          simp only [e2]
          rfl
        | some v =>
          have hv : v ∈ (rewind S1.r).vars := List.mem_of_find?_eq_some hl
          have hvn : v.name = nmNchan := by
            have := List.find?_some hl
            simpa using this
          have hmem : (nmNchan, v.ty) ∈ table W.w := by
            rw [← htab, ← hvn]
            exact List.mem_map.2 ⟨v, hv, rfl⟩
          have hty : v.ty = .int := O.arch.types _ hmem .int (by simp [std])
          rw [hty] at hmem
          show sizeFrom (pyGet E c t g _ _ (asPy nmNchan)) = _
          rw [get_named d2.tabled.nodup E c t g _ hmem]
          show sizeFrom (match rdvr E.fo E.junk (rewind S1.r) nmNchan 'i' with
            | some v => .ok (.var v)
            | none => .error .var) = _
          cases hr : rdvr E.fo E.junk (rewind S1.r) nmNchan 'i' with
          | none => rfl
          | some x => cases x <;> rfl
      refine ⟨t, it1, F, f, _, d1, ?_, u1, u2, o3, u3, hb, fun nm ty => ⟨fun d hm hv => (h3 nm ty d hm hv).1, hun nm ty⟩⟩
      unfold pyOpen
      rw [o1, Option.bind_some, vartable_eq d2 c g, Option.bind_some]
      simp only [e1, hsz, Option.map_some]

theorem ReadsTo.upto {f : Nat → Byte} {size nsize : Nat} {S S' : VisR} {l : List (VisR × Out)} (h : ReadsTo f size nsize S l S') :
    ∀ {j : Nat} {Sj : VisR} {out : Out}, l[j]? = some (Sj, out) →
      ∃ outs, uvreadN f size nsize (j + 1) S = some (Sj, outs ++ [out]) ∧ outs.length = j := by
  induction h with
  | done _ => intro j Sj out hj; cases hj
  | @more _ _ _ out1 _ h1 _ ih =>
    intro j Sj out hj
    rw [uvreadN, h1]
    cases j with
    | zero =>
      rw [List.getElem?_cons_zero, Option.some.injEq, Prod.mk.injEq] at hj
      obtain ⟨rfl, rfl⟩ := hj
      exact ⟨[], rfl, rfl⟩
    | succ j =>
      rw [List.getElem?_cons_succ] at hj
      obtain ⟨outs, e, hl⟩ := ih hj
      refine ⟨out1 :: outs, ?_, by rw [List.length_cons, hl]⟩
      simp only [e, Option.map_some]
      rfl

/-- after `k` records of the program `uv[name]` is what was last assigned to the variable (see C47 for the values that are
kept and how they are shown) -/
def Shows (E : Env) (c : Conv) (t : Tree) (g : Nat → Byte) (vt : VarTable) (r : Reader) (es : List Ev) (k : Nat) : Prop :=
  ∀ nm ty tc v d, (∃ d0, Ev.put nm ty d0 ∈ es ∧ d0 ≠ []) → valueAfter (upTo k es) nm = some d → encode E.fo tc v = some (ty, d) →
    Good tc v → pyGet E c t g vt r (asPy nm) = .ok (.var (shown E.fo tc v))

/-- **C101.**  When a data set is opened `uv[name]` is the value of the variable in the first record, and an exception if
it has none there; after `j + 1` calls of `read` it is the value that the program that wrote the data set had assigned last
when it wrote record `j + 1`. -/
theorem c101_get (c : Conv) {E : Env} {o q junk bs W n names h old} (O : Origin E o q junk bs W n names h old) {m : Mask}
    (hm : FlagFile W m) (g0 g : Nat → Byte) :
    ∃ t vt it S, directory c g0 h = some t ∧ pyOpen E c g t m = some (vt, it, S, n) ∧ hopenUv E g t m = some (it, S, n) ∧
      Shows E c t g vt S.r (evsOf h) 1 ∧
      (∀ nm, Named (evsOf h) nm → valueAfter (upTo 1 (evsOf h)) nm = none → pyGet E c t g vt S.r (asPy nm) = .error .var) ∧
      ∀ (j : Nat) (b : Block), bs[j]? = some b → ∃ it' S' outs out, huvreadN g n (j + 1) it S = some (it', S', outs ++ [out]) ∧
        outs.length = j ∧ Matches o q .real out b.vis ∧ Shows E c t g vt S'.r (evsOf h) (j + 1) := by
  obtain ⟨t, it, F, f, S, h1, h2, h3, h4, h5, h6, h7, h8⟩ := open_py c O hm g0 g
  have hs := written_sessions O.arch.wr
  have hne' : allBlocks (bs.map .block) ≠ [] := by rw [allBlocks_map]; exact O.nonempty
  have hprog := hs.program hne' O.size O.ok O.evs O.flags O.count O.apart
  obtain ⟨t', D, d1, d2, d3⟩ := hprog.closed c g0
  rw [h1, Option.some.injEq] at d1
  subst d1
  have hnd := d2.tabled.nodup
  have hput : ∀ {nm ty}, (∃ d0, Ev.put nm ty d0 ∈ evsOf h ∧ d0 ≠ []) → (nm, ty) ∈ table W.w := by
    rintro nm ty ⟨d0, a, b⟩
    exact put_in_table hprog.run hprog.ok.evs a b
  refine ⟨t, _, it, S, h1, h2, h3, ?_, ?_, ?_⟩
  · intro nm ty tc v d hp hv he hg
    rw [O.evs] at hv
    exact get_set hnd E c t g h7.good (hput hp) he hg ((h8 nm ty).1 d (hput hp) hv)
  · intro nm hn hv
    rw [O.evs] at hv
    obtain ⟨ty, ht⟩ := (named_new hprog.run hprog.ok.evs nm).2 hn
    exact get_unset hnd E c t g ht ((h8 nm ty).2 hv)
  · intro j b hb
    obtain ⟨l, S', p1, p2, p3, _, _⟩ := reads_at O.arch O.nonempty h5 h7
    have hj : j < bs.length := (List.getElem?_eq_some_iff.1 hb).1
    obtain ⟨⟨Sj, out⟩, hl⟩ : ∃ x, l[j]? = some x := ⟨_, List.getElem?_eq_getElem (by omega)⟩
    obtain ⟨q1, q2, _⟩ := p3 j Sj out b hl hb
    obtain ⟨outs, e, hlen⟩ := p1.upto hl
    obtain ⟨it', e', _, _⟩ := huvreadN_eq g n (j + 1) it S _ h4 h6 e
    refine ⟨it', Sj, outs, out, e', hlen, q1.same, ?_⟩
    intro nm ty tc v d hp hv he hg
    rw [O.evs] at hv
    exact get_set hnd E c t g q2 (hput hp) he hg (q1.values nm ty d (hput hp) hv)

theorem bytes_inj {a b : Hio.Name} (h : a.map (·.toNat) = b.map (·.toNat)) : a = b :=
  List.map_injective_iff.2 (fun _ _ hxy => UInt8.toNat_inj.1 hxy) h

theorem itemNamed_eq {n : Hio.Name} {k : Kind} (h : itype n = some k) : itemNamed (asItem n) = some n := by
  have key : ∀ p ∈ itemtable, itemNamed (asItem p.1) = some p.1 := by decide
  unfold itype at h
  rw [Option.map_eq_some_iff] at h
  obtain ⟨p, h1, _⟩ := h
  have h2 : p.1 = n := by simpa using List.find?_some h1
  have := key p (List.mem_of_find?_eq_some h1)
  rwa [h2] at this

/-- **C101.**  `uv[name]` of a header item is what was last assigned to it, `IOError` if nothing was; a name that is neither
a variable of the data set nor in `itemtable` is a `KeyError`. -/
theorem c101_header (E : Env) (c : Conv) (g g' : Nat → Byte) {names : List Hio.Name} {h : List DEv} {w : Writer} (p : Program names h w)
    (r : Reader) : ∃ t vt, directory c g h = some t ∧ vartable c t g' = some vt ∧
      (∀ n k, itype n = some k → n ≠ itVartable →
        (∀ v, Head.lastOf (itemsOf h) n = some (.py v) → pyGet E c t g' vt r (asItem n) = .ok (.item (Head.shown c k v))) ∧
        (Head.lastOf (itemsOf h) n = none → (∀ nm, Named (evsOf h) nm → asPy nm ≠ asItem n) →
          pyGet E c t g' vt r (asItem n) = .error (.item .io))) ∧
      ∀ name, (∀ nm, Named (evsOf h) nm → asPy nm ≠ name) → (∀ q ∈ itemtable, asItem q.1 ≠ name) →
        pyGet E c t g' vt r name = .error .key := by
  obtain ⟨t, D, e, hc, ho⟩ := p.closed c g
  obtain ⟨t', e', hi, _⟩ := c82_items c g g' p
  rw [e, Option.some.injEq] at e'
  subst e'
  have habs : ∀ name, (∀ nm, Named (evsOf h) nm → asPy nm ≠ name) → dget name ((table w).map entryOf) = none := by
    intro name hn
    refine dget_absent fun q hq => hn q.1 ?_
    exact (named_new p.run p.ok.evs q.1).1 ⟨q.2, hq⟩
  have hres : ∀ q ∈ itemtable, q.1 = itVartable ∨ q.1 ∉ reserved := by decide
  have hres' : ∀ n k, itype n = some k → n ≠ itVartable → n ∉ reserved := by
    intro n k hk hn
    unfold itype at hk
    rw [Option.map_eq_some_iff] at hk
    obtain ⟨q, h1, _⟩ := hk
    have h2 : q.1 = n := by simpa using List.find?_some h1
    rcases hres q (List.mem_of_find?_eq_some h1) with h3 | h3
    · exact absurd (h2 ▸ h3) hn
    · exact h2 ▸ h3
  refine ⟨t, _, e, vartable_eq hc c g', fun n k hk hn => ⟨fun v hv => ?_, fun hv hnv => ?_⟩, fun name h1 h2 => ?_⟩
  · have hmem : n ∈ names := by
      unfold Head.lastOf at hv
      obtain ⟨o, hom, ha⟩ := List.exists_of_findSome?_eq_some hv
      exact (p.ok.named o (List.mem_reverse.1 hom) n _ ha).1
    have h0 := dget_absent (tbl := table w) (k := asItem n) (by
      intro q hq hqn
      obtain ⟨a1, a2, _⟩ := hc.apart q hq
      rw [← nat_of_name a1] at hqn
      exact a2 (by rw [bytes_inj hqn]; exact hmem))
    unfold pyGet
    rw [h0]
    simp only [itemNamed_eq hk]
    rw [(hi n k hk (hres' n k hk hn)).1 v hv]
  · unfold pyGet
    rw [habs _ hnv]
    simp only [itemNamed_eq hk]
    rw [(hi n k hk (hres' n k hk hn)).2 hv]
  · have h3 : itemNamed name = none := by
      unfold itemNamed
      rw [List.find?_eq_none.2]
      · rfl
      · intro q hq
        have := h2 q hq
        unfold asItem at this
        simpa using this
    unfold pyGet
    rw [habs _ h1]
    simp only [h3]

/-! ## A concrete case -/

/-- the two records of `demoSrc`: the source is `AB` in the first and `C` in the second; the history is an item -/
example : ∃ W m t vt it S, Origin demoEnv demoOps demoQuant (fun _ => 0) demoSrc W 2 demoItemNames
      (demoItems.map .item ++ (W.evs.map .ev ++ [.flags W.flagOff])) [104, 105, 10] ∧ FlagFile W m ∧
    pyOpen demoEnv Head.lowConv (fun _ => 0) t m = some (vt, it, S, 2) ∧
    pyGet demoEnv Head.lowConv t (fun _ => 0) vt S.r (asPy srcName) = .ok (.var (.str [65, 66, 0])) ∧
    pyGet demoEnv Head.lowConv t (fun _ => 0) vt S.r (asPy nmCorr) ≠ .error .key ∧
    ∃ it' S' outs, huvreadN (fun _ => 0) 2 2 it S = some (it', S', outs) ∧
      pyGet demoEnv Head.lowConv t (fun _ => 0) vt S'.r (asPy srcName) = .ok (.var (.str [67, 0])) := by
  obtain ⟨W, m, O, hv, hm, h0⟩ := demo_origin
  have hf : (writeAll .real demoSrc).map (fun W => (decide (Ev.put srcName .byte [65, 66, 0] ∈ W.evs), valueAfter (upTo 1 W.evs) srcName,
      valueAfter (upTo 2 W.evs) srcName)) = some (true, some [65, 66, 0], some [67, 0]) := by decide +kernel
  rw [h0, Option.map_some, Option.some.injEq, Prod.mk.injEq, Prod.mk.injEq] at hf
  obtain ⟨f1, f2, f3⟩ := hf
  have f1 := of_decide_eq_true f1
  obtain ⟨t, vt, it, S, e1, e2, _, e4, e5, e6⟩ := c101_get Head.lowConv O hm (fun _ => 0) (fun _ => 0)
  rw [O.evs] at e4 e6
  obtain ⟨it', S', outs, out, r1, _, _, r2⟩ := e6 1 demoSrc[1] rfl
  refine ⟨W, m, t, vt, it, S, O, hm, e2, ?_, ?_, it', S', _, r1, ?_⟩
  · exact e4 srcName .byte 'a' (.str [65, 66]) _ ⟨_, f1, by decide⟩ f2 rfl (by show 3 ≤ 32768; decide)
  · intro hc
    unfold pyGet at hc
    have hn : ∃ ty, dget (asPy nmCorr) vt = some ty := by
      have hs := written_sessions O.arch.wr
      have hne' : allBlocks (demoSrc.map .block) ≠ [] := by rw [allBlocks_map]; exact O.nonempty
      have hprog := hs.program hne' O.size O.ok O.evs O.flags O.count O.apart
      obtain ⟨t', D, d1, d2, _⟩ := hprog.closed Head.lowConv (fun _ => 0)
      rw [e1, Option.some.injEq] at d1
      subst d1
      have hvt := vartable_eq d2 Head.lowConv (fun _ => 0)
      unfold pyOpen at e2
      rw [hvt] at e2
      cases ho : openOld t (fun _ => 0) with
      | none => rw [ho] at e2; cases e2
      | some x =>
        rw [ho, Option.bind_some, Option.bind_some] at e2
        have hvt' : vt = (table W.w).map entryOf := by
          revert e2
          generalize huvread (fun _ => 0) MAXCHAN x.1 ⟨x.2, 0, m⟩ = y
          intro e2
          split at e2
          · rw [Option.map_eq_some_iff] at e2
            obtain ⟨_, _, e2⟩ := e2
            exact (Prod.mk.injEq .. ▸ e2).1.symm
          · cases e2
        have hf : (writeAll .real demoSrc).map (fun W => decide ((nmCorr, Ty.real) ∈ table W.w)) = some true := by decide +kernel
        rw [h0, Option.map_some, Option.some.injEq] at hf
        exact ⟨_, by rw [hvt']; exact dget_entry d2.tabled.nodup (of_decide_eq_true hf)⟩
    obtain ⟨ty, hty⟩ := hn
    rw [hty] at hc
    simp only at hc
    split at hc <;> cases hc
  · exact r2 srcName .byte 'a' (.str [67]) _ ⟨_, f1, by decide⟩ f3 rfl (by show 2 ≤ 32768; decide)

/-- the three sessions of `dirDemo`: the variables `x`, `yy` and the items -/
example (c : Conv) (g g' : Nat → Byte) : ∃ t vt l, directory c g dirDemo = some t ∧ vartable c t g' = some vt ∧
    dget (asPy ['y', 'y']) vt = some (asPy ['a']) ∧ asPy ['z'] ∉ varNames vt ∧
    listItems t g' itemtable = .ok l ∧ Head.obstype ∈ l ∧ Hio.hist ∉ l := by
  obtain ⟨w, p⟩ := dirDemo_program
  obtain ⟨t, e1, e2⟩ := c101_vars c g p
  obtain ⟨t', f1, f2⟩ := c101_items c g p
  rw [e1, Option.some.injEq] at f1
  subst f1
  obtain ⟨vt, a1, a2, a3, a4⟩ := e2 g'
  obtain ⟨l, b1, b2, b3⟩ := f2 g'
  refine ⟨t, vt, l, e1, a1, a4 ['y', 'y'] .byte longValue (by simp [dirDemo, evsOf]) (by decide +kernel), ?_, b1, ?_, ?_⟩
  · rw [a3]
    rintro ⟨nm, hn, h⟩
    rw [← asPy_inj hn] at h
    rcases h with ⟨ty, d, h, _⟩ | ⟨ty, h⟩
    · simp [dirDemo, evsOf] at h
    · simp [dirDemo, evsOf] at h
  · exact (b3 _).2 (Or.inr ⟨by decide, _, List.mem_cons_self, by simp [Head.assigns]⟩)
  · intro h
    rcases (b3 _).1 h with h | ⟨_, o, ho, h⟩
    · revert h; decide
    · simp only [dirDemo, itemsOf, List.mem_cons, List.not_mem_nil, or_false] at ho
      rcases ho with rfl | rfl
      · exact h (by decide)
      · exact h (by decide)

example (E : Env) (c : Conv) (g g' : Nat → Byte) (r : Reader) : ∃ t vt, directory c g dirDemo = some t ∧ vartable c t g' = some vt ∧
    pyGet E c t g' vt r (asItem Head.obstype) = .ok (.item (.str [97, 117, 116, 111])) ∧
    pyGet E c t g' vt r (asItem Hio.hist) = .error (.item .io) ∧ pyGet E c t g' vt r [122] = .error .key := by
  obtain ⟨w, p⟩ := dirDemo_program
  obtain ⟨t, vt, e1, e2, e3, e4⟩ := c101_header E c g g' p r
  have hn : ∀ nm, Named (evsOf dirDemo) nm → nm = ['x'] ∨ nm = ['y', 'y'] := by
    rintro nm (⟨ty, d, h, hd⟩ | ⟨ty, h⟩)
    · simp only [dirDemo, evsOf, List.mem_cons, List.not_mem_nil, or_false, Ev.put.injEq, reduceCtorEq, false_or, or_false] at h
      rcases h with ⟨rfl, _⟩ | ⟨rfl, _⟩ | ⟨rfl, _⟩ | ⟨rfl, _⟩
      · exact Or.inl rfl
      · exact Or.inr rfl
      · exact Or.inl rfl
      · exact Or.inl rfl
    · simp [dirDemo, evsOf] at h
  refine ⟨t, vt, e1, e2, (e3 Head.obstype .text (by decide) (by decide)).1 (.str [97, 117, 116, 111]) rfl,
    (e3 Hio.hist .text (by decide) (by decide)).2 (by decide) ?_, e4 [122] ?_ (by decide)⟩
  · intro nm h
    rcases hn nm h with rfl | rfl <;> decide
  · intro nm h
    rcases hn nm h with rfl | rfl <;> decide

/-! ## Disagreement -/

/-- **C101, disagreement.**  A variable whose name has a blank is in the table of the C library under its first word (see
`c82_blank_lost`); `UV` skips its line, so that the variable is not in `vars()` and `uv[name]` is a `KeyError` for either
name. -/
theorem c101_blank_violated (E : Env) (c : Conv) : ∃ t it r0 it' r, directory c (fun _ => 0)
      [.ev (.put ['a', ' ', 'b'] .real [1, 2, 3, 4]), .ev .next] = some t ∧ openOld t (fun _ => 0) = some (it, r0) ∧
    hreadN (fun _ => 0) 1 it r0 = some (it', r) ∧ getvr r ['a'] .real = some [1, 2, 3, 4] ∧
    vartable c t (fun _ => 0) = some [] ∧
    pyGet E c t (fun _ => 0) [] r (asPy ['a', ' ', 'b']) = .error .key ∧ pyGet E c t (fun _ => 0) [] r (asPy ['a']) = .error .key := by
  exact ⟨_, _, _, _, _, rfl, rfl, rfl, rfl, rfl, rfl, rfl⟩

end Verif.Mir.Uv
