import Verif.Mir.UvVars
import Verif.Mir.Header
import Verif.Mir.UvVis
import Verif.Util.Dict

/-!
# Property C153 : where `uv[name] = value` goes

`UV.__setitem__`, `UV.add_var`, `UV.init_from_uv` of `/repo/aipy/miriad.py` 86, 190-196, 247-268, 287-289 for a file that is written: which
assignments become values of a variable, which become header items and which raise.  The values that go into variables are those
of `Verif.Mir.UvVars` (C47); the bytes of header items are a function about which nothing is assumed (they are in C53).

Simplified: a type is the one character that `UVObject_wrvr` looks at; the limit on the number of variables is left out, and so is the
tracking for `copyvr` (C51).
-/

namespace Verif.Mir.Uv.Set

open Verif.Mir.Hio (Byte)
open Verif.Mir.Uv
open Verif.Util (dget dset dget_dset dget_dset_ne dget_dset_self)

/-! ## The model -/

/-- what is done to the file; an item whose writing raised is left open and without its value -/
inductive Write
  | var (name : Name) (ty : Ty) (data : List Byte)
  | item (name : Name) (data : Option (List Byte))
  deriving DecidableEq, Repr

/-- the exceptions: `KeyError`, those of the conversion of a value, `RuntimeError` of the library, those of a header item, those of `uv[k]` -/
inductive Err
  | key
  | value
  | library
  | header
  | source
  deriving DecidableEq, Repr

/-- the `UV` object of a file that is written: `self.vartable`, the variables that the library knows, and what was written -/
structure Obj where
  table : List (Name × Char)
  kinds : List (Name × Ty)
  log : List Write
  deriving DecidableEq, Repr

/-- the two conversions -/
structure Conv where
  fo : FloatOps
  hdr : Name → PyVal → Option (List Byte)

/-- `UV.__init__` with `status='new'` or `'append'`, miriad.py 79-88; `known` are the variables of a file that is appended to -/
def opened (mode : Char) (known : List (Name × Ty)) : Obj := ⟨[(nmCorr, mode)], known, []⟩

/-- `uvputvr_c`, uvio.c 1714-1722, with `uv_mkvar`, uvio.c 1233-1238 -/
def putvr (s : Obj) (name : Name) (ty : Ty) (d : List Byte) : Obj × Option Err :=
  if d = [] then (s, none)
  else
    match dget name s.kinds with
    | some ty' => if ty' = ty then ({ s with log := s.log ++ [.var name ty d] }, none) else (s, some .library)
    | none =>
      if 8 < name.length then (s, some .library)
      else ({ s with kinds := dset name ty s.kinds, log := s.log ++ [.var name ty d] }, none)

/-- `self._wrvr(name, type, val)`, miriad_wrap.cpp 320-372 -/
def wrvr (c : Conv) (s : Obj) (name : Name) (tc : Char) (v : PyVal) : Obj × Option Err :=
  match encode c.fo tc v with
  | none => (s, some .value)
  | some (ty, d) => putvr s name ty d

/-- `name in itemtable`, miriad.py 34-55 -/
def isItem (name : Name) : Bool := Head.itemtable.any fun p => decide (p.1.map (·.toNat) = name.map (·.toNat))

/-- `self._wrhd(name, val)`, miriad.py 137-152 -/
def wrhd (c : Conv) (s : Obj) (name : Name) (v : PyVal) : Obj × Option Err :=
  if isItem name then
    match c.hdr name v with
    | some d => ({ s with log := s.log ++ [.item name (some d)] }, none)
    | none => ({ s with log := s.log ++ [.item name none] }, some .header)
  else (s, some .key)

/-- `uv[name] = val`, miriad.py 190-196 -/
def setItem (c : Conv) (s : Obj) (name : Name) (v : PyVal) : Obj × Option Err :=
  match dget name s.table with
  | some tc => wrvr c s name tc v
  | none => wrhd c s name v

/-- another `UV`: its items and its variables (`uv[k]`, `none` if that raises) -/
structure Source where
  items : List (Name × Option PyVal)
  vars : List (Name × Char × Option PyVal)

/-- the loop over the items, miriad.py 252-255 -/
def initItems (c : Conv) (over : List (Name × PyVal)) (excl : List Name) : Obj → List (Name × Option PyVal) → Obj × Option Err
  | s, [] => (s, none)
  | s, (k, v) :: rest =>
    if k ∈ excl then initItems c over excl s rest
    else
      match (match dget k over with | some w => some w | none => v) with
      | none => (s, some .source)
      | some w =>
        match wrhd c s k w with
        | (s', none) => initItems c over excl s' rest
        | (s', some e) => (s', some e)

/-- the loop over the variables, miriad.py 257-268 -/
def initVars (c : Conv) (over : List (Name × PyVal)) (excl : List Name) : Obj → List (Name × Char × Option PyVal) → Obj × Option Err
  | s, [] => (s, none)
  | s, (k, tc, v) :: rest =>
    if k ∈ excl then initVars c over excl s rest
    else if k = nmCorr then initVars c over excl s rest
    else
      match (match dget k over with | some w => some w | none => v) with
      | none => ({ s with table := dset k tc s.table }, some .source)
      | some w =>
        match wrvr c { s with table := dset k tc s.table } k tc w with
        | (s', none) => initVars c over excl s' rest
        | (s', some e) => (s', some e)

/-- `init_from_uv(uv, override, exclude)`, miriad.py 247-268 -/
def initFromUv (c : Conv) (s : Obj) (src : Source) (over : List (Name × PyVal)) (excl : List Name) : Obj × Option Err :=
  match initItems c over excl s src.items with
  | (s', none) => initVars c over excl { s' with table := [] } src.vars
  | (s', some e) => (s', some e)

/-- what a program does -/
inductive Op
  | addVar (name : Name) (tc : Char)
  | set (name : Name) (v : PyVal)
  | init (src : Source) (over : List (Name × PyVal)) (excl : List Name)

/-- one call; `add_var` is miriad.py 287-289 -/
def step (c : Conv) (s : Obj) : Op → Obj × Option Err
  | .addVar name tc => ({ s with table := dset name tc s.table }, none)
  | .set name v => setItem c s name v
  | .init src over excl => initFromUv c s src over excl

/-- a program that catches the exceptions; they are returned in order -/
def run (c : Conv) : Obj → List Op → Obj × List (Option Err)
  | s, [] => (s, [])
  | s, o :: os => ((run c (step c s o).1 os).1, (step c s o).2 :: (run c (step c s o).1 os).2)

/-! ## The specification -/

/-- the type under which a name is declared, by the calls so far, the last one first -/
def declared (mode : Char) : List Op → Name → Option Char
  | [], name => if name = ['c', 'o', 'r', 'r'] then some mode else none
  | .addVar n tc :: before, name => if n = name then some tc else declared mode before name
  | .set _ _ :: before, name => declared mode before name
  | .init src _ excl :: _, name =>
    if name ∈ excl ∨ name = ['c', 'o', 'r', 'r'] then none
    else (src.vars.find? fun p => decide (p.1 = name)).map fun p => p.2.1

/-- the names of the header items -/
def headerNames : List String :=
  ["obstype", "history", "vartable", "ngains", "nfeeds", "ntau", "nsols", "interval", "leakage", "freq0", "freqs", "bandpass", "nspect0",
   "nchan0", "stopt", "duration"]

/-- the names of variables of the source are different, as the keys of a dictionary are -/
def Op.Distinct : Op → Prop
  | .init src _ _ => (src.vars.map (·.1)).Nodup
  | _ => True

/-- no `init_from_uv` raises -/
def InitsWork (c : Conv) (s : Obj) : List Op → Prop
  | [] => True
  | o :: os => (match o with | .init _ _ _ => (step c s o).2 = none | _ => True) ∧ InitsWork c (step c s o).1 os

/-- the type that a name has in the file: that of its first value, here or before the file was opened -/
def typeIn (known : List (Name × Ty)) (log : List Write) (name : Name) : Option Ty :=
  match known.find? (fun p => decide (p.1 = name)) with
  | some p => some p.2
  | none => log.findSome? fun w => match w with | .var n ty _ => if n = name then some ty else none | .item _ _ => none

/-! ## Lemmas -/

theorem dget_find {V : Type} (k : Name) (d : List (Name × V)) : dget k d = (d.find? fun p => decide (p.1 = k)).map (·.2) := by
  induction d with
  | nil => rfl
  | cons e d ih =>
    obtain ⟨a, b⟩ := e
    by_cases h : a = k
    · simp [dget, h]
    · simp [dget, h, ih]

theorem putvr_table (s : Obj) (name : Name) (ty : Ty) (d : List Byte) : (putvr s name ty d).1.table = s.table := by
  unfold putvr
  by_cases hd : d = []
  · rw [if_pos hd]
  · rw [if_neg hd]
    cases hk : dget name s.kinds with
    | some ty' =>
      dsimp only
      by_cases ht : ty' = ty
      · rw [if_pos ht]
      · rw [if_neg ht]
    | none =>
      dsimp only
      by_cases hl : 8 < name.length
      · rw [if_pos hl]
      · rw [if_neg hl]

theorem wrvr_table (c : Conv) (s : Obj) (name : Name) (tc : Char) (v : PyVal) : (wrvr c s name tc v).1.table = s.table := by
  unfold wrvr
  cases encode c.fo tc v with
  | none => rfl
  | some x => exact putvr_table _ _ _ _

theorem wrhd_table (c : Conv) (s : Obj) (name : Name) (v : PyVal) : (wrhd c s name v).1.table = s.table := by
  unfold wrhd
  by_cases h : isItem name = true
  · rw [if_pos h]
    cases c.hdr name v <;> rfl
  · rw [if_neg h]

theorem set_table (c : Conv) (s : Obj) (name : Name) (v : PyVal) : (setItem c s name v).1.table = s.table := by
  unfold setItem
  cases dget name s.table with
  | some tc => exact wrvr_table _ _ _ _ _
  | none => exact wrhd_table _ _ _ _

theorem initVars_table (c : Conv) (over : List (Name × PyVal)) (excl : List Name) (name : Name) : ∀ (vs : List (Name × Char × Option PyVal)) (s : Obj),
    (vs.map (·.1)).Nodup → (initVars c over excl s vs).2 = none →
    dget name (initVars c over excl s vs).1.table =
      if name ∈ excl ∨ name = nmCorr then dget name s.table
      else match vs.find? (fun p => decide (p.1 = name)) with
        | some p => some p.2.1
        | none => dget name s.table := by
  intro vs
  induction vs with
  | nil => intro s _ _; simp [initVars]
  | cons e vs ih =>
    obtain ⟨k, tc, v⟩ := e
    intro s hn h
    rw [List.map_cons, List.nodup_cons] at hn
    rw [initVars] at h ⊢
    by_cases he : k ∈ excl
    · rw [if_pos he] at h ⊢
      rw [ih s hn.2 h]
      by_cases hx : name ∈ excl ∨ name = nmCorr
      · rw [if_pos hx, if_pos hx]
      · have : ¬ k = name := fun e => hx (Or.inl (e ▸ he))
        rw [if_neg hx, if_neg hx]
        simp [this]
    · rw [if_neg he] at h ⊢
      by_cases hc : k = nmCorr
      · rw [if_pos hc] at h ⊢
        rw [ih s hn.2 h]
        by_cases hx : name ∈ excl ∨ name = nmCorr
        · rw [if_pos hx, if_pos hx]
        · have : ¬ k = name := fun e => hx (Or.inr (e ▸ hc))
          rw [if_neg hx, if_neg hx]
          simp [this]
      · rw [if_neg hc] at h ⊢
        cases hw : (match dget k over with | some w => some w | none => v) with
        | none => rw [hw] at h; cases h
        | some w =>
          rw [hw] at h
          dsimp only at h ⊢
          cases hr : wrvr c { s with table := dset k tc s.table } k tc w with
          | mk s' oe =>
            cases oe with
            | some e => rw [hr] at h; cases h
            | none =>
              rw [hr] at h
              dsimp only at h ⊢
              have ht : s'.table = dset k tc s.table := by
                have := wrvr_table c { s with table := dset k tc s.table } k tc w
                rw [hr] at this
                exact this
              rw [ih s' hn.2 h, ht, dget_dset]
              by_cases hx : name ∈ excl ∨ name = nmCorr
              · rw [if_pos hx, if_pos hx, if_neg]
                intro e
                subst e
                exact hx.elim he hc
              · rw [if_neg hx, if_neg hx]
                by_cases e : k = name
                · subst e
                  have hnone : vs.find? (fun p => decide (p.1 = k)) = none := by
                    rw [List.find?_eq_none]
                    intro p hp
                    simp only [decide_eq_true_eq]
                    intro e
                    exact hn.1 (List.mem_map.mpr ⟨p, hp, e⟩)
                  rw [hnone]
                  simp
                · simp [e]

theorem run_append (c : Conv) : ∀ (os : List Op) (s : Obj) (o : Op), (run c s (os ++ [o])).1 = (step c (run c s os).1 o).1
  | [], _, _ => rfl
  | _ :: os, _, _ => run_append c os _ _

theorem run_table (c : Conv) (mode : Char) (name : Name) : ∀ (os done : List Op) (s : Obj), (∀ o ∈ os, o.Distinct) → InitsWork c s os →
    dget name s.table = declared mode done name →
    dget name (run c s os).1.table = declared mode (os.reverse ++ done) name := by
  intro os
  induction os with
  | nil => intro done s _ _ h; exact h
  | cons o os ih =>
    intro done s hd hw h
    rw [run, List.reverse_cons, List.append_assoc]
    refine ih ([o] ++ done) (step c s o).1 (fun x hx => hd x (List.mem_cons_of_mem _ hx)) hw.2 ?_
    cases o with
    | addVar n tc =>
      show dget name (dset n tc s.table) = if n = name then some tc else declared mode done name
      rw [dget_dset, h]
    | set n v =>
      show dget name (setItem c s n v).1.table = declared mode done name
      rw [set_table, h]
    | init src over excl =>
      have h1 : (initFromUv c s src over excl).2 = none := hw.1
      show dget name (initFromUv c s src over excl).1.table = if name ∈ excl ∨ name = nmCorr then none
        else (src.vars.find? fun p => decide (p.1 = name)).map fun p => p.2.1
      unfold initFromUv at h1 ⊢
      cases hi : initItems c over excl s src.items with
      | mk s' oe =>
        cases oe with
        | some e => rw [hi] at h1; cases h1
        | none =>
          rw [hi] at h1
          dsimp only at h1 ⊢
          rw [initVars_table c over excl name src.vars _ (hd _ (List.mem_cons_self ..)) h1]
          by_cases hx : name ∈ excl ∨ name = nmCorr
          · rw [if_pos hx, if_pos hx]; rfl
          · rw [if_neg hx, if_neg hx]
            cases src.vars.find? (fun p => decide (p.1 = name)) <;> rfl

theorem isItem_iff (name : Name) : isItem name = true ↔ name ∈ headerNames.map String.toList := by
  have key : ∀ a b : List Char, a.map Char.toNat = b.map Char.toNat ↔ a = b := fun a b =>
    List.map_inj_right fun x y h => Char.toNat_inj.mp h
  have e : Head.itemtable.map (fun p => p.1.map (·.toNat)) = (headerNames.map String.toList).map (fun n => n.map Char.toNat) := by decide +kernel
  have h1 : isItem name = true ↔ name.map Char.toNat ∈ Head.itemtable.map (fun p => p.1.map (·.toNat)) := by
    unfold isItem
    rw [List.any_eq_true, List.mem_map]
    simp only [decide_eq_true_eq]
  rw [h1, e, List.mem_map]
  constructor
  · rintro ⟨a, ha, hb⟩
    exact (key _ _).mp hb ▸ ha
  · intro h
    exact ⟨name, h, rfl⟩

/-- what the library knows is what was written -/
def Inv (known : List (Name × Ty)) (s : Obj) : Prop :=
  (∀ name, dget name s.kinds = typeIn known s.log name) ∧ ∀ n ty d, Write.var n ty d ∈ s.log → dget n s.kinds = some ty

theorem typeIn_item (known : List (Name × Ty)) (log : List Write) (n : Name) (d : Option (List Byte)) (name : Name) :
    typeIn known (log ++ [.item n d]) name = typeIn known log name := by
  unfold typeIn
  cases known.find? (fun p => decide (p.1 = name)) with
  | some p => rfl
  | none => simp [List.findSome?_append]

theorem typeIn_var (known : List (Name × Ty)) (log : List Write) (n : Name) (ty : Ty) (d : List Byte) (name : Name) :
    typeIn known (log ++ [.var n ty d]) name = match typeIn known log name with
      | some t => some t
      | none => if n = name then some ty else none := by
  unfold typeIn
  cases known.find? (fun p => decide (p.1 = name)) with
  | some p => rfl
  | none =>
    dsimp only
    rw [List.findSome?_append]
    cases log.findSome? (fun w => match w with | .var n ty _ => if n = name then some ty else none | .item _ _ => none) with
    | some t => rfl
    | none =>
      by_cases e : n = name
      · simp [e]
      · simp [e]

theorem inv_putvr {known : List (Name × Ty)} {s : Obj} (h : Inv known s) (name : Name) (ty : Ty) (d : List Byte) : Inv known (putvr s name ty d).1 := by
  unfold putvr
  by_cases hd : d = []
  · rw [if_pos hd]; exact h
  · rw [if_neg hd]
    cases hk : dget name s.kinds with
    | some ty' =>
      dsimp only
      by_cases ht : ty' = ty
      · rw [if_pos ht]
        subst ht
        refine ⟨fun n => ?_, fun n t d' hm => ?_⟩
        · show dget n s.kinds = _
          rw [typeIn_var, ← h.1 n]
          cases hn : dget n s.kinds with
          | some t => rfl
          | none =>
            have : name ≠ n := fun e => by rw [e, hn] at hk; cases hk
            rw [if_neg this]
        · rw [List.mem_append, List.mem_singleton] at hm
          cases hm with
          | inl hm => exact h.2 n t d' hm
          | inr hm => cases hm; exact hk
      · rw [if_neg ht]; exact h
    | none =>
      dsimp only
      by_cases hl : 8 < name.length
      · rw [if_pos hl]; exact h
      · rw [if_neg hl]
        refine ⟨fun n => ?_, fun n t d' hm => ?_⟩
        · show dget n (dset name ty s.kinds) = _
          rw [typeIn_var, ← h.1 n, dget_dset]
          by_cases e : name = n
          · subst e
            rw [hk, if_pos rfl]
          · rw [if_neg e, if_neg e]
            cases dget n s.kinds <;> rfl
        · show dget n (dset name ty s.kinds) = some t
          rw [List.mem_append, List.mem_singleton] at hm
          cases hm with
          | inl hm =>
            have := h.2 n t d' hm
            rw [dget_dset_ne (fun e => by rw [e, this] at hk; cases hk)]
            exact this
          | inr hm => cases hm; exact dget_dset_self _ _ _

theorem inv_table {known : List (Name × Ty)} {s : Obj} (h : Inv known s) (tb : List (Name × Char)) : Inv known { s with table := tb } := h

theorem inv_wrvr {known : List (Name × Ty)} {s : Obj} (h : Inv known s) (c : Conv) (name : Name) (tc : Char) (v : PyVal) :
    Inv known (wrvr c s name tc v).1 := by
  unfold wrvr
  cases encode c.fo tc v with
  | none => exact h
  | some x => exact inv_putvr h _ _ _

theorem inv_wrhd {known : List (Name × Ty)} {s : Obj} (h : Inv known s) (c : Conv) (name : Name) (v : PyVal) : Inv known (wrhd c s name v).1 := by
  have key : ∀ d, Inv known { s with log := s.log ++ [.item name d] } := by
    intro d
    refine ⟨fun n => ?_, fun n t d' hm => ?_⟩
    · show dget n s.kinds = _
      rw [typeIn_item]
      exact h.1 n
    · rw [List.mem_append, List.mem_singleton] at hm
      cases hm with
      | inl hm => exact h.2 n t d' hm
      | inr hm => cases hm
  unfold wrhd
  by_cases hi : isItem name = true
  · rw [if_pos hi]
    cases c.hdr name v with
    | some d => exact key _
    | none => exact key _
  · rw [if_neg hi]; exact h

theorem inv_initItems {known : List (Name × Ty)} (c : Conv) (over : List (Name × PyVal)) (excl : List Name) : ∀ (vs : List (Name × Option PyVal)) {s : Obj},
    Inv known s → Inv known (initItems c over excl s vs).1
  | [], _, h => h
  | (k, v) :: rest, s, h => by
    rw [initItems]
    by_cases he : k ∈ excl
    · rw [if_pos he]; exact inv_initItems c over excl rest h
    · rw [if_neg he]
      cases (match dget k over with | some w => some w | none => v) with
      | none => exact h
      | some w =>
        dsimp only
        have hi := inv_wrhd h c k w
        cases hr : wrhd c s k w with
        | mk s' oe =>
          rw [hr] at hi
          cases oe with
          | some e => exact hi
          | none => exact inv_initItems c over excl rest hi

theorem inv_initVars {known : List (Name × Ty)} (c : Conv) (over : List (Name × PyVal)) (excl : List Name) :
    ∀ (vs : List (Name × Char × Option PyVal)) {s : Obj}, Inv known s → Inv known (initVars c over excl s vs).1
  | [], _, h => h
  | (k, tc, v) :: rest, s, h => by
    rw [initVars]
    by_cases he : k ∈ excl
    · rw [if_pos he]; exact inv_initVars c over excl rest h
    · rw [if_neg he]
      by_cases hc : k = nmCorr
      · rw [if_pos hc]; exact inv_initVars c over excl rest h
      · rw [if_neg hc]
        cases (match dget k over with | some w => some w | none => v) with
        | none => exact h
        | some w =>
          dsimp only
          have hi := inv_wrvr (inv_table h (dset k tc s.table)) c k tc w
          cases hr : wrvr c { s with table := dset k tc s.table } k tc w with
          | mk s' oe =>
            rw [hr] at hi
            cases oe with
            | some e => exact hi
            | none => exact inv_initVars c over excl rest hi

theorem inv_step {known : List (Name × Ty)} {s : Obj} (h : Inv known s) (c : Conv) (o : Op) : Inv known (step c s o).1 := by
  cases o with
  | addVar n tc => exact h
  | set n v =>
    show Inv known (setItem c s n v).1
    unfold setItem
    cases dget n s.table with
    | some tc => exact inv_wrvr h c n tc v
    | none => exact inv_wrhd h c n v
  | init src over excl =>
    show Inv known (initFromUv c s src over excl).1
    unfold initFromUv
    have hi := inv_initItems c over excl src.items h
    cases hr : initItems c over excl s src.items with
    | mk s' oe =>
      rw [hr] at hi
      cases oe with
      | some e => exact hi
      | none => exact inv_initVars c over excl src.vars (inv_table hi [])

theorem inv_run {known : List (Name × Ty)} (c : Conv) : ∀ (os : List Op) {s : Obj}, Inv known s → Inv known (run c s os).1
  | [], _, h => h
  | o :: os, _, h => inv_run c os (inv_step h c o)

theorem inv_opened (mode : Char) (known : List (Name × Ty)) : Inv known (opened mode known) := by
  refine ⟨fun n => ?_, fun n t d h => by cases h⟩
  show dget n known = typeIn known [] n
  rw [dget_find]
  unfold typeIn
  cases known.find? (fun p => decide (p.1 = n)) <;> rfl

/-! ## The properties -/

/-- what `uv[name] = v` is to do: nothing but write one value, or nothing but raise -/
def Expected (c : Conv) (decl : Option Char) (ty : Option Ty) (name : Name) (v : PyVal) : List Write × Option Err :=
  match decl with
  | some tc =>
    match encode c.fo tc v with
    | none => ([], some .value)
    | some (t, d) =>
      if d = [] then ([], none)
      else if ty = some t ∨ ty = none ∧ name.length ≤ 8 then ([.var name t d], none)
      else ([], some .library)
  | none =>
    if name ∈ headerNames.map String.toList then
      match c.hdr name v with
      | some d => ([.item name (some d)], none)
      | none => ([.item name none], some .header)
    else ([], some .key)

/-- **C153.**  After any calls of `add_var`, `init_from_uv` (that did not raise) and assignments, `uv[name] = v` writes to the variable if the last
call that decides about the name declared it; otherwise it writes the header item of that name; otherwise it raises `KeyError` and writes
nothing.  A variable keeps the type that it has in the file: under another type nothing is written. -/
theorem c153_set (c : Conv) (mode : Char) (known : List (Name × Ty)) (os : List Op) (hd : ∀ o ∈ os, o.Distinct) (hw : InitsWork c (opened mode known) os)
    (name : Name) (v : PyVal) :
    (step c (run c (opened mode known) os).1 (.set name v)).1.log =
      (run c (opened mode known) os).1.log ++
        (Expected c (declared mode os.reverse name) (typeIn known (run c (opened mode known) os).1.log name) name v).1 ∧
    (step c (run c (opened mode known) os).1 (.set name v)).2 =
      (Expected c (declared mode os.reverse name) (typeIn known (run c (opened mode known) os).1.log name) name v).2 := by
  have ht := run_table c mode name os [] (opened mode known) hd hw (by
    show dget name [(nmCorr, mode)] = if name = nmCorr then some mode else none
    simp [dget, eq_comm])
  rw [List.append_nil] at ht
  have hi := (inv_run c os (inv_opened mode known)).1 name
  generalize (run c (opened mode known) os).1 = s at ht hi
  rw [← ht, ← hi]
  show (setItem c s name v).1.log = _ ∧ (setItem c s name v).2 = _
  unfold setItem Expected
  cases dget name s.table with
  | some tc =>
    dsimp only
    unfold wrvr
    cases encode c.fo tc v with
    | none => exact ⟨(List.append_nil _).symm, rfl⟩
    | some x =>
      obtain ⟨t, d⟩ := x
      dsimp only
      unfold putvr
      by_cases hd : d = []
      · rw [if_pos hd, if_pos hd]; exact ⟨(List.append_nil _).symm, rfl⟩
      · rw [if_neg hd, if_neg hd]
        cases hk : dget name s.kinds with
        | some ty' =>
          dsimp only
          by_cases e : ty' = t
          · rw [if_pos e, if_pos (Or.inl (by rw [e]))]; exact ⟨rfl, rfl⟩
          · rw [if_neg e, if_neg (by rintro (h | h); · exact e (Option.some.inj h)
                                     · cases h.1)]
            exact ⟨(List.append_nil _).symm, rfl⟩
        | none =>
          dsimp only
          by_cases hl : 8 < name.length
          · rw [if_pos hl, if_neg (by rintro (h | h); · cases h
                                      · omega)]
            exact ⟨(List.append_nil _).symm, rfl⟩
          · rw [if_neg hl, if_pos (Or.inr ⟨rfl, by omega⟩)]; exact ⟨rfl, rfl⟩
  | none =>
    dsimp only
    unfold wrhd
    by_cases h : isItem name = true
    · rw [if_pos h, if_pos ((isItem_iff name).mp h)]
      cases c.hdr name v <;> exact ⟨rfl, rfl⟩
    · rw [if_neg h, if_neg (fun h' => h ((isItem_iff name).mpr h'))]
      exact ⟨(List.append_nil _).symm, rfl⟩

/-- **C153.**  Whatever a program does, exceptions caught or not: all values of a variable in the file have one type, also the one it
had when the file was opened to append to it. -/
theorem c153_one_type (c : Conv) (mode : Char) (known : List (Name × Ty)) (os : List Op) (n : Name) (t t' : Ty) (d d' : List Byte)
    (h : Write.var n t d ∈ (run c (opened mode known) os).1.log) :
    (Write.var n t' d' ∈ (run c (opened mode known) os).1.log → t = t') ∧
    ((∃ p, known.find? (fun p => decide (p.1 = n)) = some p ∧ p.2 = t') → t = t') := by
  have hi := inv_run c os (inv_opened mode known)
  have h1 := hi.2 n t d h
  constructor
  · intro h'
    have h2 := hi.2 n t' d' h'
    rw [h1] at h2
    exact Option.some.inj h2
  · rintro ⟨p, hp, e⟩
    have h2 := hi.1 n
    rw [h1] at h2
    unfold typeIn at h2
    rw [hp] at h2
    exact (Option.some.inj h2).trans e

theorem initItems_same (c : Conv) {over over' : List (Name × PyVal)} (excl : List Name) : ∀ (vs : List (Name × Option PyVal)) (s : Obj),
    (∀ p ∈ vs, dget p.1 over = dget p.1 over') → initItems c over excl s vs = initItems c over' excl s vs
  | [], _, _ => rfl
  | (k, v) :: rest, s, h => by
    rw [initItems, initItems, h (k, v) (List.mem_cons_self ..)]
    have ih := fun s' => initItems_same c excl rest s' (fun p hp => h p (List.mem_cons_of_mem _ hp))
    simp only [ih]

theorem initVars_same (c : Conv) {over over' : List (Name × PyVal)} (excl : List Name) : ∀ (vs : List (Name × Char × Option PyVal)) (s : Obj),
    (∀ p ∈ vs, dget p.1 over = dget p.1 over') → initVars c over excl s vs = initVars c over' excl s vs
  | [], _, _ => rfl
  | (k, tc, v) :: rest, s, h => by
    rw [initVars, initVars, h (k, tc, v) (List.mem_cons_self ..)]
    have ih := fun s' => initVars_same c excl rest s' (fun p hp => h p (List.mem_cons_of_mem _ hp))
    simp only [ih]

/-- **C153.**  `override` changes only what the other file has: entries for other names are ignored, without an error. -/
theorem c153_override (c : Conv) (s : Obj) (src : Source) {over over' : List (Name × PyVal)} (excl : List Name)
    (h : ∀ k, k ∈ src.items.map (·.1) ∨ k ∈ src.vars.map (·.1) → dget k over = dget k over') :
    initFromUv c s src over excl = initFromUv c s src over' excl := by
  unfold initFromUv
  rw [initItems_same c excl src.items s (fun p hp => h _ (Or.inl (List.mem_map_of_mem hp)))]
  cases initItems c over' excl s src.items with
  | mk s' oe =>
    cases oe with
    | some e => rfl
    | none => exact initVars_same c excl src.vars _ (fun p hp => h _ (Or.inr (List.mem_map_of_mem hp)))

/-- the value that `init_from_uv` is to write -/
def choice (over : List (Name × PyVal)) (k : Name) (v : Option PyVal) : Option PyVal := (dget k over).or v

/-- what `init_from_uv` is to write: every item and every variable that is not excluded, with the value of `override` if there is one; `corr` never -/
def initWrites (c : Conv) (src : Source) (over : List (Name × PyVal)) (excl : List Name) : List Write :=
  (src.items.filter fun p => decide (p.1 ∉ excl)).filterMap (fun p => (choice over p.1 p.2).map fun w => .item p.1 (c.hdr p.1 w)) ++
  (src.vars.filter fun p => decide (p.1 ∉ excl ∧ p.1 ≠ ['c', 'o', 'r', 'r'])).filterMap (fun p =>
    (choice over p.1 p.2.2).bind fun w => (encode c.fo p.2.1 w).bind fun x => if x.2 = [] then none else some (.var p.1 x.1 x.2))

theorem choice_eq (over : List (Name × PyVal)) (k : Name) (v : Option PyVal) : (match dget k over with | some w => some w | none => v) = choice over k v := by
  unfold choice
  cases dget k over <;> rfl

theorem initItems_log (c : Conv) (over : List (Name × PyVal)) (excl : List Name) : ∀ (vs : List (Name × Option PyVal)) (s : Obj),
    (initItems c over excl s vs).2 = none → (initItems c over excl s vs).1.log = s.log ++
      (vs.filter fun p => decide (p.1 ∉ excl)).filterMap (fun p => (choice over p.1 p.2).map fun w => .item p.1 (c.hdr p.1 w))
  | [], s, _ => (List.append_nil _).symm
  | (k, v) :: rest, s, h => by
    rw [initItems] at h ⊢
    by_cases he : k ∈ excl
    · rw [if_pos he] at h ⊢
      rw [initItems_log c over excl rest s h, List.filter_cons_of_neg (by simpa using he)]
    · rw [if_neg he] at h ⊢
      rw [List.filter_cons_of_pos (by simpa using he)]
      rw [choice_eq] at h ⊢
      cases hw : choice over k v with
      | none => rw [hw] at h; cases h
      | some w =>
        rw [hw] at h
        dsimp only at h ⊢
        cases hr : wrhd c s k w with
        | mk s' oe =>
          cases oe with
          | some e => rw [hr] at h; cases h
          | none =>
            rw [hr] at h
            dsimp only at h ⊢
            rw [initItems_log c over excl rest s' h, List.filterMap_cons_some (b := .item k (c.hdr k w)) (by dsimp only; rw [hw]; rfl)]
            have hl : s'.log = s.log ++ [.item k (c.hdr k w)] := by
              unfold wrhd at hr
              by_cases hi : isItem k = true
              · rw [if_pos hi] at hr
                cases hd : c.hdr k w with
                | some d => rw [hd] at hr; cases hr; rfl
                | none => rw [hd] at hr; cases hr
              · rw [if_neg hi] at hr; cases hr
            rw [hl, List.append_assoc]
            rfl

theorem initVars_log (c : Conv) (over : List (Name × PyVal)) (excl : List Name) : ∀ (vs : List (Name × Char × Option PyVal)) (s : Obj),
    (initVars c over excl s vs).2 = none → (initVars c over excl s vs).1.log = s.log ++
      (vs.filter fun p => decide (p.1 ∉ excl ∧ p.1 ≠ ['c', 'o', 'r', 'r'])).filterMap (fun p =>
        (choice over p.1 p.2.2).bind fun w => (encode c.fo p.2.1 w).bind fun x => if x.2 = [] then none else some (.var p.1 x.1 x.2))
  | [], s, _ => (List.append_nil _).symm
  | (k, tc, v) :: rest, s, h => by
    rw [initVars] at h ⊢
    by_cases he : k ∈ excl
    · rw [if_pos he] at h ⊢
      rw [initVars_log c over excl rest s h, List.filter_cons_of_neg (by simp [he])]
    · rw [if_neg he] at h ⊢
      by_cases hc : k = nmCorr
      · rw [if_pos hc] at h ⊢
        rw [initVars_log c over excl rest s h, List.filter_cons_of_neg (by
          simp only [decide_eq_true_eq, not_and]
          intro _ h'
          exact h' hc)]
      · rw [if_neg hc] at h ⊢
        rw [List.filter_cons_of_pos (by
          simp only [decide_eq_true_eq]
          exact ⟨he, hc⟩)]
        rw [choice_eq] at h ⊢
        cases hw : choice over k v with
        | none => rw [hw] at h; cases h
        | some w =>
          rw [hw] at h
          dsimp only at h ⊢
          cases hr : wrvr c { s with table := dset k tc s.table } k tc w with
          | mk s' oe =>
            cases oe with
            | some e => rw [hr] at h; cases h
            | none =>
              rw [hr] at h
              dsimp only at h ⊢
              rw [initVars_log c over excl rest s' h]
              unfold wrvr at hr
              cases hx : encode c.fo tc w with
              | none => rw [hx] at hr; cases hr
              | some x =>
                obtain ⟨t, d⟩ := x
                rw [hx] at hr
                dsimp only at hr
                by_cases hd : d = []
                · rw [List.filterMap_cons_none (by dsimp only; rw [hw, Option.bind_some, hx, Option.bind_some, if_pos hd])]
                  unfold putvr at hr
                  rw [if_pos hd] at hr
                  cases hr
                  rfl
                · rw [List.filterMap_cons_some (b := .var k t d) (by dsimp only; rw [hw, Option.bind_some, hx, Option.bind_some, if_neg hd])]
                  have hl : s'.log = s.log ++ [.var k t d] := by
                    unfold putvr at hr
                    rw [if_neg hd] at hr
                    dsimp only at hr
                    cases hk : dget k s.kinds with
                    | some t' =>
                      rw [hk] at hr
                      dsimp only at hr
                      by_cases e : t' = t
                      · rw [if_pos e] at hr; cases hr; rfl
                      · rw [if_neg e] at hr; cases hr
                    | none =>
                      rw [hk] at hr
                      dsimp only at hr
                      by_cases e : 8 < k.length
                      · rw [if_pos e] at hr; cases hr
                      · rw [if_neg e] at hr; cases hr; rfl
                  rw [hl, List.append_assoc]
                  rfl

/-- **C153.**  When `init_from_uv` does not raise it has written exactly the items and variables of the other file that are not excluded (never `corr`), in their
order, with the values of `override` where there are any. -/
theorem c153_init (c : Conv) (s : Obj) (src : Source) (over : List (Name × PyVal)) (excl : List Name) (h : (initFromUv c s src over excl).2 = none) :
    (initFromUv c s src over excl).1.log = s.log ++ initWrites c src over excl := by
  unfold initFromUv at h ⊢
  cases hr : initItems c over excl s src.items with
  | mk s' oe =>
    cases oe with
    | some e => rw [hr] at h; cases h
    | none =>
      rw [hr] at h
      dsimp only at h ⊢
      have h1 := initItems_log c over excl src.items s (by rw [hr])
      rw [hr] at h1
      rw [initVars_log c over excl src.vars _ h]
      show s'.log ++ _ = _
      rw [show s'.log = _ from h1, List.append_assoc]
      rfl

/-- **C153, disagreement.**  `init_from_uv` throws away what `add_var` declared before: the assignment that worked before it raises `KeyError`
after it, for every variable that the other file does not have. -/
theorem c153_forget_violated (c : Conv) (mode tc : Char) (src : Source) (name : Name) (hn : (src.vars.map (·.1)).Nodup) (hs : name ∉ src.vars.map (·.1))
    (hh : name ∉ headerNames.map String.toList) (v : PyVal)
    (hw : (step c (step c (opened mode []) (.addVar name tc)).1 (.init src [] [])).2 = none) :
    (step c (run c (opened mode []) [.addVar name tc, .init src [] []]).1 (.set name v)).2 = some .key := by
  have h := (c153_set c mode [] [.addVar name tc, .init src [] []]
    (by intro o ho; simp only [List.mem_cons, List.not_mem_nil, or_false] at ho; rcases ho with rfl | rfl; · trivial
        · exact hn) ⟨trivial, hw, trivial⟩ name v).2
  rw [h]
  have e : declared mode [Op.addVar name tc, Op.init src [] []].reverse name = none := by
    show (if name ∈ ([] : List Name) ∨ name = _ then none else _) = none
    by_cases hc : name ∈ ([] : List Name) ∨ name = ['c', 'o', 'r', 'r']
    · rw [if_pos hc]
    · rw [if_neg hc]
      have : src.vars.find? (fun p => decide (p.1 = name)) = none := by
        rw [List.find?_eq_none]
        intro p hp
        simp only [decide_eq_true_eq]
        intro e
        exact hs (List.mem_map.mpr ⟨p, hp, e⟩)
      rw [this]
      rfl
  rw [e]
  unfold Expected
  rw [if_neg hh]

/-- **C153, disagreement.**  A file opened with `status='append'`: none of the variables that it has can be assigned to (other than `corr`), they raise
`KeyError` like unknown names. -/
theorem c153_append_violated (c : Conv) (mode : Char) (known : List (Name × Ty)) (name : Name) (hc : name ≠ ['c', 'o', 'r', 'r'])
    (hh : name ∉ headerNames.map String.toList) (v : PyVal) : (step c (opened mode known) (.set name v)).2 = some .key := by
  have h := (c153_set c mode known [] (by simp) trivial name v).2
  rw [show (run c (opened mode known) []).1 = opened mode known from rfl] at h
  rw [h]
  show (Expected c (if name = _ then some mode else none) _ name v).2 = _
  rw [if_neg hc]
  unfold Expected
  rw [if_neg hh]

/-! ### Examples -/

section Examples

/-- conversions for the examples -/
def demo : Conv := ⟨⟨fun _ => 0, fun _ => 0, fun _ => by decide⟩, fun _ v => match v with | .str s => some s | _ => none⟩

/-- a source with a history and one variable -/
def demoSrc : Source := ⟨[("history".toList, some (.str [104]))], [("corr".toList, 'r', none), ("ra".toList, 'd', some (.float 7))]⟩

/-- `add_var('pol', 'i')`, `uv['pol'] = -5`, `init_from_uv(uv2)`, `uv['ra'] = 8`, `uv['pol'] = -6`, `add_var('ra', 'r')`, `uv['ra'] = 9` -/
def demoOps : List Op :=
  [.addVar "pol".toList 'i', .set "pol".toList (.int (-5)), .init demoSrc [] [], .set "ra".toList (.float 8), .set "pol".toList (.int (-6)),
   .addVar "ra".toList 'r', .set "ra".toList (.float 9)]

example : (run demo (opened 'r' []) demoOps).2 = [none, none, none, none, some .key, none, some .library] := by decide +kernel

example : (run demo (opened 'r' []) demoOps).1.log =
    [.var "pol".toList .int [255, 255, 255, 251], .item "history".toList (some [104]), .var "ra".toList .dble [0, 0, 0, 0, 0, 0, 0, 7],
     .var "ra".toList .dble [0, 0, 0, 0, 0, 0, 0, 8]] := by decide +kernel

/-- the hypotheses of `c153_set` -/
example : (∀ o ∈ demoOps, o.Distinct) ∧ InitsWork demo (opened 'r' []) demoOps := by
  constructor
  · intro o ho
    simp only [demoOps, List.mem_cons, List.not_mem_nil, or_false] at ho
    rcases ho with rfl | rfl | rfl | rfl | rfl | rfl | rfl
    · trivial
    · trivial
    · show (demoSrc.vars.map (·.1)).Nodup; decide +kernel
    all_goals trivial
  · refine ⟨trivial, trivial, ?_, trivial, trivial, trivial, trivial, trivial⟩
    decide +kernel

example : (step demo (opened 'r' [("ra".toList, .dble)]) (.set "ra".toList (.float 8))).2 = some .key :=
  c153_append_violated demo 'r' _ _ (by decide +kernel) (by decide +kernel) _

example : (step demo (run demo (opened 'r' []) [.addVar "pol".toList 'i', .init demoSrc [] []]).1 (.set "pol".toList (.int 1))).2 = some .key :=
  c153_forget_violated demo 'r' 'i' demoSrc "pol".toList (by decide +kernel) (by decide +kernel) (by decide +kernel) _ (by decide +kernel)

example : (initFromUv demo (opened 'r' []) demoSrc [("ra".toList, .float 9)] []).2 = none ∧
    initWrites demo demoSrc [("ra".toList, .float 9)] [] = [.item "history".toList (some [104]), .var "ra".toList .dble [0, 0, 0, 0, 0, 0, 0, 9]] := by
  decide +kernel

/-- an override for a variable that the source does not have -/
example : initFromUv demo (opened 'r' []) demoSrc [("pol".toList, .int 1)] [] = initFromUv demo (opened 'r' []) demoSrc [] [] :=
  c153_override demo _ _ _ (by
    intro k hk
    have : k ≠ "pol".toList := by rintro rfl; revert hk; decide +kernel
    show dget k [("pol".toList, PyVal.int 1)] = dget k []
    unfold dget
    rw [if_neg this.symm]
    rfl)

end Examples

end Verif.Mir.Uv.Set
