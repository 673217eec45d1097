import Verif.Scripting.Model
/-!
# Record selection

Model of `/repo/aipy/miriad.py` 197-216 (`UV.select`), `/repo/aipy/_miriad/mir/uvio.c` 2259-2526
(`uvselect_c`), 2528-2561 (`uv_addopers`), 3147-3538 (`uvread_select`) and of
`/repo/aipy/scripting.py` 108-130 (`uv_selector`).

Simplifications: the amplitude and window selections (which flag channels rather than drop records)
are left out here (C131, C132); the numeric test of each operation type is a Boolean function of the record
(polarisation is modelled exactly); `clear`, `and`, `or`, `antennae`, `auto` and the sorted operation
lists are as in the source.  The antenna table is a function on indices instead of an array of
MAXANT*(MAXANT+1)/2 entries.
-/
namespace Verif.Miriad
open Verif.Util Verif.Codes Verif.Scripting

/-- `MAXANT`, maxdimc.h -/
def maxAnt : Nat := 2048

/-- what `uvread_select` looks at: the two antenna numbers (counted from 1, as `uvbasant_c` gives
them), the polarisation, and the values other operations test. -/
structure Rec where
  i1 : Nat
  i2 : Nat
  pol : Int
  attr : Nat → Int
deriving Inhabited

/-- `OPERS`: type, discard flag and the interval test (`loval`/`hival`), uvio.c 419-424 -/
structure Oper where
  ty : Nat
  discard : Bool
  test : Rec → Bool

/-- the operation type numbers, uvio.c 397-417 -/
abbrev SEL_POL : Nat := 10
abbrev SEL_DAZIM : Nat := 20
abbrev SEL_DELEV : Nat := 21

/-- `SELECT`: one clause. `ants = none` is `selants == FALSE`. -/
structure Clause where
  conj : Bool
  ants : Option (Nat → Bool)
  opers : List Oper

/-- a call of `uvselect_c` (after the `+1` of `UV.select` for antennae) -/
inductive SelCall where
  | clear
  | conj
  | disj
  | antennae (p1 p2 : Int) (incl : Bool)
  | auto (incl : Bool)
  | oper (ty : Nat) (test : Rec → Bool) (incl : Bool)

/-- index of a baseline in the antenna table, `(i1*(i1-1))/2+i2-1`, uvio.c 2518 -/
def tri (i1 i2 : Nat) : Nat := (i1 * (i1 - 1)) / 2 + i2 - 1

/-- `sel->ants[f(i)] = d` for the `i` of a loop -/
def setMany (d : Bool) (idx : List Nat) (t : Nat → Bool) : Nat → Bool :=
  idx.foldl (fun t i => fun k => if k = i then d else t k) t

/-- `uv_addopers`, uvio.c 2528-2561: shift entries of larger type down from the end, then insert. -/
def addOper (o : Oper) (l : List Oper) : List Oper :=
  let tail := (l.reverse.takeWhile (fun p => decide (p.ty > o.ty))).reverse
  let front := (l.reverse.dropWhile (fun p => decide (p.ty > o.ty))).reverse
  front ++ o :: tail

/-- antenna table at first use in a clause: everything gets the opposite flag, uvio.c 2494-2497, 2503-2506 -/
def initAnts (discard : Bool) (a : Option (Nat → Bool)) : Nat → Bool :=
  match a with
  | none => fun _ => !discard
  | some t => t

/-- effect of a selection on the last clause, uvio.c 2337-2519; `none` is a fatal error -/
def applyToClause (c : SelCall) (cl : Clause) : Option Clause :=
  match c with
  | .clear | .conj | .disj => some cl
  | .oper ty test incl => some { cl with opers := addOper ⟨ty, !incl, test⟩ cl.opers }
  | .auto incl =>
    let d := !incl
    let t := initAnts d cl.ants
    some { cl with ants := some (setMany d ((List.range maxAnt).map (fun i => ((i + 1) * i) / 2 + i)) t) }
  | .antennae p1 p2 incl =>
    let d := !incl
    let t := initAnts d cl.ants
    let i1 := max p1 p2
    let i2 := min p1 p2
    if i1 < 0 ∨ i1 > maxAnt then none
    else if i2 < 0 ∨ i2 > maxAnt then none
    else
      let i1 := i1.toNat
      let i2 := i2.toNat
      if i1 = 0 then some { cl with ants := some (fun _ => d) }
      else if i2 = 0 then
        let t1 := setMany d ((List.range i1).map (fun i => tri i1 (i + 1))) t
        let t2 := setMany d ((List.range (maxAnt - i1)).map (fun i => tri (i1 + 1 + i) i1)) t1
        some { cl with ants := some t2 }
      else some { cl with ants := some (setMany d [tri i1 i2] t) }

/-- an empty clause -/
def newClause (conj : Bool) : Clause := ⟨conj, none, []⟩

/-- `uvselect_c`, uvio.c 2259-2526, on the list of clauses (`uv->select`, first clause first). -/
def uvselect (c : SelCall) (sel : List Clause) : Option (List Clause) :=
  match c with
  | .clear => some []
  | .conj => if sel = [] then some [] else some (sel ++ [newClause true])
  | .disj => if sel = [] then some [] else some (sel ++ [newClause false])
  | c =>
    let sel := if sel.isEmpty then [newClause true] else sel
    match sel.getLast? with
    | none => none
    | some cl => (applyToClause c cl).map (fun cl' => sel.dropLast ++ [cl'])

/-- the order in which `uvread_select` tests the operation types, uvio.c 3190-3512 -/
def checkOrder : List Nat :=
  [1, 2, 3, 4, SEL_DAZIM, SEL_DELEV, 5, 6, 7, 8, 9, SEL_POL, 11, 12, 13, 14, 15, 16, 17, 18, 19]

/-- `while(n < noper && op->type == T){ if(test) discard = op->discard; op++; n++; }` -/
def runGroup (ty : Nat) (d : Bool) (r : Rec) : List Oper → Bool × List Oper
  | [] => (d, [])
  | op :: ops =>
    if op.ty = ty then runGroup ty (if op.test r then op.discard else d) r ops
    else (d, op :: ops)

/-- the sequence of type checks; result is `discard` at `endloop` -/
def runOps (r : Rec) : List Nat → List Oper → Bool
  | [], _ => false
  | _ :: _, [] => false
  | t :: ts, op :: ops =>
    if op.ty = t then
      let (d, rest) := runGroup t (!op.discard) r (op :: ops)
      if d || rest.isEmpty then d else runOps r ts rest
    else runOps r ts (op :: ops)

/-- antenna part of a clause, uvio.c 3170-3180; the index is computed from `i2`, `i1` as decoded, without
ordering them -/
def antsDiscard (r : Rec) (cl : Clause) : Bool :=
  match cl.ants with
  | none => false
  | some t => if r.i1 < 1 ∨ r.i2 > maxAnt then true else t ((r.i2 * (r.i2 - 1)) / 2 + r.i1 - 1)

/-- body of the loop of `uvread_select`, uvio.c 3164-3519: is the record discarded by this clause? -/
def clauseDiscard (r : Rec) (cl : Clause) : Bool :=
  if antsDiscard r cl then true else runOps r checkOrder cl.opers

/-- `uvread_select`, uvio.c 3147-3538: `true` if the record is selected (the C function returns the negation). -/
def uvreadSelect (r : Rec) (sel : List Clause) : Bool :=
  sel.foldl (fun selprev cl =>
    if (!selprev && cl.conj) || (selprev && !cl.conj) then selprev
    else !(clauseDiscard r cl)) true

/-- a sequence of `select` calls on a freshly opened file -/
def runSelect (cs : List SelCall) : Option (List Clause) :=
  cs.foldlM (fun sel c => uvselect c sel) []

/-! ## Python layer -/

/-- `UV.select('antennae', n1, n2, include)`, miriad.py 213-216: antennas counted from 0 in Python -/
def pySelectAntennae (n1 n2 : Int) (incl : Bool) : SelCall := .antennae (n1 + 1) (n2 + 1) incl

/-- `uv.select('polarization', code, 0)` -/
def pySelectPol (code : Int) : SelCall := .oper SEL_POL (fun r => r.pol == code) true

/-- the selections for `for p in pol.split(','): ...`, scripting.py 124-126; KeyError is `none` -/
def polCalls (pol : List Char) : Option (List SelCall) :=
  (splitOn ',' pol).mapM (fun p => (str2pol (String.ofList p)).map pySelectPol)

/-- `if pol == -1: pol = pol_str`, scripting.py 118 -/
def effPol (polStr pol : Option (List Char)) : Option (List Char) :=
  match pol with
  | none => polStr
  | some p => some p

/-- `if pol != -1: for p in ...`, scripting.py 123-126 -/
def optPolCalls (pol : Option (List Char)) : Option (List SelCall) :=
  match pol with
  | none => some []
  | some p => polCalls p

/-- `if bl == 'auto': ... else: ...`, scripting.py 119-122 -/
def mainCall (bl : Option Int) (incl : Bool) : SelCall :=
  match bl with
  | none => .auto incl
  | some bl => pySelectAntennae (bl2ij bl).1 (bl2ij bl).2 incl

/-- body of the loop of `uv_selector`, scripting.py 114-126, for entry number `cnt` -/
def entryCalls (polStr : Option (List Char)) (cnt : Nat) (e : Entry) : Option (List SelCall) :=
  let sep := if cnt > 0 then [if e.incl then SelCall.disj else SelCall.conj] else []
  (optPolCalls (effPol polStr e.pol)).map (fun pc => sep ++ mainCall e.bl e.incl :: pc)

/-- `uv_selector(uv, ants, pol_str)`, scripting.py 108-130, with `ants` already parsed (`none` is `-1`):
the sequence of `select` calls it makes. -/
def uvSelector (ants : Option (List Entry)) (polStr : Option (List Char)) : Option (List SelCall) :=
  match ants with
  | some es => ((es.zipIdx).mapM (fun (e, cnt) => entryCalls polStr cnt e)).map List.flatten
  | none => optPolCalls polStr

end Verif.Miriad
