import Verif.Mir.UvVisRead
import Verif.Miriad.SelectModel

/-!
# Reading with a selection

`uvread_c` of /repo/aipy/_miriad/mir/uvio.c 2796-2890 with its loop over the records and `uvread_select`, and the
calls of `UV.select` (/repo/aipy/miriad.py 195-216) between them.  The clauses and the decision about one record are
those of `Verif.Miriad.SelectModel`, the records and the flag file those of `Verif.Mir.UvVis`.

Not modelled: the selections by amplitude and by window (they do not choose records), variables other than `pol` that
a selection needs and that are missing or have no value yet (a fatal error in `uv_checkvar`), and data sets with the
variable `wcorr`.
-/
namespace Verif.Mir.UvSel

open Verif.Mir.Uv
open Verif.Mir.Hio (Byte)
open Verif.Miriad (SelCall Clause uvselect uvreadSelect)

/-- a selection by visibility number, uvio.c 2436-2439, here between integers -/
structure VisOp where
  discard : Bool
  lo : Int
  hi : Int
  deriving DecidableEq, Repr

/-- the calls of `uvselect_c`: the selection by visibility number, and the others -/
inductive Call
  | vis (lo hi : Int) (incl : Bool)
  | other (c : SelCall)

/-- `SEL_VIS` -/
abbrev SEL_VIS : Nat := 1

/-- the number of the visibility (`uv->callno`) is between `loval` and `hival`, uvio.c 3191 -/
def inRange (lo hi : Int) (r : Miriad.Rec) : Bool := decide (lo ≤ r.attr SEL_VIS) && decide (r.attr SEL_VIS ≤ hi)

def Call.sel : Call → SelCall
  | .vis lo hi incl => .oper SEL_VIS (inRange lo hi) incl
  | .other c => c

/-- the selection of a file: the clauses, the operations of type `SEL_VIS` in each of them, `uv->maxvis` and the flag
`UVF_INIT` -/
structure Sel where
  clauses : List Clause
  vis : List (List VisOp)
  maxvis : Int
  init : Bool

/-- a file that is opened, uvio.c 1040-1070 -/
def noSel : Sel := ⟨[], [], 0, false⟩

/-- `uv_addopers` in the last clause, uvio.c 2528-2561 -/
def addVis (op : VisOp) : List (List VisOp) → List (List VisOp)
  | [] => [[op]]
  | [l] => [l ++ [op]]
  | l :: m :: ls => l :: addVis op (m :: ls)

/-- the clauses that a call makes, uvio.c 2303-2332 -/
def visStep (vis : List (List VisOp)) : Call → List (List VisOp)
  | .vis lo hi incl => addVis ⟨!incl, lo, hi⟩ vis
  | .other .clear => []
  | .other .conj => if vis.isEmpty then [] else vis ++ [[]]
  | .other .disj => if vis.isEmpty then [] else vis ++ [[]]
  | .other _ => if vis.isEmpty then [[]] else vis

/-- `uvselect_c`, uvio.c 2259-2526: `maxvis` stays as it is.  `none` is a fatal error. -/
def select (s : Sel) (c : Call) : Option Sel :=
  match c with
  | .vis lo hi incl => if hi < lo ∨ lo < 1 then none else
      (uvselect (Call.vis lo hi incl).sel s.clauses).map fun cl => ⟨cl, visStep s.vis c, s.maxvis, false⟩
  | .other c' => (uvselect c' s.clauses).map fun cl => ⟨cl, visStep s.vis c, s.maxvis, false⟩

def selectAll (s : Sel) (cs : List Call) : Option Sel := cs.foldlM select s

/-- the inner loop of `uvread_maxvis`, uvio.c 3953-3961; `none` is `return(0)` -/
def visTemp : Int → List VisOp → Option Int
  | t, [] => some t
  | t, op :: ops =>
    if op.discard ∧ t = 0 then none
    else if op.discard ∧ op.hi ≥ t then visTemp (min t op.lo) ops
    else if ¬ op.discard then visTemp (max t op.hi) ops
    else visTemp t ops

/-- `uvread_maxvis`, uvio.c 3942-3967 -/
def maxvisOf : Int → List (List VisOp) → Int
  | m, [] => m
  | m, c :: cs =>
    match visTemp 0 c with
    | none => 0
    | some t => if t ≤ 0 then 0 else maxvisOf (max m t) cs

/-- the end of `uvread_init`, uvio.c 3715, 3936-3938, if it is called (2854): without any clause `maxvis` stays as it
is.  (The code does it at the first record scanned, here at the first one with data.) -/
def initSel (s : Sel) : Sel :=
  if s.init then s else { s with init := true, maxvis := if s.clauses = [] then s.maxvis else maxvisOf 0 s.vis }

/-- what the model of the selection does not know: the integer that a `float` is rounded to, and what the other
operations test, from the values of the variables `looks` -/
structure SelEnv where
  val : Nat → Int
  looks : List Name
  attr : (Name → Option (List Byte)) → Nat → Int

def nmPol : Name := ['p', 'o', 'l']

/-- a 32 bit integer -/
def toInt32 (n : Nat) : Int := if n < 2 ^ 31 then n else n - 2 ^ 32

/-- the buffer of a variable -/
def bytesOf (r : Reader) (nm : Name) : Option (List Byte) :=
  (rlocvar r.vars nm).bind fun v => v.buf.map fun b => b.take (v.ty.mem * v.length / v.ty.ext)

/-- the polarisation, uvio.c 3375-3376, 3786-3787: 1 if there is no such variable; `none` is a fatal error.  (The code
looks for the variable only if there ever was a selection by polarisation.) -/
def polOf (r : Reader) : Option Int :=
  match rlocvar r.vars nmPol with
  | none => some 1
  | some v => if v.ty = .int then (bytesOf r nmPol).map fun b => toInt32 ((words b).getD 0 0) else none

/-- what `uvread_select` looks at, uvio.c 3172-3173 and so on -/
def seeRec (S : SelEnv) (r : Reader) : Option Miriad.Rec :=
  match getvr r nmBl .real, polOf r with
  | some b, some p =>
    let ij := Codes.uvbasant (S.val ((words b).getD 0 0))
    some ⟨ij.1.toNat, ij.2.toNat, p, fun n => if n = SEL_VIS then r.callno
      else S.attr (fun nm => if nm ∈ S.looks then bytesOf r nm else none) n⟩
  | _, _ => none

/-- a file that is read with a selection -/
structure SelR where
  v : VisR
  sel : Sel

inductive SRead
  | eof (s : SelR)
  | bad
  | ok (s : SelR) (out : Out)

/-- is the record selected, uvio.c 2869-2872 -/
def chosen (S : SelEnv) (r : Reader) (sel : Sel) : Option Bool :=
  if sel.clauses = [] then some true else (seeRec S r).map fun x => uvreadSelect x sel.clauses

/-- the number of channels of the record, uvio.c 2856 -/
def channels (r : Reader) : Nat :=
  match rlocvar r.vars nmCorr with
  | none => 0
  | some c => c.length / (2 * c.ty.ext)

/-- a record that is returned -/
def take (nsize : Nat) (v : VisR) (sel : Sel) : SRead :=
  match readLine nsize v with
  | .eof v => .eof ⟨v, sel⟩
  | .bad => .bad
  | .ok v out => .ok ⟨v, sel⟩ out

/-- the loop of `uvread_c`, uvio.c 2850-2873 -/
def loop (S : SelEnv) (f : Nat → Byte) (size nsize : Nat) : Nat → SelR → SRead
  | 0, _ => .bad
  | fuel + 1, s =>
    if 0 < s.sel.maxvis ∧ s.sel.maxvis < s.v.r.callno then .eof s
    else
      match findCorr f size (s.v.r.maxOffset - s.v.r.offset + 1) s.v.r with
      | .eof r => .eof { s with v := { s.v with r := r } }
      | .bad => .bad
      | .ok r =>
        match chosen S r (initSel s.sel) with
        | none => .bad
        | some true => take nsize { s.v with r := r } (initSel s.sel)
        | some false => loop S f size nsize fuel ⟨⟨r, s.v.flagOff + channels r, s.v.m⟩, initSel s.sel⟩

/-- `uvread_c`, uvio.c 2830-2885 -/
def uvreadSel (S : SelEnv) (f : Nat → Byte) (size nsize : Nat) (s : SelR) : SRead :=
  loop S f size nsize (s.v.r.maxOffset - s.v.r.offset + 1)
    ⟨{ s.v with r := { s.v.r with mark := s.v.r.callno + 1, copy := false } }, s.sel⟩

/-- `uvrewind_c` -/
def rewindSel (s : SelR) : SelR := ⟨rewindVis s.v, s.sel⟩

/-- `UV.all`, miriad.py 226-232: read until the end of the file, with the state after each record; `none` for an error -/
def readAll (S : SelEnv) (f : Nat → Byte) (size nsize : Nat) : Nat → SelR → Option (List (VisR × Out))
  | 0, _ => none
  | n + 1, s =>
    match uvreadSel S f size nsize s with
    | .eof _ => some []
    | .bad => none
    | .ok s' out => (readAll S f size nsize n s').map fun l => (s'.v, out) :: l

/-- what a program does with a file that is open -/
inductive Op
  | select (c : Call)
  | read
  | rewind

/-- what it gets from reading -/
inductive Res
  | got (v : VisR) (out : Out)
  | eof
  | err

/-- one of these; after an error the model leaves everything as it was -/
def act (S : SelEnv) (f : Nat → Byte) (size nsize : Nat) (s : SelR) : Op → SelR × List Res
  | .select c =>
    match select s.sel c with
    | none => (s, [.err])
    | some sel => (⟨s.v, sel⟩, [])
  | .rewind => (rewindSel s, [])
  | .read =>
    match uvreadSel S f size nsize s with
    | .eof s' => (s', [.eof])
    | .bad => (s, [.err])
    | .ok s' out => (s', [.got s'.v out])

def runOps (S : SelEnv) (f : Nat → Byte) (size nsize : Nat) : SelR → List Op → SelR × List Res
  | s, [] => (s, [])
  | s, o :: os =>
    let r := act S f size nsize s o
    let r' := runOps S f size nsize r.1 os
    (r'.1, r.2 ++ r'.2)

end Verif.Mir.UvSel
