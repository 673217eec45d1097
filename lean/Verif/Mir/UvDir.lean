import Verif.Mir.UvDiskVis
import Verif.Mir.HioText
import Verif.Mir.HeaderC53

/-!
# A data set as a directory (C82)

`uvopen_c`, `uvclose_c` and `uvflush_c` of mir/uvio.c on the items of a data set: the stream `visdata`, the names and types
of the variables in `vartable`, the end of the stream in `vislen`, and the number of flags in `ncorr` and `nwcorr`.  A
program that opens a data set knows only what is in these items.

The items are those of `Verif.Mir.Tree`, where one item is open at a time: here the writes to `visdata` of a session are
made when it is closed, before the other items are written.  (In the code they are made at once, and `visdata` is closed
after the others, uvio.c 857-873; no function writes two items.)  Not modelled: the flag files, the item `obstype` (see
`Verif.Mir.UvObstype`), and `uvflush_c` other than from `uvclose_c`.
-/

namespace Verif.Mir.Uv

open Verif.Mir.Hio (Byte Item Flat Op Tree session reopenTree openRead newTree find)
open Verif.Mir.Head (NL hreada hwriteaOps rdhdl putNum HOp hstep Conv)

/-- the names of the items -/
def itVisdata : Hio.Name := [118, 105, 115, 100, 97, 116, 97]
def itVartable : Hio.Name := [118, 97, 114, 116, 97, 98, 108, 101]
def itVislen : Hio.Name := [118, 105, 115, 108, 101, 110]
def itNcorr : Hio.Name := [110, 99, 111, 114, 114]
def itNwcorr : Hio.Name := [110, 119, 99, 111, 114, 114]

/-- `type_flag`, uvio.c 946-962 -/
def Ty.letter : Ty → Byte
  | .byte => 97
  | .int => 105
  | .int2 => 106
  | .real => 114
  | .dble => 100
  | .cmplx => 99

/-- a C string of ASCII characters -/
def nameBytes (n : Name) : List Byte := n.map fun c => UInt8.ofNat c.toNat

def nameChars (l : List Byte) : Name := l.map fun b => Char.ofNat b.toNat

/-- `Sprintf(line, "%c %s", ..)`, uvio.c 1128 -/
def tableLine (p : Name × Ty) : List Byte := [p.2.letter, 32] ++ nameBytes p.1

/-- `uv_vartable_out`, uvio.c 1115-1135 -/
def tableOut (t : Tree) (g : Nat → Byte) (tbl : List (Name × Ty)) : Option Tree :=
  (session t .write itVartable g (hwriteaOps g 0 (tbl.map tableLine))).toOption

/-- `isspace` -/
def isSpace (b : Byte) : Bool := b = 32 || (9 ≤ b && b ≤ 13)

/-- `Sscanf(line, "%c %s", &ctype, name)`, uvio.c 1206: what is not there stays as it was -/
def scanLine (prev : Byte × List Byte) : List Byte → Byte × List Byte
  | [] => prev
  | c :: rest =>
    let nm := (rest.dropWhile isSpace).takeWhile (fun b => !isSpace b)
    (c, if nm = [] then prev.2 else nm)

/-- the types of `uv_vartable_in`, uvio.c 1209-1217; `none` is a fatal error -/
def letterTy (b : Byte) : Option Ty :=
  if b = 97 then some .byte
  else if b = 106 then some .int2
  else if b = 105 then some .int
  else if b = 114 then some .real
  else if b = 100 then some .dble
  else if b = 99 then some .cmplx
  else none

/-- `uv_mkvar`, uvio.c 1222-1257, of a data set that is opened; see `mkvar` -/
def addVar (tbl : List (Name × Ty)) (name : Name) (ty : Ty) : Option (List (Name × Ty)) :=
  if tbl.any (fun p => p.1 = name) then some tbl
  else if MAXNAM < name.length then none
  else if MAXVAR ≤ tbl.length then none
  else some (tbl ++ [(name, ty)])

/-- `MAXLINE`, uvio.c 302 -/
abbrev MAXLINE : Nat := 128

/-- the loop of `uv_vartable_in`, uvio.c 1207-1219.  `ctype` and `name` are not initialised in the code; here they are
zero and empty. -/
def tableLoop (g : Nat → Byte) : Nat → Item → Nat → Byte × List Byte → List (Name × Ty) → Option (List (Name × Ty))
  | 0, _, _, _, _ => none
  | fuel + 1, it, o, prev, tbl =>
    match hreada it g o MAXLINE with
    | .error _ => some tbl
    | .ok (it', line, o') =>
      match letterTy (scanLine prev line).1 with
      | none => none
      | some ty =>
        match addVar tbl (nameChars (scanLine prev line).2) ty with
        | none => none
        | some tbl' => tableLoop g fuel it' o' (scanLine prev line) tbl'

/-- `uv_vartable_in`, uvio.c 1192-1221 -/
def tableIn (t : Tree) (g : Nat → Byte) : Option (List (Name × Ty)) :=
  match openRead t itVartable g with
  | .error _ => none
  | .ok it => tableLoop g (it.size + 1) it 0 (0, []) []

/-- there is an item of this name -/
def hasItem (t : Tree) (n : Hio.Name) : Bool := (find t.items n).isSome || (t.files n).isSome

/-- files of a data set that are not items of `Tree` here: `header`, `flags`, `wflags` -/
def otherFiles : List Hio.Name :=
  [[104, 101, 97, 100, 101, 114], [102, 108, 97, 103, 115], [119, 102, 108, 97, 103, 115]]

/-- a data set that is written: the items, whether it is an old one, the stream, `saved_nvar`, and the numbers of flags -/
structure Dir where
  t : Tree
  old : Bool
  w : Writer
  saved : Nat
  ncorr : Nat
  nwcorr : Nat

/-- `uvopen_c(.., "new")`, uvio.c 770-776 -/
def newDir : Dir := ⟨newTree, false, newWriter, 0, 0, 0⟩

/-- the size of an item opened to append; it is created if it does not exist -/
def appendSize (t : Tree) (n : Hio.Name) (g : Nat → Byte) : Nat :=
  match openRead t n g with
  | .error _ => 0
  | .ok it => it.size

/-- `uvopen_c(.., "append")`, uvio.c 784-827, the directory being open.  (`vislen` is not negative.) -/
def openAppend (t : Tree) (g : Nat → Byte) : Option Dir :=
  match rdhdl t itVislen g (appendSize t itVisdata g), tableIn t g, rdhdl t itNcorr g (-1), rdhdl t itNwcorr g (-1) with
  | .ok v, some tbl, .ok nc, .ok nw =>
    if nc < 0 ∨ nw < 0 then none
    else some ⟨t, true, ⟨tbl.map fun p => ⟨p.1, p.2, 0, [], 0, false⟩, roundup v.toNat ALIGN, []⟩, tbl.length, nc.toNat,
      nw.toNat⟩
  | _, _, _, _ => none

/-- `uvopen_c(.., "old")`, uvio.c 737-768, the directory being open.  Where there is an item with the name of a variable
`uv_override` (1136-1186) would do something: not modelled, `none`. -/
def openOld (t : Tree) (g : Nat → Byte) : Option (Item × Reader) :=
  match openRead t itVisdata g with
  | .error _ => none
  | .ok it =>
    match rdhdl t itVislen g it.size, tableIn t g with
    | .ok v, some tbl =>
      if tbl.any (fun p => hasItem t (nameBytes p.1) || otherFiles.contains (nameBytes p.1)) then none
      else some (it, openReader tbl v.toNat)
    | _, _ => none

/-- `wrhdl_c`, or give up -/
def putLong (t : Tree) (n : Hio.Name) (g : Nat → Byte) (x : Nat) : Option Tree := (putNum t n g (.int8 x)).toOption

/-- the stream: the writes of this session -/
def putStream (d : Dir) (g : Nat → Byte) : Option Tree :=
  (session d.t (if d.old then .append else .write) itVisdata g (toOps g d.w.out)).toOption

/-- `vartable` is rewritten if there are new variables, uvio.c 908-909 -/
def putTable (d : Dir) (g : Nat → Byte) (t : Tree) : Option Tree :=
  if d.saved < d.w.vars.length ∨ (d.w.vars.length = 0 ∧ d.old = false) then tableOut t g (table d.w) else some t

/-- `uvclose_c`, uvio.c 838-875, with `uvflush_c`, 876-945, and `hopen_c` of the next program -/
def closeDir (d : Dir) (g : Nat → Byte) : Option Tree :=
  (putStream d g).bind fun t => (putTable d g t).bind fun t => (putLong t itNwcorr g d.nwcorr).bind fun t =>
    (putLong t itNcorr g d.ncorr).bind fun t => (putLong t itVislen g d.w.offset).bind fun t => (reopenTree t g).toOption

/-- what a program does with a data set it writes: variables and records, flags (uvio.c 2073-2076), a header item -/
inductive DEv
  | ev (e : Ev)
  | flags (n : Nat)
  | item (op : HOp)

def dirStep (c : Conv) (g : Nat → Byte) (d : Dir) : DEv → Option Dir
  | .ev .reopen => (closeDir d g).bind fun t => openAppend t g
  | .ev e => (wstep d.w e).map fun w => { d with w := w }
  | .flags n => some { d with ncorr := d.ncorr + n }
  | .item op => ((hstep c d.t op).toOption).map fun t => { d with t := t }

def dirRun (c : Conv) (g : Nat → Byte) : Dir → List DEv → Option Dir
  | d, [] => some d
  | d, e :: es => (dirStep c g d e).bind fun d' => dirRun c g d' es

/-- all of it: a program (or several) writes a data set, another opens it to read -/
def directory (c : Conv) (g : Nat → Byte) (h : List DEv) : Option Tree :=
  (dirRun c g newDir h).bind fun d => closeDir d g

end Verif.Mir.Uv
