import Verif.Mir.Hio
import Verif.Mir.HioProps

/-!
# A data set and its header file: the model for property C46

`/repo/aipy/_miriad/mir/hio.c`: `hopen_c`, `haccess_c`, `hdaccess_c`, `hflush_c`, `hclose_c`, `hdelete_c`,
`hcache_read_c`, `hname_check`.  An item is opened, read and written with the functions of `Verif.Mir.Hio`, and closed:
one such session is one step.  Not modelled: the items `.` and `header` opened by the user, the permissions
(`hmode_c`; the data set is writable), two items open at the same time, `TREE_NEW` and `habort_c`.  The limit on the
number of items (`MAXITEM`) holds for all open data sets together; here it is that of the only one open.
-/
namespace Verif.Mir.Hio

abbrev Name := List Byte

/-- an `ITEM` of the list that is not open: its name, its buffer, and the flag `ITEM_CACHE` -/
structure Entry where
  name : Name
  item : Item
  cache : Bool

/-- a `TREE` (hio.c 93-97) with the directory behind it: the items in memory, the flag `TREE_CACHEMOD`, the header file
and the other files -/
structure Tree where
  items : List Entry
  mod : Bool
  hfile : Nat → Byte
  hsize : Nat
  files : Name → Option ((Nat → Byte) × Nat)

/-- errors of these functions: those of the item, or a fatal end: too many items, a header file that makes no sense -/
inductive TErr
  | item (e : Err)
  | tooMany
  | badHeader
  deriving DecidableEq

/-- lift an error -/
def lift {α : Type} : Except Err α → Except TErr α
  | .ok a => .ok a
  | .error e => .error (.item e)

/-- `hname_check`, hio.c 1316-1338, with `header_ok` unset; `.` is not modelled.  The name `history` is treated
differently by `haccess_c` and excluded here. -/
def nameOk (n : Name) : Bool :=
  decide (0 < n.length ∧ n.length < 9) &&
  (match n with
   | [] => false
   | c :: _ => decide (97 ≤ c.toNat ∧ c.toNat ≤ 122)) &&
  n.all (fun c => decide ((97 ≤ c.toNat ∧ c.toNat ≤ 122) ∨ (48 ≤ c.toNat ∧ c.toNat ≤ 57) ∨ c.toNat = 45 ∨ c.toNat = 95)) &&
  decide (n ≠ [104, 101, 97, 100, 101, 114]) && decide (n ≠ [104, 105, 115, 116, 111, 114, 121])

/-- the item that always has a file of its own (`ITEM_NOCACHE`, hio.c 584-586) -/
def hist : Name := [104, 105, 115, 116, 111, 114, 121]

/-- look an item up by name, hio.c 599-602 -/
def find (l : List Entry) (n : Name) : Option Entry := l.find? (fun e => e.name = n)

/-- `hrelease_item_c` of the item of this name, hio.c 1406-1437 (names are unique) -/
def remove (l : List Entry) (n : Name) : List Entry := l.filter (fun e => e.name ≠ n)

/-- the item of this name after a session -/
def replace (l : List Entry) (n : Name) (it : Item) : List Entry :=
  l.map (fun e => if e.name = n then { e with item := it } else e)

/-- the item of the directory listing -/
def setFile (f : Name → Option ((Nat → Byte) × Nat)) (n : Name) (v : Option ((Nat → Byte) × Nat)) :
    Name → Option ((Nat → Byte) × Nat) := fun m => if m = n then v else f m

/-- `"write"` or `"append"` -/
inductive Mode
  | write
  | append
  deriving DecidableEq

/-- the rest of a session: the operations and `hdaccess_c`, hio.c 770-821.  An item with a file is released; one
without stays, and `TREE_CACHEMOD` is set if it was modified.  If an item of the header file was moved to a file,
`hcheckbuf_c` has set `TREE_CACHEMOD` (hio.c 1163-1164). -/
def finish (t : Tree) (n : Name) (it : Item) (cache : Bool) (ops : List Op) : Except TErr Tree :=
  match lift (run it ops) with
  | .error e => .error e
  | .ok it1 =>
    match lift (hdaccess it1) with
    | .error e => .error e
    | .ok it2 =>
      if it2.fd then
        .ok { t with items := remove t.items n, files := setFile t.files n (some (it2.file, it2.fsize)),
                     mod := t.mod || cache }
      else .ok { t with items := replace t.items n it2, mod := t.mod || it1.modified }

/-- the file behind an item: what `dopen_c(.., "append")` finds -/
def fileOf (t : Tree) (n : Name) : (Nat → Byte) × Nat := (t.files n).getD (fun _ => 0, 0)

/-- the item that `haccess_c` makes for writing: nothing yet, or the file `history`, which `dopen_c` creates or empties
(hio.c 584-586, 624-634) -/
def fresh (t : Tree) (n : Name) (g : Nat → Byte) : Item :=
  if n = hist then openFile true (fun _ => 0) g 0 else newItem (fileOf t n).1

/-- `haccess_c` (hio.c 544-646), reads and writes, `hdaccess_c` -/
def session (t : Tree) (mode : Mode) (n : Name) (g : Nat → Byte) (ops : List Op) : Except TErr Tree :=
  match find t.items n with
  | none =>
    if 1024 ≤ t.items.length then .error .tooMany
    else
      match mode with
      | .write =>
        finish { t with items := ⟨n, newItem (fileOf t n).1, false⟩ :: t.items } n (fresh t n g) false ops
      | .append =>
        finish { t with items := ⟨n, newItem (fileOf t n).1, false⟩ :: t.items } n
          (openFile (decide (n = hist)) (fileOf t n).1 g (fileOf t n).2) false ops
  | some e =>
    match mode with
    | .write =>
      if e.item.size ≠ 0 then
        finish { t with mod := t.mod || e.cache } n { e.item with size := 0, len := 0 } e.cache ops
      else finish t n e.item e.cache ops
    | .append =>
      if e.item.size = 0 ∧ e.cache = false then
        finish t n (openFile (decide (n = hist)) (fileOf t n).1 g (fileOf t n).2) e.cache ops
      else finish t n e.item e.cache ops

/-- `dopen_c(.., "read")`: there is no item without a file -/
def openOld (t : Tree) (n : Name) (g : Nat → Byte) : Except TErr Item :=
  match t.files n with
  | none => .error (.item .io)
  | some f => .ok (openFile (decide (n = hist)) f.1 g f.2)

/-- `haccess_c(.., "read")`, hio.c 544-646 -/
def openRead (t : Tree) (n : Name) (g : Nat → Byte) : Except TErr Item :=
  match find t.items n with
  | none => if 1024 ≤ t.items.length then .error .tooMany else openOld t n g
  | some e => if e.item.size = 0 ∧ e.cache = false then openOld t n g else .ok e.item

/-- `haccess_c(.., "read")`, one read of bytes or larger elements, `hdaccess_c`.  (Nothing is modified, so that
`hdaccess_c` has nothing to write.) -/
def get (t : Tree) (n : Name) (g : Nat → Byte) (s o len : Nat) : Except TErr (List (Option Byte)) :=
  match openRead t n g with
  | .error e => .error e
  | .ok it => (lift (hread it g s o len)).map (·.2)

/-- `hdelete_c`, hio.c 484-539: the item and the file go; without both it is an error -/
def delete (t : Tree) (n : Name) : Except TErr Tree :=
  match find t.items n with
  | some e =>
    .ok { t with items := remove t.items n, mod := t.mod || e.cache, files := setFile t.files n none }
  | none =>
    match t.files n with
    | none => .error (.item .io)
    | some _ => .ok { t with files := setFile t.files n none }

/-- the record that `strcpy` and the size make of the previous one, hio.c 299-300 -/
def record (s : List Byte) (n : Name) (size : Nat) : List Byte :=
  ((n ++ [0] ++ s.drop (n.length + 1)).take 15) ++ [UInt8.ofNat size]

/-- `mroundup(size, CACHE_ENT)` -/
def roundup (n : Nat) : Nat := (n + 15) / 16 * 16

/-- the `hwriteb_c` calls of `hflush_c`, hio.c 294-312 -/
def flushOps : List Byte → Nat → List Entry → List Op
  | _, _, [] => []
  | s, o, e :: es =>
    let r := record s e.name e.item.size
    .write (fun _ => 0) 1 o r ::
      (if 0 < e.item.size then
        .write (fun _ => 0) 1 (o + 16) ((List.range e.item.size).map e.item.buf) ::
          flushOps r (o + 16 + roundup e.item.size) es
       else flushOps r (o + 16 + roundup e.item.size) es)

/-- `hflush_c`, hio.c 248-318; no item is open -/
def hflush (t : Tree) (g : Nat → Byte) : Except TErr Tree :=
  if t.mod then
    if 1024 ≤ t.items.length then .error .tooMany
    else
      match lift (run (openFile true (fun _ => 0) g 0) (flushOps (List.replicate 16 0) 0 t.items)) with
      | .error e => .error e
      | .ok h =>
        match lift (hdaccess h) with
        | .error e => .error e
        | .ok h1 =>
          .ok { t with items := t.items.map (fun e => { e with cache := true }), mod := false,
                       hfile := h1.file, hsize := h1.fsize }
  else .ok t

/-- the bytes of a read into memory -/
def bytes (r : List (Option Byte)) : List Byte := r.map (·.getD 0)

/-- `hcache_read_c`, hio.c 1272-1314; the items found, the last one first -/
def readCache : Nat → Item → (Nat → Byte) → Nat → List Entry → Except TErr (List Entry)
  | 0, _, _, _, acc => .ok acc
  | fuel + 1, h, g, o, acc =>
    match hread h g 1 o 16 with
    | .error .eof => .ok acc
    | .error _ => .error .badHeader
    | .ok (h1, r) =>
      if 1023 ≤ acc.length then .error .tooMany
      else
        let s := bytes r
        let size := (s.getD 15 0).toNat
        if 128 ≤ size then .error .badHeader
        else
          match hread h1 g 1 (o + 16) size with
          | .error _ => .error .badHeader
          | .ok (h2, d) =>
            readCache fuel h2 g (o + 16 + roundup size)
              (⟨s.takeWhile (· ≠ 0), cached (bytes d), true⟩ :: acc)

/-- `hclose_c` and `hopen_c(.., "old")` -/
def reopenTree (t : Tree) (g : Nat → Byte) : Except TErr Tree :=
  match hflush t g with
  | .error e => .error e
  | .ok t1 =>
    match readCache (t1.hsize + 1) (openFile true t1.hfile g t1.hsize) g 0 [] with
    | .error e => .error e
    | .ok l => .ok { t1 with items := l, mod := false }

/-- `hopen_c(.., "new")` -/
def newTree : Tree := ⟨[], false, fun _ => 0, 0, fun _ => none⟩

/-- what can be done with a data set; `S` is the alignment of the accesses of a session -/
inductive TOp
  | session (S : Nat) (mode : Mode) (n : Name) (g : Nat → Byte) (ops : List Op)
  | delete (n : Name)
  | flush (g : Nat → Byte)
  | reopen (g : Nat → Byte)

def tstep (t : Tree) : TOp → Except TErr Tree
  | .session _ mode n g ops => session t mode n g ops
  | .delete n => delete t n
  | .flush g => hflush t g
  | .reopen g => reopenTree t g

def trun : Tree → List TOp → Except TErr Tree
  | t, [] => .ok t
  | t, o :: os => match tstep t o with
    | .error e => .error e
    | .ok t' => trun t' os

end Verif.Mir.Hio
