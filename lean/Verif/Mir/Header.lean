import Verif.Mir.Tree
import Verif.Mir.UvVars

/-!
# Header items: the model for properties C53 and C54

`UV._rdhd`, `_wrhd`, `_rdhd_special`, `_wrhd_special` of `/repo/aipy/miriad.py` over `hread_init`, `hwrite_init`,
`hread`, `hwrite` of `/repo/aipy/_miriad/miriad_wrap.cpp`, and `rdhdX_c`, `wrhdX_c` of
`/repo/aipy/_miriad/mir/headio.c`, over the items of a data set (`Verif.Mir.Tree`).

Simplified: text handed to `uv[name] = ` is one string (not a list of strings); the state of an item after an exception
in the middle of an assignment is not modelled; the name is not that of a UV variable (`__getitem__` looks there first).
Floating point numbers are bit patterns, and conversions between `int`, `float` and `double` are functions about which
nothing is assumed.
-/
namespace Verif.Mir.Head

open Verif.Mir.Hio
open Verif.Mir.Uv (FloatOps word be32 be64 ofBe32 signed32)

/-- the conversions, with that of an `int` to `double` -/
structure Conv extends FloatOps where
  ofInt : Int → Nat

/-- types of header items (hio.h 14-21); `int2` is used by no function here -/
inductive Ty
  | char
  | int
  | real
  | dble
  | cplx
  | int8
  deriving DecidableEq

/-- `char_item`, `int_item`, ..., headio.c 46-53 -/
def Ty.tag : Ty → List Byte
  | .char => [0, 0, 0, 1]
  | .int => [0, 0, 0, 2]
  | .real => [0, 0, 0, 4]
  | .dble => [0, 0, 0, 5]
  | .cplx => [0, 0, 0, 7]
  | .int8 => [0, 0, 0, 8]

/-- `H_INT_SIZE`, ..., hio.h 25-32 -/
def Ty.size : Ty → Nat
  | .char => 1
  | .int => 4
  | .real => 4
  | .dble => 8
  | .cplx => 8
  | .int8 => 8

/-- `mroundup(ITEM_HDR_SIZE, size)`, hio.h 46 -/
def Ty.start (ty : Ty) : Nat := ty.size * ((4 + ty.size - 1) / ty.size)

/-- Python numbers -/
inductive Elem
  | int (n : Int)
  | float (bits : Nat)
  | complex (re im : Nat)
  deriving DecidableEq, Repr

/-- Python values; a string is its code points -/
inductive Val
  | str (cs : List Nat)
  | one (e : Elem)
  | many (l : List Elem)
  deriving DecidableEq, Repr

/-- errors: `IOError`, `ValueError`, `KeyError`, a wrong type (`AssertionError` or `RuntimeError`), `UnicodeDecodeError`,
another exception of Python, a fatal MIRIAD error -/
inductive HErr
  | io
  | value
  | key
  | type
  | unicode
  | python
  | fatal
  deriving DecidableEq, Repr

/-- the entries of `itemtable` -/
inductive Kind
  | text
  | num (ty : Ty)
  | special
  deriving DecidableEq

def obstype : Name := [111, 98, 115, 116, 121, 112, 101]
def freqs : Name := [102, 114, 101, 113, 115]
def interval : Name := [105, 110, 116, 101, 114, 118, 97, 108]

/-- `itemtable`, miriad.py 34-55 -/
def itemtable : List (Name × Kind) :=
  [(obstype, .text), (hist, .text), ([118, 97, 114, 116, 97, 98, 108, 101], .text) /- vartable -/,
   ([110, 103, 97, 105, 110, 115], .num .int) /- ngains -/, ([110, 102, 101, 101, 100, 115], .num .int) /- nfeeds -/,
   ([110, 116, 97, 117], .num .int) /- ntau -/, ([110, 115, 111, 108, 115], .num .int) /- nsols -/,
   (interval, .num .dble), ([108, 101, 97, 107, 97, 103, 101], .num .cplx) /- leakage -/,
   ([102, 114, 101, 113, 48], .num .dble) /- freq0 -/, (freqs, .special),
   ([98, 97, 110, 100, 112, 97, 115, 115], .num .cplx) /- bandpass -/,
   ([110, 115, 112, 101, 99, 116, 48], .num .int) /- nspect0 -/,
   ([110, 99, 104, 97, 110, 48], .num .int) /- nchan0 -/, ([115, 116, 111, 112, 116], .num .dble) /- stopt -/,
   ([100, 117, 114, 97, 116, 105, 111, 110], .num .dble) /- duration -/]

def itype (n : Name) : Option Kind := (itemtable.find? (fun p => p.1 = n)).map (·.2)

/-! ## Writing -/

/-- the byte that `hwrite` of one character puts in the file: `PyString_Size` is 1, the bytes are UTF-8
(miriad_wrap.cpp 507-513) -/
def charByte (c : Nat) : Byte :=
  UInt8.ofNat (if c < 0x80 then c else if c < 0x800 then 0xC0 + c / 64 else if c < 0x10000 then 0xE0 + c / 4096
    else 0xF0 + c / 262144)

/-- `hwrite` of a number, miriad_wrap.cpp 514-562; `none` for `ValueError` (or an integer beyond 64 bits) -/
def elemBytes (c : Conv) : Ty → Elem → Option (List Byte)
  | .int, .int n => if -2 ^ 63 ≤ n ∧ n < 2 ^ 63 then some (word n) else none
  | .dble, .float x => some (be64 x)
  | .cplx, .complex re im => some (be32 (c.round re) ++ be32 (c.round im))
  | _, _ => none

/-- successive elements of `s` bytes -/
def writesFrom (g : Nat → Byte) (s : Nat) : Nat → List (List Byte) → List Op
  | _, [] => []
  | o, bs :: rest => .write g s o bs :: writesFrom g s (o + s) rest

/-- `hwrite_init` (miriad_wrap.cpp 424-453) and the elements, miriad.py 142-147 -/
def typed (g : Nat → Byte) (ty : Ty) (bss : List (List Byte)) : List Op :=
  .write g 1 0 ty.tag :: writesFrom g ty.size ty.start bss

/-- one entry of `freqs` every eight bytes, the first of three an integer, miriad.py 175-179 -/
def freqWrites (g : Nat → Byte) (c : Conv) : Nat → List Elem → Option (List Op)
  | _, [] => some []
  | i, e :: rest =>
    match elemBytes c (if i % 3 = 0 then .int else .dble) e with
    | none => none
    | some bs => (freqWrites g c (i + 1) rest).map (.write g (if i % 3 = 0 then 4 else 8) (8 + 8 * i) bs :: ·)

/-- the writes of `_wrhd` and `_wrhd_special`, miriad.py 137-181 -/
def wrhdOps (c : Conv) (g : Nat → Byte) : Kind → Val → Except HErr (List Op)
  | .text, .str cs => .ok (writesFrom g 1 0 (cs.map (fun ch => [charByte ch])))
  | .text, .one _ => .error .value
  | .text, .many [] => .ok []
  | .text, .many (_ :: _) => .error .value
  | .num ty, .str [] => .ok (typed g ty [])
  | .num _, .str (_ :: _) => .error .value
  | .num ty, .one e => match elemBytes c ty e with
    | none => .error .value
    | some bs => .ok (typed g ty [bs])
  | .num ty, .many l => match l.mapM (elemBytes c ty) with
    | none => .error .value
    | some bss => .ok (typed g ty bss)
  | .special, .str [] => .error .python
  | .special, .str (_ :: _) => .error .value
  | .special, .one _ => .error .python
  | .special, .many [] => .error .python
  | .special, .many (e :: rest) =>
    match elemBytes c .int e with
    | none => .error .value
    | some bs => match freqWrites g c 0 rest with
      | none => .error .value
      | some ops => .ok (.write g 4 0 bs :: ops)

/-- an item written from beginning to end -/
def writeItem (t : Tree) (n : Name) (g : Nat → Byte) (ops : List Op) : Except HErr Tree :=
  match session t .write n g ops with
  | .error .tooMany => .error .fatal
  | .error _ => .error .io
  | .ok t' => .ok t'

/-- `_wrhd`, miriad.py 137-151 -/
def wrhd (c : Conv) (t : Tree) (n : Name) (g : Nat → Byte) (v : Val) : Except HErr Tree :=
  match itype n with
  | none => .error .key
  | some k => match wrhdOps c g k v with
    | .error e => .error e
    | .ok ops => writeItem t n g ops

/-! ## Reading -/

/-- `hread` of one element after the other, the `k`-th of `(plan k).1` bytes at offset `(plan k).2`, until it fails
(`IOError`) -/
def readPlan : Nat → Item → (Nat → Byte) → (Nat → Nat × Nat) → Nat → List (List Byte)
  | 0, _, _, _, _ => []
  | fuel + 1, it, g, plan, k =>
    match hread it g (plan k).1 (plan k).2 (plan k).1 with
    | .error _ => []
    | .ok (it1, r) => bytes r :: readPlan fuel it1 g plan (k + 1)

/-- the `double` in these bytes -/
def ofBe64 (bs : List Byte) : Nat := ofBe32 (bs.take 4) * 2 ^ 32 + ofBe32 (bs.drop 4)

/-- `hread` of a number, miriad_wrap.cpp 592-618 -/
def elemOf (c : Conv) : Ty → List Byte → Elem
  | .int, bs => .int (signed32 (ofBe32 bs))
  | .real, bs => .float (c.widen (ofBe32 bs))
  | .dble, bs => .float (ofBe64 bs)
  | .cplx, bs => .complex (c.widen (ofBe32 (bs.take 4))) (c.widen (ofBe32 (bs.drop 4)))
  | .int8, bs => .int (Int.bmod (ofBe64 bs) (2 ^ 64))
  | .char, bs => .int (ofBe64 bs)

/-- the characters of a text: a NUL gives an empty string, a byte that is not ASCII is not valid UTF-8 by itself,
miriad.py 122-125 -/
def text : List (List Byte) → Except HErr (List Nat)
  | [] => .ok []
  | b :: rest =>
    let c := (b.headD 0).toNat
    if c = 0 then text rest
    else if 128 ≤ c then .error .unicode
    else (text rest).map (c :: ·)

/-- miriad.py 134-136: a list of one element is not a list -/
def collapse : List Elem → Val
  | [e] => .one e
  | l => .many l

/-- the rest of `_rdhd` (miriad.py 112-136) and `_rdhd_special` (152-168), the item being open.  (The values are
decoded after the last read instead of one by one.) -/
def readItem (c : Conv) (it : Item) (g : Nat → Byte) : Kind → Except HErr Val
  | .text => (text (readPlan (it.size + 1) it g (fun k => (1, k)) 0)).map .str
  | .num ty =>
    match hread it g 1 0 4 with
    | .error _ => .error .io
    | .ok (it1, r) =>
      if bytes r = ty.tag then
        .ok (collapse ((readPlan (it.size + 1) it1 g (fun k => (ty.size, ty.start + ty.size * k)) 0).map (elemOf c ty)))
      else .error .type
  | .special =>
    match hread it g 4 0 4 with
    | .error _ => .error .io
    | .ok (it1, r) =>
      .ok (.many (.int (signed32 (ofBe32 (bytes r))) ::
        ((readPlan (it.size + 1) it1 g (fun k => (if k % 3 = 0 then 4 else 8, 8 + 8 * k)) 0).zipIdx.map fun p =>
          elemOf c (if p.2 % 3 = 0 then .int else .dble) p.1)))

/-- `haccess_c(.., "read")` -/
def openItem (t : Tree) (n : Name) (g : Nat → Byte) : Except HErr Item :=
  match openRead t n g with
  | .error .tooMany => .error .fatal
  | .error _ => .error .io
  | .ok it => .ok it

/-- `_rdhd`, miriad.py 108-136 -/
def rdhd (c : Conv) (t : Tree) (n : Name) (g : Nat → Byte) : Except HErr Val :=
  match itype n with
  | none => .error .key
  | some k => match openItem t n g with
    | .error e => .error e
    | .ok it => readItem c it g k

/-! ## headio.c -/

/-- the values of `wrhdi_c`, `wrhdl_c`, `wrhdr_c`, `wrhdd_c`, `wrhdc_c` (for `wrhdr_c` and `wrhdc_c` already `float`) -/
inductive Num
  | int (n : Int)
  | int8 (n : Int)
  | real (x : Nat)
  | dble (x : Nat)
  | cplx (re im : Nat)
  deriving DecidableEq, Repr

def Num.ty : Num → Ty
  | .int _ => .int
  | .int8 _ => .int8
  | .real _ => .real
  | .dble _ => .dble
  | .cplx _ _ => .cplx

def Num.bytes : Num → List Byte
  | .int n => word n
  | .int8 n => be64 (n % 2 ^ 64).toNat
  | .real x => be32 x
  | .dble x => be64 x
  | .cplx re im => be32 re ++ be32 im

/-- `wrhdr_c`, `wrhdd_c`, `wrhdi_c`, `wrhdl_c`, `wrhdc_c`, headio.c 157-310 -/
def putNum (t : Tree) (n : Name) (g : Nat → Byte) (x : Num) : Except HErr Tree :=
  writeItem t n g (typed g x.ty [x.bytes])

/-- `wrhda_c`, headio.c 312-340 -/
def putText (t : Tree) (n : Name) (g : Nat → Byte) (s : List Byte) : Except HErr Tree :=
  writeItem t n g [.write g 1 0 Ty.char.tag, .write g 1 4 s]

/-- one element behind the tag, if the item holds exactly one; otherwise the default stays -/
def single {α : Type} (it : Item) (g : Nat → Byte) (ty : Ty) (dflt : α) (f : List Byte → α) : Except HErr α :=
  if ty.start + ty.size = it.size then
    match hread it g ty.size ty.start ty.size with
    | .error _ => .error .fatal
    | .ok (_, r) => .ok (f (bytes r))
  else .ok dflt

/-- `rdhdl_c`, headio.c 405-464 -/
def rdhdl (t : Tree) (n : Name) (g : Nat → Byte) (dflt : Int) : Except HErr Int :=
  match openItem t n g with
  | .error .io => .ok dflt
  | .error e => .error e
  | .ok it =>
    match hread it g 1 0 4 with
    | .error _ => .error .fatal
    | .ok (it1, r) =>
      if bytes r = Ty.int8.tag then single it1 g .int8 dflt (fun bs => Int.bmod (ofBe64 bs) (2 ^ 64))
      else if bytes r = Ty.int.tag then single it1 g .int dflt (fun bs => signed32 (ofBe32 bs))
      else .error .fatal

/-- `rdhdi_c`, headio.c 372-403 -/
def rdhdi (t : Tree) (n : Name) (g : Nat → Byte) (dflt : Int) : Except HErr Int :=
  match rdhdl t n g dflt with
  | .error e => .error e
  | .ok l => if 0x7FFFFFFF < l then .error .fatal else .ok (Int.bmod l (2 ^ 32))

/-- `rdhdd_c`, headio.c 466-536 -/
def rdhdd (c : Conv) (t : Tree) (n : Name) (g : Nat → Byte) (dflt : Nat) : Except HErr Nat :=
  match openItem t n g with
  | .error .io => .ok dflt
  | .error e => .error e
  | .ok it =>
    match hread it g 1 0 4 with
    | .error _ => .error .fatal
    | .ok (it1, r) =>
      if bytes r = Ty.int.tag then single it1 g .int dflt (fun bs => c.ofInt (signed32 (ofBe32 bs)))
      else if bytes r = Ty.real.tag then single it1 g .real dflt (fun bs => c.widen (ofBe32 bs))
      else if bytes r = Ty.dble.tag then single it1 g .dble dflt ofBe64
      else .ok dflt

/-- `rdhdr_c`, headio.c 342-370; the default is a `double` -/
def rdhdr (c : Conv) (t : Tree) (n : Name) (g : Nat → Byte) (dflt : Nat) : Except HErr Nat :=
  (rdhdd c t n g dflt).map c.round

/-- `rdhdc_c`, headio.c 538-583 -/
def rdhdc (t : Tree) (n : Name) (g : Nat → Byte) (dflt : Nat × Nat) : Except HErr (Nat × Nat) :=
  match openItem t n g with
  | .error .io => .ok dflt
  | .error e => .error e
  | .ok it =>
    if it.size = 16 then
      match hread it g 1 0 4 with
      | .error _ => .error .fatal
      | .ok (it1, r) =>
        if bytes r = Ty.cplx.tag then
          single it1 g .cplx dflt (fun bs => (ofBe32 (bs.take 4), ofBe32 (bs.drop 4)))
        else .ok dflt
    else .ok dflt

/-- `rdhda_c`, headio.c 585-634; `len` is the size of the buffer.  (The bytes up to the terminating NUL.) -/
def rdhda (t : Tree) (n : Name) (g : Nat → Byte) (dflt : List Byte) (len : Nat) : Except HErr (List Byte) :=
  match openItem t n g with
  | .error .io => .ok (dflt.take (len - 1))
  | .error e => .error e
  | .ok it =>
    if 0 < min (it.size - 4) (len - 1) then
      match hread it g 1 0 4 with
      | .error _ => .error .fatal
      | .ok (it1, r) =>
        if bytes r = Ty.char.tag then
          match hread it1 g 1 4 (min (it.size - 4) (len - 1)) with
          | .error _ => .error .fatal
          | .ok (_, r2) => .ok (bytes r2)
        else .ok (dflt.take (len - 1))
    else .ok (dflt.take (len - 1))

/-! ## Histories -/

/-- what is done with the header items of a data set -/
inductive HOp
  | set (n : Name) (g : Nat → Byte) (v : Val)
  | put (n : Name) (g : Nat → Byte) (x : Num)
  | puta (n : Name) (g : Nat → Byte) (s : List Byte)
  | flush (g : Nat → Byte)
  | reopen (g : Nat → Byte)

def ofT : Except TErr Tree → Except HErr Tree
  | .ok t => .ok t
  | .error .tooMany => .error .fatal
  | .error _ => .error .io

def hstep (c : Conv) (t : Tree) : HOp → Except HErr Tree
  | .set n g v => wrhd c t n g v
  | .put n g x => putNum t n g x
  | .puta n g s => putText t n g s
  | .flush g => ofT (hflush t g)
  | .reopen g => ofT (reopenTree t g)

def hrun (c : Conv) : Tree → List HOp → Except HErr Tree
  | t, [] => .ok t
  | t, o :: os => match hstep c t o with
    | .error e => .error e
    | .ok t' => hrun c t' os

end Verif.Mir.Head
