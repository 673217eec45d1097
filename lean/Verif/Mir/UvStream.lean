import Verif.Mir.Hio

/-!
# UV variables: the model for property C47

`/repo/aipy/_miriad/mir/uvio.c`: `uvputvr_c`, `uvnext_c` for writing, `uv_scan`, `uvnext_c`, `uvgetvr_c`, `uvprobvr_c`,
`uvrewind_c` for reading.  The writer is a list of the calls of `hwrite_c` it makes on the item `visdata`; the reader gets
that item as the bytes `f` of a file of `size` bytes (`Verif.Mir.Hio` models what lies between the two).

Data in memory are bytes.  As in `Verif.Mir.Hio` every number is kept in file order (most significant byte first), so
that packing is the identity except for the type `H_INT2`, which has four bytes in memory and two in the file.

Not modelled: the hash table of names (`uv_locvar` finds the variable with the given name), variables overridden by
header items (`UVF_OVERRIDE`), the text of `vartable` (the reader starts with the names and types the writer has at the
end), planet and selection flags, wrap-around of `callno`.
-/
namespace Verif.Mir.Uv

open Verif.Mir.Hio (Byte)

/-- the name of a variable, a C string of ASCII characters -/
abbrev Name := List Char

/-- `H_BYTE`, `H_INT2`, `H_INT`, `H_REAL`, `H_DBLE`, `H_CMPLX`, hio.h 14-32 -/
inductive Ty
  | byte
  | int2
  | int
  | real
  | dble
  | cmplx
  deriving DecidableEq, Repr

/-- `external_size`, uvio.c 946-957 -/
def Ty.ext : Ty → Nat
  | .byte => 1
  | .int2 => 2
  | .int => 4
  | .real => 4
  | .dble => 8
  | .cmplx => 8

/-- `internal_size`, uvio.c 946-957 -/
def Ty.mem : Ty → Nat
  | .byte => 1
  | .int2 => 4
  | .int => 4
  | .real => 4
  | .dble => 8
  | .cmplx => 8

/-- `pack16_c`: the low half of every `int` -/
def low16 : List Byte → List Byte
  | _ :: _ :: c :: d :: rest => c :: d :: low16 rest
  | _ => []

/-- `unpack16_c`: sign extension -/
def sign16 : List Byte → List Byte
  | c :: d :: rest =>
    (if 128 ≤ c.toNat then 0xFF else 0) :: (if 128 ≤ c.toNat then 0xFF else 0) :: c :: d :: sign16 rest
  | _ => []

/-- the packing of `hio_c`, hio.c 1056-1100 -/
def toFile (ty : Ty) (data : List Byte) : List Byte := if ty = .int2 then low16 data else data

/-- the unpacking of `hio_c` -/
def fromFile (ty : Ty) (bytes : List Byte) : List Byte := if ty = .int2 then sign16 bytes else bytes

/-- `mroundup(a,b)`, hio.h 46 -/
def roundup (a b : Nat) : Nat := b * ((a + (b - 1)) / b)

/-- `UV_ALIGN`, `UV_HDR_SIZE`, `CHECK_THRESH`, `MAXVAR`, `MAXNAM`, uvio.c 294-300 -/
abbrev ALIGN : Nat := 8
abbrev HDR : Nat := 4
abbrev THRESH : Nat := 6
abbrev MAXVAR : Nat := 256
abbrev MAXNAM : Nat := 8

/-- an `int` in the file (`pack32_c`) -/
def be32 (n : Nat) : List Byte :=
  [UInt8.ofNat (n / 2 ^ 24), UInt8.ofNat (n / 2 ^ 16), UInt8.ofNat (n / 2 ^ 8), UInt8.ofNat n]

/-- and back (`unpack32_c`), without the sign -/
def ofBe32 : List Byte → Nat
  | [a, b, c, d] => ((a.toNat * 256 + b.toNat) * 256 + c.toNat) * 256 + d.toNat
  | _ => 0

/-- `var_size_hdr`, `var_data_hdr`, `var_eor_hdr`, uvio.c 367-369; the index is cut to a `char`.  (The index stored in
`var_eor_hdr[0]` is 0: nothing assigns it.) -/
def header (index code : Nat) : List Byte := [UInt8.ofNat index, 0, UInt8.ofNat code, 0]

/-! ## Writing -/

/-- `VARIABLE` of a file that is written, uvio.c 372-381 -/
structure WVar where
  name : Name
  ty : Ty
  length : Nat
  buf : List Byte
  callno : Nat
  nocheck : Bool
  deriving DecidableEq, Repr

/-- one call of `hwrite_c`: size of an element, offset and the bytes -/
structure Write where
  size : Nat
  offset : Nat
  bytes : List Byte
  deriving DecidableEq, Repr

/-- the `UV` structure of a file that is written -/
structure Writer where
  vars : List WVar
  offset : Nat
  out : List Write
  deriving DecidableEq, Repr

/-- `uvopen_c(.., "new")` -/
def newWriter : Writer := ⟨[], 0, []⟩

/-- `uv_locvar`, uvio.c 1259-1274 -/
def locvar (vars : List WVar) (name : Name) : Option Nat := vars.findIdx? (fun v => v.name = name)

/-- `uv_mkvar`, uvio.c 1222-1257; `none` is the fatal error for a long name, or the `MAXVAR + 1`-st variable, for which
there is no room (the code does not check) -/
def mkvar (w : Writer) (name : Name) (ty : Ty) : Option (Writer × Nat) :=
  match locvar w.vars name with
  | some i => some (w, i)
  | none =>
    if MAXNAM < name.length then none
    else if MAXVAR ≤ w.vars.length then none
    else some ({ w with vars := w.vars ++ [⟨name, ty, 0, [], 0, false⟩] }, w.vars.length)

/-- `Realloc`: what was there stays; new memory is zero (the code never looks at it) -/
def resize (n : Nat) (buf : List Byte) : List Byte := (buf ++ List.replicate n 0).take n

/-- the change of size, uvio.c 1727-1738 -/
def putSize (w : Writer) (i : Nat) (v : WVar) (n : Nat) : Writer × WVar :=
  ({ w with
      out := w.out ++ [⟨1, w.offset, header i 0⟩, ⟨4, w.offset + HDR, be32 (v.ty.ext * n)⟩],
      offset := w.offset + ALIGN },
   { v with
      length := v.ty.ext * n,
      buf := if v.nocheck then v.buf else resize (n * v.ty.mem) v.buf })

/-- the data, uvio.c 1756-1769 -/
def putData (w : Writer) (i : Nat) (v : WVar) (data : List Byte) : Writer × WVar :=
  let o := w.offset + roundup HDR v.ty.ext
  ({ w with
      out := w.out ++ [⟨1, w.offset, header i 1⟩, ⟨v.ty.ext, o, toFile v.ty data⟩],
      offset := roundup (o + v.length) ALIGN },
   { v with
      callno := v.callno + 1,
      nocheck := if THRESH < v.callno then true else v.nocheck,
      buf := if THRESH < v.callno then v.buf else if v.nocheck then v.buf else data })

/-- `uvputvr_c` once the variable is found, uvio.c 1722-1772; `n` elements -/
def putVar (w : Writer) (i : Nat) (v : WVar) (data : List Byte) (n : Nat) : Writer × WVar :=
  let resized := v.length ≠ v.ty.ext * n
  let wv := if resized then putSize w i v n else (w, v)
  if resized ∨ v.nocheck ∨ wv.2.buf ≠ data then putData wv.1 i wv.2 data
  else (wv.1, { wv.2 with callno := 0 })

/-- `uvputvr_c`, uvio.c 1679-1773.  `data` has `n * internal_size` bytes; `n = 0` only gives a warning.  `none`: fatal. -/
def put (w : Writer) (name : Name) (ty : Ty) (data : List Byte) : Option Writer :=
  let n := data.length / ty.mem
  if n = 0 then some w
  else
    match mkvar w name ty with
    | none => none
    | some (w1, i) =>
      match w1.vars[i]? with
      | none => none
      | some v =>
        if v.ty ≠ ty then none
        else
          let (w2, v2) := putVar w1 i v data n
          some { w2 with vars := w2.vars.set i v2 }

/-- `uvnext_c` of a file that is written, uvio.c 1296-1300 -/
def next (w : Writer) : Writer :=
  { w with out := w.out ++ [⟨1, w.offset, header 0 2⟩], offset := w.offset + ALIGN }

/-- `uv_mkvar` with `UVF_NOCHECK`, as `uvwrite_c` does with the variables it looks after itself -/
def noCheck (w : Writer) (name : Name) (ty : Ty) : Option Writer :=
  match mkvar w name ty with
  | none => none
  | some (w1, i) =>
    match w1.vars[i]? with
    | none => none
    | some v => some { w1 with vars := w1.vars.set i { v with nocheck := true } }

/-- `uvclose_c` and `uvopen_c(.., "append")`, uvio.c 795-827, 838-875, 1115-1135, 1192-1217: the names and types come back
from `vartable`, which is written anew with all of them, the values do not.  (Names contain no blanks.) -/
def reopen (w : Writer) : Writer :=
  { w with vars := w.vars.map (fun v => ⟨v.name, v.ty, 0, [], 0, false⟩), offset := roundup w.offset ALIGN }

/-- what a program does with a file it writes; `reopen` closes it and opens it again to append -/
inductive Ev
  | put (name : Name) (ty : Ty) (data : List Byte)
  | noCheck (name : Name) (ty : Ty)
  | next
  | reopen
  deriving DecidableEq, Repr

def wstep (w : Writer) : Ev → Option Writer
  | .put name ty data => put w name ty data
  | .noCheck name ty => noCheck w name ty
  | .next => some (next w)
  | .reopen => some (reopen w)

def wrun : Writer → List Ev → Option Writer
  | w, [] => some w
  | w, e :: es => (wstep w e).bind (fun w' => wrun w' es)

/-! ## Reading -/

/-- `VARIABLE` of a file that is read; `copy` is the flag `UVF_COPY` of `uvtrack_c(.., "c")` -/
structure RVar where
  name : Name
  ty : Ty
  flength : Nat
  length : Nat
  buf : Option (List Byte)
  callno : Nat
  copy : Bool
  deriving DecidableEq, Repr

/-- the `UV` structure of a file that is read -/
structure Reader where
  vars : List RVar
  offset : Nat
  maxOffset : Nat
  callno : Nat
  mark : Nat
  copy : Bool
  deriving DecidableEq, Repr

/-- `uvopen_c(.., "old")`: the variables come from `vartable`, the end of the data from `vislen` -/
def openReader (table : List (Name × Ty)) (vislen : Nat) : Reader :=
  ⟨table.map (fun p => ⟨p.1, p.2, 0, 0, none, 0, false⟩), 0, vislen, 0, 0, false⟩

/-- what the writer leaves behind for the reader -/
def table (w : Writer) : List (Name × Ty) := w.vars.map (fun v => (v.name, v.ty))

/-- `VAR_SIZE`, uvio.c 1897-1915 -/
def takeSize (v : RVar) (callno len : Nat) : RVar :=
  { v with
    flength := len, length := len, buf := some (resize (len * v.ty.mem / v.ty.ext) (v.buf.getD [])),
    callno := callno }

/-- `VAR_DATA`, uvio.c 1919-1928 -/
def takeData (v : RVar) (callno : Nat) (bytes : List Byte) : RVar :=
  { v with buf := if v.flength = 0 then v.buf else some (fromFile v.ty bytes), callno := callno }

/-- `hread_c` of `n` bytes: `none` at the end of the file -/
def readBytes (f : Nat → Byte) (size o n : Nat) : Option (List Byte) :=
  if size < o + n then none else some ((List.range n).map fun (k : Nat) => f (o + k))

inductive Rec
  | eof
  | bad
  | eor
  | size (i len : Nat)
  | data (i : Nat) (bytes : List Byte)
  deriving DecidableEq, Repr

/-- the variable a record is about, uvio.c 1889: `char` is signed, so that an index from 128 on is outside of the
array, as is a variable that does not exist: `none` -/
def recVar (vars : List RVar) (b : Byte) : Option RVar := if 128 ≤ b.toNat then none else vars[b.toNat]?

/-- a length that is not positive (as a signed number) or not a multiple of the size of an element is a fatal error,
uvio.c 1900-1905 -/
def checkSize (v : RVar) (i len : Nat) : Rec :=
  if len = 0 then .bad
  else if 0x80000000 ≤ len then .bad
  else if len % v.ty.ext ≠ 0 then .bad
  else .size i len

/-- read the length of a variable -/
def readSize (f : Nat → Byte) (size : Nat) (v : RVar) (off i : Nat) : Rec :=
  match readBytes f size (off + HDR) 4 with
  | none => .bad
  | some bytes => checkSize v i (ofBe32 bytes)

/-- read the value of a variable -/
def readData (f : Nat → Byte) (size : Nat) (v : RVar) (off i : Nat) : Rec :=
  match readBytes f size (off + roundup HDR v.ty.ext) v.flength with
  | none => .bad
  | some bytes => .data i bytes

/-- the record at `off`, uvio.c 1879-1941 -/
def readRec (f : Nat → Byte) (size maxOffset : Nat) (vars : List RVar) (off : Nat) : Rec :=
  if maxOffset ≤ off then .eof
  else if size < off + HDR then .eof
  else if f (off + 2) = 2 then .eor
  else
    match recVar vars (f off) with
    | none => .bad
    | some v =>
      if f (off + 2) = 0 then readSize f size v off (f off).toNat
      else if f (off + 2) = 1 then readData f size v off (f off).toNat
      else .bad

/-- the result of a scan -/
inductive Scan
  | eof (r : Reader)
  | bad
  | ok (r : Reader)
  deriving DecidableEq, Repr

/-- the state of the loop of `uv_scan` -/
structure Loop where
  vars : List RVar
  off : Nat
  copy : Bool

/-- what a record of variable `i` does: `v'` is the new state of the variable, `off` the place of the next record -/
def Loop.update (l : Loop) (i off : Nat) (v' : RVar) : Loop := ⟨l.vars.set i v', off, l.copy || v'.copy⟩

/-- the effect of a record other than the end of a block -/
def applyRec (callno : Nat) (l : Loop) : Rec → Option Loop
  | .size i len => (l.vars[i]?).map fun v => l.update i (l.off + ALIGN) (takeSize v callno len)
  | .data i bytes => (l.vars[i]?).map fun v =>
      l.update i (roundup (l.off + roundup HDR v.ty.ext + v.flength) ALIGN) (takeData v callno bytes)
  | _ => none

/-- the loop of `uv_scan` with `vt == NULL`, uvio.c 1878-1949; `fuel` bounds the number of records -/
def scanLoop (f : Nat → Byte) (size : Nat) (r : Reader) (callno : Nat) : Nat → Loop → Scan
  | 0, _ => .bad
  | fuel + 1, l =>
    match readRec f size r.maxOffset l.vars l.off with
    | .eof => .eof { r with vars := l.vars, callno := callno, copy := l.copy }
    | .bad => .bad
    | .eor => .ok { r with vars := l.vars, callno := callno, copy := l.copy, offset := l.off + ALIGN }
    | rec =>
      match applyRec callno l rec with
      | none => .bad
      | some l' => scanLoop f size r callno fuel l'

/-- `uv_scan(uv, NULL)`, uvio.c 1861-1950: every record takes at least one byte -/
def scan (f : Nat → Byte) (size : Nat) (r : Reader) : Scan :=
  scanLoop f size r (r.callno + 1) (r.maxOffset - r.offset + 1) ⟨r.vars, r.offset, r.copy⟩

/-- `uvnext_c` of a file that is read, uvio.c 1302-1304; the beginning of `uvread_c` does the same -/
def rnext (f : Nat → Byte) (size : Nat) (r : Reader) : Scan :=
  scan f size { r with mark := r.callno + 1, copy := false }

/-- `n` records -/
def readN (f : Nat → Byte) (size : Nat) : Nat → Reader → Option Reader
  | 0, r => some r
  | n + 1, r =>
    match rnext f size r with
    | .ok r' => readN f size n r'
    | _ => none

/-- `uvrewind_c`, uvio.c 1308-1338 -/
def rewind (r : Reader) : Reader :=
  { r with callno := 0, mark := 0, offset := 0, vars := r.vars.map (fun v => { v with callno := 0 }) }

/-- `uv_locvar` -/
def rlocvar (vars : List RVar) (name : Name) : Option RVar := vars.find? (fun v => v.name = name)

/-- `uvprobvr_c`, uvio.c 1633-1677: type, number of elements, updated; `none` if there is no such variable -/
def probe (r : Reader) (name : Name) : Option (Ty × Nat × Bool) :=
  (rlocvar r.vars name).map fun v => (v.ty, v.length / v.ty.ext, decide (r.mark ≤ v.callno))

/-- `uvgetvr_c`, uvio.c 1575-1627 with the number of elements that `uvprobvr_c` gives, as `UVObject_rdvr` of
miriad_wrap.cpp 227-317 uses it: the bytes, or `none` for the fatal errors -/
def getvr (r : Reader) (name : Name) (ty : Ty) : Option (List Byte) :=
  match rlocvar r.vars name with
  | none => none
  | some v => if ty ≠ v.ty then none else v.buf.map (fun b => b.take (v.ty.mem * v.length / v.ty.ext))

end Verif.Mir.Uv
