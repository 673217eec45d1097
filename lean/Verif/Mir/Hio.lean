/-!
# Items of a data set: the model for properties C45 and C46

`/repo/aipy/_miriad/mir/hio.c` with the constants of a Linux build (`BUFDBUFF` 0: one buffer, synchronous I/O;
`BUFALIGN` 2; `BUFSIZE` 16384).  An item holds its I/O buffer and the file behind it; `fd` says whether there is a file.
The file system stores what is written and fills holes with zeros; its errors do not occur.  What `malloc`ed memory
holds at first is arbitrary (`g`).

The element types differ in the byte order of the user's memory (`pack.c`, property C42) and in the number of bytes
`s` of an element: only whole elements of a chunk are transferred.  The model keeps the user's memory in file order, so
that packing is the identity on whole elements.
-/
namespace Verif.Mir.Hio

abbrev Byte := UInt8

/-- `CACHESIZE`, hio.c 58 -/
abbrev CACHESIZE : Nat := 64

/-- `BUFSIZE`, sysdep.h -/
abbrev BUFSIZE : Nat := 16384

/-- `ITEM` with its `io[0]`, hio.c 79-98, and the file -/
structure Item where
  fd : Bool
  noCache : Bool
  size : Nat
  bsize : Nat
  off : Nat
  len : Nat
  modified : Bool
  buf : Nat → Byte
  file : Nat → Byte
  fsize : Nat

/-- `iostat`: end of file (-1), an error of the system, or an offset that does not fit the `int`s of
`hwrite_fill_c` (the code goes on with a wrong number) -/
inductive Err
  | eof
  | io
  | overflow
  deriving DecidableEq, Repr

/-- copy `n` bytes, from `src` at `s` to `dst` at `d` -/
def copy (src : Nat → Byte) (s : Nat) (dst : Nat → Byte) (d n : Nat) : Nat → Byte :=
  fun k => if d ≤ k ∧ k < d + n then src (s + (k - d)) else dst k

/-- `dwrite_c` of the buffer, dio.c 211-224; without a file this fails -/
def dwrite (it : Item) : Except Err Item :=
  if it.fd = false then .error .io
  else if it.len = 0 then .ok it
  else .ok { it with
    file := copy it.buf 0 (fun k => if k < it.fsize then it.file k else 0) it.off it.len,
    fsize := max it.fsize (it.off + it.len) }

/-- `dread_c` of `n` bytes at `o` into a buffer at `d`, dio.c 196-209; a short read is an error -/
def dread (it : Item) (dst : Nat → Byte) (o d n : Nat) : Except Err (Nat → Byte) :=
  if it.fd = false then .error .io
  else if n ≠ 0 ∧ it.fsize < o + n then .error .io
  else .ok (copy it.file o dst d n)

/-- `hwrite_fill_c`, hio.c 1174-1203 -/
def fill (it : Item) (next : Nat) : Except Err Item :=
  if 2 ^ 31 ≤ next ∨ 2 ^ 31 ≤ it.off + it.len then .error .overflow
  else
    let o := 2 * ((it.off + it.len) / 2)
    let l := min (2 * ((next - 1) / 2 + 1) - o) (it.size - o)
    match dread it (fun _ => 0) o 0 l with
    | .error e => .error e
    | .ok b =>
      let o' := it.off + it.len - o
      .ok { it with buf := copy b o' it.buf it.len (l - o'), len := it.len + (l - o') }

/-- `hcheckbuf_c`, hio.c 1133-1173 -/
def checkBuf (it : Item) (next : Nat) (g : Nat → Byte) : Item :=
  let it1 :=
    if it.bsize < next ∧ next ≤ CACHESIZE then { it with bsize := CACHESIZE, buf := copy it.buf 0 g 0 it.len }
    else if it.bsize ≤ CACHESIZE ∧ CACHESIZE < next then
      { it with bsize := BUFSIZE, buf := copy it.buf 0 g 0 it.len }
    else it
  if it1.fd = false ∧ CACHESIZE < it1.bsize ∧ it1.noCache = false then { it1 with fd := true, size := 0, fsize := 0 }
  else it1

/-- the call of `hcheckbuf_c` in `hio_c`, hio.c 940-941 -/
def prepare (it : Item) (next : Nat) (g : Nat → Byte) : Item :=
  if it.bsize < BUFSIZE ∧ it.bsize < next then checkBuf it next g else it

/-- `WITHIN_BUF(0)`, hio.c 918-921 -/
def within (it : Item) (offset : Nat) (dowrite : Bool) : Prop :=
  0 < it.len ∧ it.off ≤ offset ∧ offset < it.off + (if dowrite then it.bsize else it.len)

instance (it : Item) (offset : Nat) (dowrite : Bool) : Decidable (within it offset dowrite) := by
  unfold within; exact inferInstance

/-- write the buffer to the file if it was modified, hio.c 972-979 -/
def flush (it : Item) : Except Err Item :=
  if it.modified then
    match (if it.len % 2 ≠ 0 ∧ it.off + it.len < it.size then fill it (it.off + it.len) else .ok it) with
    | .error e => .error e
    | .ok it1 =>
      match dwrite it1 with
      | .error e => .error e
      | .ok it2 => .ok { it2 with modified := false }
  else .ok it

/-- a miss: flush the buffer and, for reading, get the data, hio.c 971-990 -/
def miss (it : Item) (offset : Nat) (dowrite : Bool) : Except Err Item :=
  match flush it with
  | .error e => .error e
  | .ok it1 =>
    let off := offset / 2 * 2
    if dowrite then .ok { it1 with off := off, len := 0 }
    else
      let n := min it1.bsize (it1.size - off)
      match dread it1 it1.buf off 0 n with
      | .error e => .error e
      | .ok b => .ok { it1 with off := off, len := n, buf := b }

/-- one turn of the loop, up to the point where the buffer is the right one -/
def locate (it : Item) (offset : Nat) (dowrite : Bool) : Except Err Item :=
  if within it offset dowrite then .ok it else miss it offset dowrite

/-- the missing data before a write that leaves a gap in the buffer, hio.c 1031-1033 -/
def fillGap (it : Item) (offset : Nat) : Except Err Item :=
  if it.off + it.len < offset ∧ it.off + it.len < it.size then fill it offset else .ok it

/-- the length and size after a write, hio.c 1034-1037 -/
def extend (it : Item) (offset length : Nat) : Item :=
  let l := max it.len (min (length + offset - it.off) it.bsize)
  { it with modified := true, len := l, size := max it.size (it.off + l) }

/-- the number of bytes of this turn, hio.c 1046-1047 -/
def chunk (it : Item) (offset length : Nat) : Nat := min length (it.len - (offset - it.off))

/-- copy the user's bytes into the buffer: whole elements, hio.c 1049-1068 -/
def store (it : Item) (s offset : Nat) (data : Nat → Byte) (n : Nat) : Item :=
  { it with buf := copy data 0 it.buf (offset - it.off) (n / s * s) }

/-- one turn of the loop for a write; also gives the number of bytes done -/
def writePass (it : Item) (s offset : Nat) (data : List Byte) : Except Err (Item × Nat) :=
  match locate it offset true with
  | .error e => .error e
  | .ok it1 =>
    match fillGap it1 offset with
    | .error e => .error e
    | .ok it2 =>
      let it3 := extend it2 offset data.length
      let n := chunk it3 offset data.length
      .ok (store it3 s offset (fun k => data.getD k 0) n, n)

/-- the loop for a write, hio.c 953-1113; `fuel` bounds the number of turns (every turn transfers at least a byte) -/
def writeLoop : Nat → Item → Nat → Nat → List Byte → Except Err Item
  | _, it, _, _, [] => .ok it
  | 0, it, _, _, _ => .ok it
  | fuel + 1, it, s, offset, b :: data =>
    match writePass it s offset (b :: data) with
    | .error e => .error e
    | .ok (it', n) => writeLoop fuel it' s (offset + n) ((b :: data).drop n)

/-- `hio_c` for writing, hio.c 844-1117 -/
def hwrite (it : Item) (g : Nat → Byte) (s offset : Nat) (data : List Byte) : Except Err Item :=
  writeLoop data.length (prepare it (offset + data.length) g) s offset data

/-- the bytes of one chunk as the user sees them: whole elements; the rest of the memory is left as it was -/
def fetch (it : Item) (s offset n : Nat) : List (Option Byte) :=
  (List.range n).map fun (k : Nat) => if k < n / s * s then some (it.buf (offset - it.off + k)) else none

/-- the loop for a read -/
def readLoop : Nat → Item → Nat → Nat → Nat → Except Err (Item × List (Option Byte))
  | _, it, _, _, 0 => .ok (it, [])
  | 0, it, _, _, _ => .ok (it, [])
  | fuel + 1, it, s, offset, length + 1 =>
    match locate it offset false with
    | .error e => .error e
    | .ok it1 =>
      let n := chunk it1 offset (length + 1)
      match readLoop fuel it1 s (offset + n) (length + 1 - n) with
      | .error e => .error e
      | .ok (it2, r) => .ok (it2, fetch it1 s offset n ++ r)

/-- `hio_c` for reading (`s` is the size of an element, 1 for bytes), hio.c 844-1117 -/
def hread (it : Item) (g : Nat → Byte) (s offset length : Nat) : Except Err (Item × List (Option Byte)) :=
  if it.size < offset + length then .error .eof
  else readLoop length (prepare it (offset + length) g) s offset length

/-- `hdaccess_c`, hio.c 770-821: write what is left.  (The buffer is written as it is, without `hwrite_fill_c`.)  An
item without a file stays in memory. -/
def hdaccess (it : Item) : Except Err Item :=
  if it.fd then
    if it.modified then
      match dwrite it with
      | .error e => .error e
      | .ok it1 => .ok { it1 with modified := false }
    else .ok it
  else .ok { it with modified := false }

/-- `hcreate_item_c` and `haccess_c(.., "write")` for an item that can be cached, hio.c 1438-1483, 556-619: nothing is
allocated, no file is opened -/
def newItem (file : Nat → Byte) : Item :=
  ⟨false, false, 0, 0, 0, 0, false, fun _ => 0, file, 0⟩

/-- `haccess_c` that opens the file, hio.c 598-617: `dopen_c` gives the size of the file.  `noCache` for the items
`header`, `history` and scratch items. -/
def openFile (noCache : Bool) (file g : Nat → Byte) (fsize : Nat) : Item :=
  ⟨true, noCache, fsize, BUFSIZE, 0, 0, false, g, file, fsize⟩

/-- `haccess_c(.., "read" or "append")` after `hdaccess_c`: an item with a file was released and is opened again;
one without is still there, unless it is empty and was never in the header file (then there is no file to open) -/
def reopen (it : Item) (g : Nat → Byte) : Except Err Item :=
  match hdaccess it with
  | .error e => .error e
  | .ok it1 =>
    if it1.fd then .ok (openFile it1.noCache it1.file g it1.fsize)
    else if it1.size = 0 then .error .io
    else .ok it1

/-- `hcache_read_c`: an item of the header file, hio.c 1299-1308 -/
def cached (data : List Byte) : Item :=
  ⟨false, false, data.length, data.length, 0, data.length, false, fun k => data.getD k 0, fun _ => 0, 0⟩

end Verif.Mir.Hio
