/-!
# Flag files: the model for properties C43 and C44

`/repo/aipy/_miriad/mir/maskio.c`.  Flags are kept 31 to an integer; integer 0 of the item is its type tag.  `file` are
the integers of the item as `hreadi_c`/`hwritei_c` see them (C42 and C45 are about the bytes); what it holds beyond its
end, and what the `malloc`ed buffer holds at first, is arbitrary.  `bug_c('f', ..)` is an error value.  Numbers do not
overflow in the model, and I/O errors do not occur.
-/
namespace Verif.Mir.Mask

/-- `BITS_PER_INT*BUFFERSIZE`, maskio.c 35, 61 -/
abbrev BUF : Int := 3968

/-- `bits[i]`, maskio.c 37-45 -/
def bits (i : Nat) : BitVec 32 := BitVec.twoPow 32 i

/-- `masks[i]`, maskio.c 47-55 -/
def masks (i : Nat) : BitVec 32 := BitVec.ofNat 32 (2 ^ i - 1)

/-- `MASK_INFO` with the item, maskio.c 63-68; offsets and lengths are in bits -/
structure Mask where
  file : Nat → BitVec 32
  buf : Nat → BitVec 32
  modified : Bool
  offset : Int
  length : Int
  size : Int

/-- `hreadi_c`/`hwritei_c`: copy `n` integers, from `src` at `s` to `dst` at `d` -/
def copy (src : Nat → BitVec 32) (s : Nat) (dst : Nat → BitVec 32) (d n : Nat) : Nat → BitVec 32 :=
  fun k => if d ≤ k ∧ k < d + n then src (s + (k - d)) else dst k

/-- store one integer -/
def put (f : Nat → BitVec 32) (k : Nat) (w : BitVec 32) : Nat → BitVec 32 := fun n => if n = k then w else f n

/-- `mkopen_c`, maskio.c 75-124: an item of `words` integers (1 for a new one), with whatever is in the buffer -/
def mkopen (file buf : Nat → BitVec 32) (words : Nat) : Mask := ⟨file, buf, false, -BUF, 0, 31 * words⟩

/-- `mkflush_c`, maskio.c 337-380 -/
def mkflush (m : Mask) : Mask :=
  let m1 : Mask :=
    if m.offset + m.length ≥ m.size then
      let l := ((m.length - 1) / 31 + 1) * 31
      { m with length := l, size := m.offset + l }
    else if m.length % 31 ≠ 0 then
      let t := m.file ((m.offset + m.length) / 31).toNat
      let b := (m.length / 31).toNat
      let i := (m.length % 31).toNat
      { m with buf := put m.buf b ((t &&& ~~~ masks i) ||| (m.buf b &&& masks i)),
               length := ((m.length - 1) / 31 + 1) * 31 }
    else m
  { m1 with file := copy m1.buf 0 m1.file (m1.offset / 31).toNat (m1.length / 31).toNat, modified := false }

/-- flush if there is something to write -/
def sync (m : Mask) : Mask := if m.modified then mkflush m else m

/-- `mkclose_c` 126-143 followed by `mkopen_c(.., "old")`; the new buffer holds anything.  An item that holds nothing
but its tag is fatal, 99-100. -/
def reopen (m : Mask) (garbage : Nat → BitVec 32) : Except Unit Mask :=
  let m := sync m
  if m.size / 31 ≤ 1 then .error () else .ok (mkopen m.file garbage (m.size / 31).toNat)

/-- `mkfill`, maskio.c 382-404 -/
def mkfill (m : Mask) (p : Int) : Mask :=
  if m.offset + m.length < m.size then
    let b := (m.length / 31).toNat
    let t := m.buf b
    let off := (m.offset + m.length) / 31
    let len := min (p / 31 + 1) (m.size / 31) - off
    let buf := copy m.file off.toNat m.buf b len.toNat
    let i := (m.length % 31).toNat
    { m with buf := put buf b ((t &&& masks i) ||| (buf b &&& ~~~ masks i)), length := (off + len) * 31 - m.offset }
  else m

/-! ## reading, maskio.c 145-234 -/

/-- get the buffer that holds bit `p`, maskio.c 167-178 (a position beyond the end is fatal: the code says so when it
is at the end; further on it would read a negative number of integers) -/
def load (m : Mask) (p : Int) : Except Unit Mask :=
  if p < m.offset ∨ p ≥ m.offset + m.length then
    let m := sync m
    let off := p / 31 * 31
    let len := min (m.size - off) BUF
    if len ≤ 0 then .error ()
    else .ok { m with offset := off, length := len, modified := false,
                      buf := copy m.file (off / 31).toNat m.buf 0 (len / 31).toNat }
  else .ok m

/-- the loop over chunks, maskio.c 165-229; `f` treats one chunk: integer and bit number where it starts, and its
length; `fuel` bounds the number of turns (every turn treats at least one flag) -/
def readLoop {α : Type} (f : α → (Nat → BitVec 32) → Nat → Nat → Nat → α) :
    Nat → Mask → α → Int → Nat → Except Unit (Mask × α)
  | _, m, acc, _, 0 => .ok (m, acc)
  | 0, m, acc, _, _ => .ok (m, acc)
  | fuel + 1, m, acc, p, n + 1 =>
    match load m p with
    | .error e => .error e
    | .ok m' =>
      let boff := p - m'.offset
      let len := (min (m'.length - boff) (n + 1 : Nat)).toNat
      readLoop f fuel m' (f acc m'.buf (boff / 31).toNat (boff % 31).toNat len) (p + len) (n + 1 - len)

/-- the flags of one integer, maskio.c 197-203 -/
def flagsOfWord (w : BitVec 32) (boff blen : Nat) : List Bool :=
  if w = 0x7FFFFFFF#32 then List.replicate blen true
  else if w = 0#32 then List.replicate blen false
  else (List.range blen).map (fun k => decide ((bits (boff + k) &&& w) ≠ 0#32))

/-- one chunk in flags format, maskio.c 193-207 -/
def flagsChunk (acc : List Bool) (buf : Nat → BitVec 32) (w boff len : Nat) : List Bool :=
  if _h : len = 0 ∨ 31 ≤ boff then acc
  else
    let blen := min (31 - boff) len
    flagsChunk (acc ++ flagsOfWord (buf w) boff blen) buf (w + 1) 0 (len - blen)
termination_by len
decreasing_by omega

/-- the state of the runs format: what was written, the length so far, and whether we are in a run of set flags -/
structure RunSt where
  out : List Nat
  runs : Nat
  state : Bool

/-- `SWITCH_STATE`, maskio.c 149-150 -/
def RunSt.switch (r : RunSt) : RunSt := ⟨r.out ++ [r.runs + (if r.state then 0 else 1)], r.runs, !r.state⟩

/-- `state` or `otherstate` as an integer -/
def stateWord (b : Bool) : BitVec 32 := if b then 0x7FFFFFFF#32 else 0#32

/-- the loop over the bits of one integer, maskio.c 218-221 -/
def runsBits (w : BitVec 32) : RunSt → Nat → Nat → RunSt
  | r, _, 0 => r
  | r, i, n + 1 =>
    let r' := if (bits i &&& w) ≠ (bits i &&& stateWord r.state) then r.switch else r
    runsBits w { r' with runs := r'.runs + 1 } (i + 1) n

/-- one integer in runs format, maskio.c 214-222 -/
def runsWord (r : RunSt) (w : BitVec 32) (boff blen : Nat) : RunSt :=
  if w = stateWord r.state then { r with runs := r.runs + blen }
  else if w = stateWord (!r.state) then { r.switch with runs := r.switch.runs + blen }
  else runsBits w r boff blen

/-- one chunk in runs format, maskio.c 211-227 -/
def runsChunk (acc : RunSt) (buf : Nat → BitVec 32) (w boff len : Nat) : RunSt :=
  if _h : len = 0 ∨ 31 ≤ boff then acc
  else
    let blen := min (31 - boff) len
    runsChunk (runsWord acc (buf w) boff blen) buf (w + 1) 0 (len - blen)
termination_by len
decreasing_by omega

/-- `mkread_c` in flags format -/
def mkreadFlags (m : Mask) (offset n : Nat) : Except Unit (Mask × List Bool) :=
  readLoop flagsChunk n m [] (offset + 31) n

/-- `mkread_c` in runs format (the output array is large enough) -/
def mkreadRuns (m : Mask) (offset n : Nat) : Except Unit (Mask × List Nat) :=
  match readLoop runsChunk n m ⟨[], 0, false⟩ (offset + 31) n with
  | .error e => .error e
  | .ok (m', r) => .ok (m', if r.state then r.out ++ [r.runs] else r.out)

/-! ## writing, maskio.c 236-321 -/

/-- get a buffer for bit `p`, maskio.c 267-277 -/
def place (m : Mask) (p : Int) : Mask :=
  let m :=
    if p < m.offset ∨ p ≥ m.offset + BUF then
      let m := sync m
      { m with offset := p / 31 * 31, length := 0, modified := false }
    else m
  if p > m.offset + m.length then mkfill m p else m

/-- the loop over chunks, maskio.c 266-320; `f` writes one chunk out of the source `σ`: integer and bit number where it
starts, its length, and the number of flags that come after it -/
def writeLoop {σ : Type} (f : σ → (Nat → BitVec 32) → Nat → Nat → Nat → Nat → σ × (Nat → BitVec 32)) :
    Nat → Mask → σ → Int → Nat → Mask
  | _, m, _, _, 0 => m
  | 0, m, _, _, _ => m
  | fuel + 1, m, src, p, n + 1 =>
    let m := place m p
    let boff := p - m.offset
    let len := (min (BUF - boff) (n + 1 : Nat)).toNat
    let r := f src m.buf (boff / 31).toNat (boff % 31).toNat len (n + 1 - len)
    writeLoop f fuel { m with length := max m.length (boff + len), modified := true, buf := r.2 } r.1 (p + len)
      (n + 1 - len)

/-- set or clear one bit, maskio.c 300-301 -/
def setBit (w : BitVec 32) (i : Nat) (b : Bool) : BitVec 32 := if b then w ||| bits i else w &&& ~~~ bits i

/-- the flags of one integer, maskio.c 299-303 -/
def writeBits (w : BitVec 32) : Nat → List Bool → BitVec 32
  | _, [] => w
  | i, b :: bs => writeBits (setBit w i b) (i + 1) bs

/-- one chunk in flags format, maskio.c 295-307 -/
def writeFlags (src : List Bool) (buf : Nat → BitVec 32) (w boff len : Nat) (after : Nat) :
    List Bool × (Nat → BitVec 32) :=
  if _h : len = 0 ∨ 31 ≤ boff then (src, buf)
  else
    let blen := min (31 - boff) len
    writeFlags (src.drop blen) (put buf w (writeBits (buf w) boff (src.take blen))) (w + 1) 0 (len - blen) after
termination_by len
decreasing_by omega

/-- the variables of the runs format: the rest of the input, the rest of the current run, `curr` and `state` -/
structure RunSrc where
  flags : List Nat
  run : Nat
  curr : Nat
  state : Bool

/-- `while(run == 0)`, maskio.c 312-320; `left` is `n + len`.  Runs that are not in order would make `run` negative;
the subtraction here stops at 0, and the theorems are about runs in order. -/
def nextRun (left : Nat) : List Nat → Nat → Nat → Bool → RunSrc
  | fl, run + 1, curr, state => ⟨fl, run + 1, curr, state⟩
  | [], 0, curr, state => ⟨[], left, curr, !state⟩
  | x :: fl, 0, curr, state =>
    let t := x - (if state then 1 else 0)
    nextRun left fl (t - curr) t (!state)

/-- one chunk in runs format, maskio.c 311-331 -/
def writeRuns (s : RunSrc) (buf : Nat → BitVec 32) (w boff len after : Nat) : RunSrc × (Nat → BitVec 32) :=
  if _h : len = 0 ∨ 31 ≤ boff then (s, buf)
  else
    let s' := nextRun (after + len) s.flags s.run s.curr s.state
    let blen := min s'.run (min (31 - boff) len)
    if _hb : blen = 0 then (s', buf)
    else
      let mask := masks (boff + blen) ^^^ masks boff
      let buf' := put buf w (if s'.state then buf w ||| mask else buf w &&& ~~~ mask)
      let boff' := (boff + blen) % 31
      writeRuns { s' with run := s'.run - blen } buf' (if boff' = 0 then w + 1 else w) boff' (len - blen) after
termination_by len
decreasing_by
  exact Nat.sub_lt (by omega) (Nat.pos_of_ne_zero _hb)

/-- `mkwrite_c` in flags format -/
def mkwriteFlags (m : Mask) (offset : Nat) (flags : List Bool) : Mask :=
  writeLoop writeFlags flags.length m flags (offset + 31) flags.length

/-- `mkwrite_c` in runs format, for `n` flags -/
def mkwriteRuns (m : Mask) (offset : Nat) (runs : List Nat) (n : Nat) : Mask :=
  writeLoop writeRuns n m ⟨runs, 0, 0, true⟩ (offset + 31) n

end Verif.Mir.Mask
