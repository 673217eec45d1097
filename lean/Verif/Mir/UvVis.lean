import Verif.Mir.UvVars
import Verif.Mir.Mask
import Verif.Mir.MaskProps

/-!
# Visibility records: the model for property C48

`uvwrite_c` and `uvread_c` of `/repo/aipy/_miriad/mir/uvio.c` as `UVObject_write` and `UVObject_read` of
`/repo/aipy/_miriad/miriad_wrap.cpp` call them: preamble `uvw/time/baseline`, data of `nchan` complex channels, flags.  The
calls of `uvputvr_c` they make go to the stream of `Verif.Mir.Uv`, the flags to the flag file of `Verif.Mir.Mask`.

Floating point numbers are bit patterns.  Of the arithmetic only what the code does with preambles is used: comparing
(`deq`, `feq`) and adding 1000 (`FpOps`).

Simplified: `UVF_NOCHECK` is set on `corr` when the file is opened and not in the first call of `uvwrite_c`; the variables
of the preamble are checked by every `uvread_c` and not only in the first (`uvread_init`).  Not modelled: selection,
reference line, linetype and planet parameters (so that `u` and `v` are multiplied by one and `scale` is one), wide-band
data, data sets without a flag file.
-/
namespace Verif.Mir.Uv

open Verif.Mir.Hio (Byte)
open Verif.Mir.Mask (Mask mkreadFlags Op)

/-- floating point operations on bit patterns: `a == b` for `double` and `float`, `d + 1000`, `(float)(d + 1000)` -/
structure FpOps where
  deq : Nat → Nat → Bool
  feq : Nat → Nat → Bool
  add1000 : Nat → Nat
  bl1000 : Nat → Nat

/-- the scaling of data to 16 bits, uvio.c 2083-2100: the bits of `tscale`, and the integers (see property C49) -/
structure Quant where
  scale : List Byte → Nat
  ints : List Byte → List Byte

/-- a visibility: preamble, 8 bytes of data for each channel, a flag for each channel -/
structure Vis where
  u : Nat
  v : Nat
  w : Nat
  time : Nat
  bl : Nat
  data : List Byte
  flags : List Bool
  deriving DecidableEq, Repr

def nmCorr : Name := ['c', 'o', 'r', 'r']
def nmCoord : Name := ['c', 'o', 'o', 'r', 'd']
def nmTime : Name := ['t', 'i', 'm', 'e']
def nmBl : Name := ['b', 'a', 's', 'e', 'l', 'i', 'n', 'e']
def nmNchan : Name := ['n', 'c', 'h', 'a', 'n']
def nmTscale : Name := ['t', 's', 'c', 'a', 'l', 'e']

/-! ## Writing -/

/-- what `uvwrite_c` remembers of the last preamble in the buffers of the variables -/
structure Cache where
  c0 : Nat
  c1 : Nat
  c2 : Nat
  time : Nat
  bl : Nat
  deriving DecidableEq, Repr

/-- a data set that is written.  `evs` is not in the code: what has been done so far. -/
structure VisW where
  w : Writer
  cache : Option Cache
  flagOff : Nat
  flagOps : List Op
  evs : List Ev

/-- `uvopen_c(.., "new")` and `uvset_c(.., "corr", mode, ..)`, miriad_wrap.cpp 64-67 -/
def openVis (mode : Ty) : Option VisW :=
  (noCheck newWriter nmCorr mode).map fun w => ⟨w, none, 0, [], [.noCheck nmCorr mode]⟩

/-- the buffer of a variable, if it has one -/
def bufOf (w : Writer) (name : Name) : Option (List Byte) :=
  match w.vars.find? (fun v => v.name = name) with
  | none => none
  | some v => if v.buf = [] then none else some v.buf

/-- the numbers in a buffer of doubles; `junk` is what lies behind it -/
def dbl (junk : Nat → Nat) (b : List Byte) (k : Nat) : Nat := (pairsBig (words b)).getD k (junk k)

/-- the preamble variables in the first call of `uvwrite_c`, uvio.c 2020-2048: the buffer of an existing variable, or
a number that should differ from the one to be written.  (With three coordinates `preamble[2]` is `w` and
`preamble[3]` the time.) -/
def initCache (o : FpOps) (junk : Nat → Nat) (w : Writer) (v : Vis) : Cache :=
  let c := bufOf w nmCoord
  { c0 := match c with | some b => dbl junk b 0 | none => o.add1000 v.u
    c1 := match c with | some b => dbl junk b 1 | none => junk 1
    c2 := match c with | some b => dbl junk b 2 | none => junk 2
    time := match bufOf w nmTime with | some b => dbl junk b 0 | none => o.add1000 v.w
    bl := match bufOf w nmBl with | some b => (words b).getD 0 (junk 0) | none => o.bl1000 v.time }

/-- `NUMCHAN(corr)`, uvio.c 350-352, for the types `corr` has in aipy (`H_REAL`, `H_INT2`) -/
def numchan (w : Writer) : Nat :=
  match w.vars.find? (fun v => v.name = nmCorr) with
  | none => 0
  | some v => v.length / (2 * v.ty.ext)

/-- the data, uvio.c 2078-2101 -/
def corrEvs (q : Quant) (mode : Ty) (data : List Byte) : List Ev :=
  if mode = .int2 then [.put nmTscale .real (be32 (q.scale data)), .put nmCorr .int2 (q.ints data)]
  else [.put nmCorr mode data]

def coordBytes (v : Vis) : List Byte := be64 v.u ++ be64 v.v ++ be64 v.w

/-- `coord` is unchanged, uvio.c 2107-2108 -/
def coordEq (o : FpOps) (c : Cache) (v : Vis) : Bool := o.deq c.c0 v.u && o.deq c.c1 v.v && o.deq c.c2 v.w

/-- the calls `uvwrite_c` makes, uvio.c 1990-2134 -/
def visEvs (o : FpOps) (q : Quant) (mode : Ty) (first : Bool) (n0 : Nat) (c : Cache) (v : Vis) : List Ev :=
  (if first then [.noCheck nmCoord .dble, .noCheck nmTime .dble, .noCheck nmBl .real] else []) ++
  (if v.flags.length ≠ n0 then [.put nmNchan .int (be32 v.flags.length)] else []) ++
  corrEvs q mode v.data ++
  (if coordEq o c v then [] else [.put nmCoord .dble (coordBytes v)]) ++
  (if o.deq v.time c.time then [] else [.put nmTime .dble (be64 v.time)]) ++
  (if o.feq v.bl c.bl then [] else [.put nmBl .real (be32 v.bl)]) ++
  [.next]

/-- and what it remembers -/
def newCache (o : FpOps) (c : Cache) (v : Vis) : Cache :=
  { c0 := if coordEq o c v then c.c0 else v.u
    c1 := if coordEq o c v then c.c1 else v.v
    c2 := if coordEq o c v then c.c2 else v.w
    time := if o.deq v.time c.time then c.time else v.time
    bl := if o.feq v.bl c.bl then c.bl else v.bl }

/-- the cache a call of `uvwrite_c` compares with -/
def theCache (o : FpOps) (junk : Nat → Nat) (s : VisW) (v : Vis) : Cache :=
  match s.cache with
  | some c => c
  | none => initCache o junk s.w v

/-- the calls made in this state -/
def callEvs (o : FpOps) (q : Quant) (junk : Nat → Nat) (mode : Ty) (s : VisW) (v : Vis) : List Ev :=
  visEvs o q mode s.cache.isNone (numchan s.w) (theCache o junk s v) v

/-- `uvwrite_c` -/
def uvwrite (o : FpOps) (q : Quant) (junk : Nat → Nat) (mode : Ty) (s : VisW) (v : Vis) : Option VisW :=
  (wrun s.w (callEvs o q junk mode s v)).map fun w =>
    ⟨w, some (newCache o (theCache o junk s v) v), s.flagOff + v.flags.length,
      s.flagOps ++ [.write s.flagOff v.flags], s.evs ++ callEvs o q junk mode s v⟩

/-- `uv[name] = value`: any other variable, or one of the preamble -/
structure User where
  name : Name
  ty : Ty
  data : List Byte
  deriving DecidableEq, Repr

def User.ev (p : User) : Ev := .put p.name p.ty p.data

def assignAll (s : VisW) (ps : List User) : Option VisW :=
  (wrun s.w (ps.map User.ev)).map fun w => { s with w := w, evs := s.evs ++ ps.map User.ev }

/-- some assignments and a call of `uv.write` -/
structure Block where
  users : List User
  vis : Vis

def writeBlock (o : FpOps) (q : Quant) (junk : Nat → Nat) (mode : Ty) (s : VisW) (b : Block) : Option VisW :=
  (assignAll s b.users).bind fun s1 => uvwrite o q junk mode s1 b.vis

def writeBlocks (o : FpOps) (q : Quant) (junk : Nat → Nat) (mode : Ty) : VisW → List Block → Option VisW
  | s, [] => some s
  | s, b :: bs => (writeBlock o q junk mode s b).bind fun s1 => writeBlocks o q junk mode s1 bs

/-! ## Appending -/

/-- the type of `corr`: `v->type`, uvio.c 2078-2082 -/
def corrTy (w : Writer) : Option Ty := (w.vars.find? (fun v => v.name = nmCorr)).map (·.ty)

/-- the type of a variable that exists is one of these -/
def typeIn (w : Writer) (nm : Name) (tys : List Ty) : Bool :=
  match w.vars.find? (fun v => v.name = nm) with
  | none => true
  | some v => tys.contains v.ty

/-- `uvset_c(.., "preamble", "uvw/time/baseline", ..)` for a data set that is not new, uvio.c 2645-2675 -/
def preOk (w : Writer) : Bool :=
  (w.vars.any fun v => v.name = nmCoord) && typeIn w nmCoord [.dble] && typeIn w nmTime [.int, .real, .dble] &&
    typeIn w nmBl [.int, .real, .dble]

/-- `uvclose_c`, and `uvopen_c(.., "append")` and the two calls of `uvset_c`, miriad_wrap.cpp 64-67.  `uvset_c(.., "corr",
..)` takes the variable that exists (uv_mkvar, uvio.c 1231-1234), so that `mode` is used only where there is none.  The
flag file is opened in the first call of `uvwrite_c` (uvio.c 1998-2001), as an old one where `ncorr` is not zero; here it
is opened at once.  Not modelled: the item `obstype` (see `Verif.Mir.UvObstype`). -/
def appendVis (mode : Ty) (garbage : Nat → BitVec 32) (s : VisW) : Option VisW :=
  if preOk (reopen s.w) then
    (noCheck (reopen s.w) nmCorr mode).map fun w =>
      ⟨w, none, s.flagOff, s.flagOps ++ (if s.flagOff = 0 then [] else [.reopen garbage]),
        s.evs ++ [.reopen, .noCheck nmCorr mode]⟩
  else none

/-- what is done with a data set that is written: a block, or some assignments and then it is closed and appended to -/
inductive Act
  | block (b : Block)
  | append (users : List User) (mode : Ty) (garbage : Nat → BitVec 32)

def writeAct (o : FpOps) (q : Quant) (junk : Nat → Nat) (s : VisW) : Act → Option VisW
  | .block b => (corrTy s.w).bind fun mode => writeBlock o q junk mode s b
  | .append us mode g => (assignAll s us).bind fun s1 => appendVis mode g s1

def writeActs (o : FpOps) (q : Quant) (junk : Nat → Nat) : VisW → List Act → Option VisW
  | s, [] => some s
  | s, a :: as => (writeAct o q junk s a).bind fun s1 => writeActs o q junk s1 as

/-! ## Reading -/

/-- the data as they are in the variables: numbers, or integers and `tscale` -/
inductive Data
  | plain (bytes : List Byte)
  | scaled (tscale : Nat) (ints : List Byte)
  deriving DecidableEq, Repr

/-- what `uvread_c` returns; `w` is `none` where `coord` has two elements (the code computes it or takes zero) -/
structure Out where
  u : Nat
  v : Nat
  w : Option Nat
  time : Nat
  bl : Nat
  data : Data
  flags : List Bool
  deriving DecidableEq, Repr

/-- a data set that is read, with its flag file -/
structure VisR where
  r : Reader
  flagOff : Nat
  m : Mask

inductive VRead
  | eof (s : VisR)
  | bad
  | ok (s : VisR) (out : Out)

/-- the search for a record with data, uvio.c 2853-2863 -/
def findCorr (f : Nat → Byte) (size : Nat) : Nat → Reader → Scan
  | 0, _ => .bad
  | fuel + 1, r =>
    match scan f size r with
    | .ok r' =>
      match rlocvar r'.vars nmCorr with
      | none => .bad
      | some c => if c.callno = r'.callno then .ok r' else findCorr f size fuel r'
    | s => s

/-- the data, uvio.c 4081-4090: `2 * n` numbers of four bytes -/
def readCorr (r : Reader) (c : RVar) (n : Nat) : Option Data :=
  match c.ty with
  | .int2 =>
    match getvr r nmTscale .real with
    | none => none
    | some t => (c.buf).map fun b => .scaled ((words t).getD 0 0) (b.take (8 * n))
  | .real => (c.buf).map fun b => .plain (b.take (8 * n))
  | _ => none

/-- the preamble, uvio.c 2892-2928 -/
def readPreamble (r : Reader) : Option (Nat × Nat × Option Nat × Nat × Nat) :=
  match getvr r nmCoord .dble, getvr r nmTime .dble, getvr r nmBl .real with
  | some c, some t, some b =>
    match pairsBig (words c), pairsBig (words t), words b with
    | x :: y :: rest, t :: _, b :: _ => some (x, y, rest.head?, t, b)
    | _, _, _ => none
  | _, _, _ => none

/-- line and flags: `nsize` is the size of the arrays of the caller, uvio.c 4019-4092, 4335-4360 -/
def readLine (nsize : Nat) (s : VisR) : VRead :=
  match rlocvar s.r.vars nmCorr with
  | none => .bad
  | some c =>
    let n := c.length / (2 * c.ty.ext)
    if n = 0 then .bad
    else if nsize < n then .bad
    else
      match mkreadFlags s.m s.flagOff n with
      | .error _ => .bad
      | .ok (m, flags) =>
        match readCorr s.r c n, readPreamble s.r with
        | some d, some p =>
          .ok ⟨s.r, s.flagOff + n, m⟩ ⟨p.1, p.2.1, p.2.2.1, p.2.2.2.1, p.2.2.2.2, d, flags⟩
        | _, _ => .bad

/-- `uvread_c`, uvio.c 2830-2885.  The code adds the number of channels to the offset of the flags before it reads them,
and subtracts it again (4359). -/
def uvread (f : Nat → Byte) (size nsize : Nat) (s : VisR) : VRead :=
  match findCorr f size (s.r.maxOffset - s.r.offset + 1) { s.r with mark := s.r.callno + 1, copy := false } with
  | .eof r => .eof { s with r := r }
  | .bad => .bad
  | .ok r => readLine nsize { s with r := r }

/-- `uvrewind_c`, uvio.c 1308-1338: the flags begin anew as well -/
def rewindVis (s : VisR) : VisR := ⟨rewind s.r, 0, s.m⟩

/-- `n` calls -/
def uvreadN (f : Nat → Byte) (size nsize : Nat) : Nat → VisR → Option (VisR × List Out)
  | 0, s => some (s, [])
  | n + 1, s =>
    match uvread f size nsize s with
    | .ok s' out => (uvreadN f size nsize n s').map fun p => (p.1, out :: p.2)
    | _ => none

end Verif.Mir.Uv
