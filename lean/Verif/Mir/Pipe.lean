import Verif.Mir.UvVisRead
import Verif.Codes.Model

/-!
# Copying a data set: the model for property C51

`UV.__init__`, `UV.init_from_uv` (the variables) and `UV.pipe` of `/repo/aipy/miriad.py`, `uvtrack_c` and `uvcopyvr_c` of
`/repo/aipy/_miriad/mir/uvio.c`, on top of the reader and writer of `Verif.Mir.UvVis`.  The header items, among them the
history, are in `Verif.Mir.PipeItems`.

Python's view of a record is the antennas, not the baseline number: `UVObject_read` decodes it and `UVObject_write`
encodes it again.  The variables in `vartable` are those of the reader, in the same order.
-/
namespace Verif.Mir.Uv

open Verif.Mir.Hio (Byte)
open Verif.Mir.Mask (Mask)

/-- conversions between a `float` and the integer it stands for -/
structure BlOps where
  val : Nat → Nat
  bits : Nat → Nat

/-- the parameters of the model: arithmetic, scaling, the contents of memory nobody has written, the type of `corr` of
the new file, and the unscaling of 16-bit data (uvio.c 4083-4088, see property C49) -/
structure Env where
  o : FpOps
  q : Quant
  junk : Nat → Nat
  fo : FloatOps
  bl : BlOps
  mode : Ty
  unscale : Nat → List Byte → List Byte
  tailData : Nat → Byte
  tailFlags : Nat → Bool

/-- what `uv.read` returns and `uv.write` takes: `(uvw, t, (i, j)), data, flags` -/
structure PyRec where
  u : Nat
  v : Nat
  w : Nat
  time : Nat
  i : Nat
  j : Nat
  data : List Byte
  flags : List Bool
  deriving DecidableEq, Repr

/-- the numbers the data stand for -/
def Env.value (E : Env) : Data → List Byte
  | .plain b => b
  | .scaled t ints => E.unscale t ints

/-- `UVObject_read`, miriad_wrap.cpp 96-140, and `UV.read`, miriad.py 217-225.  The arrays have room for `nsize` channels;
they are returned in that size however many channels were read.  (Where `coord` has two elements the code computes `w`
or takes zero.) -/
def Env.show (E : Env) (nsize : Nat) (out : Out) : PyRec :=
  { u := out.u, v := out.v, w := out.w.getD 0, time := out.time
    i := (Codes.geti (E.bl.val out.bl)).toNat, j := (Codes.getj (E.bl.val out.bl)).toNat
    data := E.value out.data ++ (List.range (8 * nsize - (E.value out.data).length)).map E.tailData
    flags := out.flags ++ (List.range (nsize - out.flags.length)).map E.tailFlags }

/-- `UV.write`, miriad.py 233-246, and `UVObject_write`, miriad_wrap.cpp 145-185 -/
def Env.vis (E : Env) (p : PyRec) : Vis :=
  ⟨p.u, p.v, p.w, p.time, E.bl.bits (Codes.mkbl p.i p.j), p.data, p.flags⟩

/-- the type of a variable in `vartable` -/
def tyChar : Ty → Char
  | .byte => 'a'
  | .int2 => 'j'
  | .int => 'i'
  | .real => 'r'
  | .dble => 'd'
  | .cmplx => 'c'

/-- `UV.init_from_uv`, miriad.py 258-268: the assignments to the variables of the new file, and the variables that are
tracked; `none` for the exceptions of `uv[k]` and `_wrvr` -/
def initFrom (E : Env) (r : Reader) (over : List (Name × PyVal)) (excl : List Name) :
    List RVar → Option (List User × List Name)
  | [] => some ([], [])
  | v :: vs =>
    if v.name ∈ excl ∨ v.name = nmCorr then initFrom E r over excl vs
    else
      match over.find? (fun p => p.1 = v.name) with
      | some p =>
        match encode E.fo (tyChar v.ty) p.2 with
        | none => none
        | some (ty, d) => (initFrom E r over excl vs).map fun x => (⟨v.name, ty, d⟩ :: x.1, x.2)
      | none =>
        match (rdvr E.fo E.junk r v.name (tyChar v.ty)).bind (encode E.fo (tyChar v.ty)) with
        | none => none
        | some (ty, d) => (initFrom E r over excl vs).map fun x => (⟨v.name, ty, d⟩ :: x.1, v.name :: x.2)

/-- `uvtrack_c(.., "c")` for these variables, uvio.c 1775-1825 -/
def track (r : Reader) (ks : List Name) : Reader :=
  { r with vars := r.vars.map fun v => if v.name ∈ ks then { v with copy := true } else v, copy := r.copy || !ks.isEmpty }

/-- `uvcopyvr_c`, uvio.c 1340-1370: the calls of `uvputvr_c` on the output -/
def copyvr (r : Reader) : List User :=
  if r.copy then
    (r.vars.filter fun v => decide (r.mark ≤ v.callno) && v.copy).map fun v =>
      ⟨v.name, v.ty, (v.buf.getD []).take (v.ty.mem * v.length / v.ty.ext)⟩
  else []

/-- what `mfunc` makes of the record (`none`: its data are `None`, and it is omitted); `n` is the number of the call -/
abbrev MFunc := Nat → PyRec → Option PyRec

/-- the default of `mfunc`, miriad.py 14 -/
def echo : MFunc := fun _ p => some p

/-- `self.write` or nothing -/
def writeMaybe (E : Env) (s : VisW) : Option PyRec → Option VisW
  | none => some s
  | some p => uvwrite E.o E.q E.junk E.mode s (E.vis p)

/-- the loop of `UV.pipe`, miriad.py 276-286 (both branches do the same); `fuel` bounds the number of records, `k` counts
them -/
def pipeLoop (E : Env) (f : Nat → Byte) (size nsize : Nat) (mf : MFunc) : Nat → Nat → VisR → VisW → Option VisW
  | 0, _, _, _ => none
  | fuel + 1, k, S, s =>
    match uvread f size nsize S with
    | .eof _ => some s
    | .bad => none
    | .ok S1 out =>
      match assignAll s (copyvr S1.r) with
      | none => none
      | some s1 =>
        match writeMaybe E s1 (mf k (E.show nsize out)) with
        | none => none
        | some s2 => pipeLoop E f size nsize mf fuel (k + 1) S1 s2

/-- a new file, `init_from_uv(uv, override, exclude)`, `pipe(uv, mfunc)` -/
def pipeFrom (E : Env) (f : Nat → Byte) (size nsize : Nat) (mf : MFunc) (over : List (Name × PyVal)) (excl : List Name)
    (S : VisR) (fuel : Nat) : Option VisW :=
  match openVis E.mode, initFrom E S.r over excl S.r.vars with
  | some s0, some x =>
    match assignAll s0 x.1 with
    | none => none
    | some s1 => pipeLoop E f size nsize mf fuel 0 { S with r := track S.r x.2 } s1
  | _, _ => none

/-- `MAXCHAN`, maxdimc.h 18 -/
abbrev MAXCHAN : Nat := 32768

/-- `uv['nchan']` as a size, miriad.py 83-84 -/
def nchanOf (E : Env) (r : Reader) : Option Nat :=
  match rlocvar r.vars nmNchan with
  | none => some MAXCHAN
  | some _ =>
    match rdvr E.fo E.junk r nmNchan 'i' with
    | some (.int n) => some n.toNat
    | _ => none

/-- `UV.__init__(filename)`, miriad.py 72-86: the first record is read for its variables, and the size of the arrays for
further reads is `uv['nchan']`; `none` for the exceptions -/
def openUv (E : Env) (f : Nat → Byte) (size : Nat) (table : List (Name × Ty)) (vislen : Nat) (m : Mask) :
    Option (VisR × Nat) :=
  match uvread f size MAXCHAN ⟨openReader table vislen, 0, m⟩ with
  | .ok S _ => (nchanOf E (rewind S.r)).map fun n => (rewindVis S, n)
  | _ => none

end Verif.Mir.Uv
