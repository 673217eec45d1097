import Verif.Dsp.Dft
import Verif.Deconv.CleanTerm
import Verif.Codes.Model
import Verif.Util.Dict
import Mathlib.Analysis.Real.Sqrt
/-!
# The script `filter_src.py`: model

`/repo/scripts/filter_src.py` transforms the channels of every cross-correlation to delays, sets the delays outside a window
(and, with `-r`, the delay rates outside another) to zero, transforms back, and writes what is left (`-e`) or the data without it.
Real and complex numbers are exact.  The records are those of one file; all have the same number of channels.
-/
noncomputable section
namespace Verif.Dsp
open Verif.Util Verif.Deconv

inductive FErr | type | key | name | index | loop
deriving DecidableEq

/-- a record: preamble, `uv['pol']`, data and flags (true for bad data) -/
structure FRec (n : Nat) where
  time : ℝ
  i : Nat
  j : Nat
  pol : Char × Char
  data : Row n
  flags : Fin (n + 1) → Bool

/-- what `aa.phs2src(d, src, i, j)` does with a record: no source was given; PointingError (the source is below the horizon);
or the data are multiplied with phases (`gen_phs`), which are nowhere zero -/
inductive Sight (n : Nat)
  | nosrc
  | down
  | up (phs : Row n)

/-- the options, and what the calibration and the catalog give -/
structure Env (n : Nat) where
  pols : List (Char × Char)
  drw : Int
  dw : Int
  passband : Bool
  extract : Bool
  tol : ℝ
  /-- `math.ceil(n * .1)`, line 109, in floating point -/
  padlen : Nat → Nat
  /-- the phases of the source for a time, two antennas and a polarisation -/
  sight : ℝ → Nat → Nat → Char × Char → Sight n
  /-- `filters`, lines 55-57; not defined if there is a source -/
  filters : Option (Char × Char → Int → Option (Int × Int))

def Env.of {n : Nat} (e : Env n) (r : FRec n) : Sight n := e.sight r.time r.i r.j r.pol

/-- the keys `pol` and `bl` of `phs_dat`, lines 74 and 84; the two dictionaries are one here -/
abbrev Key := (Char × Char) × Int

def FRec.key {n : Nat} (r : FRec n) : Key := (r.pol, Verif.Codes.ij2bl r.i r.j)

/-- the arguments of `_deconv.clean`, deconv.py 24-25, 39-41, 50-57: the whole array is the area -/
def cleanCfg {n : Nat} (tol : ℝ) (ker : Row n) : Cfg (Fin (n + 1)) ℂ ℝ where
  order := order1 (n + 1)
  ker := ker
  area := fun _ => true
  gain := 1 / 10
  maxiter := 10000
  tol := tol
  stopIfDiv := true
  posDef := false
  mag2 := Complex.normSq
  isPos := fun _ => true
  sqrt := Real.sqrt

/-- `d, info = a.deconv.clean(d, ker, tol=opts.clean); d += info['res'] / gain`, lines 100-101, 118-119 -/
def cleanRow {n : Nat} (tol : ℝ) (gain : ℂ) (ker d : Row n) : Except FErr (Row n) :=
  match cleanPy (cleanCfg tol ker) 10001 d (fun _ => 0) with
  | none => .error .loop
  | some r => .ok fun k => r.mdl k + r.res k / gain

/-- `np.sqrt(np.average(flags**2))`, lines 94, 114 -/
def rmsFlags {n : Nat} (flags : Row n) : ℂ := ((√((∑ k, Complex.normSq (flags k)) / (n + 1)) : ℝ) : ℂ)

open Classical in
/-- lines 94-101: the kernel and the delays of data in which the flagged channels are zero -/
def delays {n : Nat} (tol : ℝ) (flags d : Row n) : Except FErr (Row n) :=
  let ker := ifft flags
  let d := ifft d
  if d = 0 then .ok d else cleanRow tol (rmsFlags flags) ker d

/-- one record of the first pass, lines 86-102.  `flags *= aa.passband(i,j)` (line 93) multiplies an array of real numbers in
place by complex ones, which numpy refuses. -/
def delayRow {n : Nat} (e : Env n) (r : FRec n) : Except FErr (Row n) :=
  let flags : Row n := fun x => if r.flags x then 0 else 1
  match e.of r with
  | .down => .ok 0
  | .nosrc => if e.passband then .error .type else delays e.tol flags (fun x => if r.flags x then 0 else r.data x)
  | .up phs => if e.passband then .error .type else delays e.tol flags (fun x => if r.flags x then 0 else r.data x * phs x)

abbrev Tab (n : Nat) := List (Key × List (Row n))

def isDown {n : Nat} : Sight n → Bool
  | .down => true
  | _ => false

/-- the first pass, lines 73-104: `phs_dat` and `src_up` -/
def pass1 {n : Nat} (e : Env n) : Tab n × Bool → List (FRec n) → Except FErr (Tab n × Bool)
  | s, [] => .ok s
  | s, r :: rs =>
    if r.pol ∈ e.pols ∧ r.i ≠ r.j then do
      let d ← delayRow e r
      pass1 e (dset r.key ((dget r.key s.1).getD [] ++ [d]) s.1, s.2 || !isDown (e.of r)) rs
    else pass1 e s rs

/-- a bound of a slice of an array of size `len` -/
def bound (len : Nat) (i : Int) : Nat := if i < 0 then (i + len).toNat else min i.toNat len

/-- `d[a:b] = 0` -/
def zeroSlice {n : Nat} (a b : Int) (d : Row n) : Row n :=
  fun k => if bound (n + 1) a ≤ k.val ∧ k.val < bound (n + 1) b then 0 else d k

/-- the slice of delays that is set to zero, lines 123-126.  `filters` exists only without a source. -/
def delaySlice {n : Nat} (e : Env n) (k : Key) : Except FErr (Int × Int) :=
  if e.dw ≠ -1 then .ok (e.dw, if -e.dw = 0 then (n : Int) + 1 else -e.dw)
  else match e.filters with
    | none => .error .name
    | some f => match f k.1 k.2 with
      | none => .error .key
      | some s => .ok s

/-- the padding of lines 107-110 -/
def padRows {α : Type} (p : Nat) (l : List α) : List α := (l.take p).reverse ++ l ++ (l.drop (l.length - p)).reverse

/-- `d[padlen:-padlen]`, line 131 -/
def unpad {α : Type} (p : Nat) (l : List α) : List α := if p = 0 then [] else (l.take (l.length - p)).drop p

open Classical in
/-- one column of the delay-rate filter, lines 112-122 and 128: `m + 1` rows, of which the flags are zero where the row has no
delay-zero part.  (If that is so in all rows, the script divides by zero and makes NaNs.) -/
def rateCol {m : Nat} (drw : Int) (tol : ℝ) (zeroth col : Row m) : Except FErr (Row m) :=
  let flags : Row m := fun t => if zeroth t ≠ 0 then 1 else 0
  match cleanRow tol (rmsFlags flags) (ifft flags) (ifft col) with
  | .error x => .error x
  | .ok c => .ok (fft (zeroSlice drw (if -drw + 1 = 0 then (m : Int) + 1 else -drw + 1) c))

/-- run a computation for all indices -/
def forAll {m : Nat} {α : Type} (f : Fin (m + 1) → Except FErr α) : Except FErr (Fin (m + 1) → α) :=
  match (List.finRange (m + 1)).mapM f with
  | .error x => .error x
  | .ok l => if h : l.length = m + 1 then .ok fun k => l[k.val] else .error .index

/-- the delay-rate filter on the rows, if there are any -/
def rateRows {n : Nat} (drw : Int) (tol : ℝ) : List (Row n) → Except FErr (List (Row n))
  | [] => .ok []
  | d :: ds =>
    let rows : Fin (ds.length + 1) → Row n := fun t => (d :: ds)[t.val]
    match forAll (fun c : Fin (n + 1) => rateCol drw tol (fun t => rows t 0) (fun t => rows t c)) with
    | .error x => .error x
    | .ok cols => .ok (List.ofFn fun (t : Fin (ds.length + 1)) (c : Fin (n + 1)) => cols c t)

/-- the rows of one baseline and polarisation, lines 106-132.  The transform over time is taken before the delays are set to
zero; in the script it is the other way round, which is the same since the one acts on the columns by themselves. -/
def filterRows {n : Nat} (e : Env n) (srcUp : Bool) (k : Key) (rows : List (Row n)) : Except FErr (List (Row n)) :=
  if srcUp = false then .ok rows
  else do
    let p := e.padlen rows.length
    let d := padRows p rows
    let d ← if e.drw ≠ -1 then rateRows e.drw e.tol d else .ok d
    let s ← delaySlice e k
    .ok (unpad p (d.map fun row => fft (zeroSlice s.1 s.2 row)))

/-- lines 106-132 for all entries of `phs_dat` -/
def filterTab {n : Nat} (e : Env n) (srcUp : Bool) : Tab n → Except FErr (Tab n)
  | [] => .ok []
  | (k, rows) :: tab => do
    let rows' ← filterRows e srcUp k rows
    let tab' ← filterTab e srcUp tab
    .ok ((k, rows') :: tab')

/-- lines 153-164 once the row of the record is known.  `d - data` of a masked array leaves the masked elements as they were,
and `UV.write` writes what is under the mask. -/
def emit {n : Nat} (e : Env n) (r : FRec n) (row : Row n) : FRec n :=
  let data : Row n := match e.of r with
    | .nosrc => row
    | .down => 0
    | .up phs => fun x => row x / phs x
  if e.extract then { r with data := data }
  else { r with data := fun x => if r.flags x then r.data x else r.data x - data x }

/-- the second pass, lines 134-174, with the counters `cnt` -/
def pass2 {n : Nat} (e : Env n) (tab : Tab n) : List (Key × Nat) → List (FRec n) → Except FErr (List (FRec n))
  | _, [] => .ok []
  | cnt, r :: rs =>
    if r.i = r.j then do
      let out ← pass2 e tab cnt rs
      .ok (r :: out)
    else match dget r.key tab, dget r.key cnt with
      | some rows, some c => match rows[c]? with
        | none => .error .index
        | some row => do
          let out ← pass2 e tab (dset r.key (c + 1) cnt) rs
          .ok (emit e r row :: out)
      | _, _ => .error .key

/-- the script on one file -/
def filterFile {n : Nat} (e : Env n) (recs : List (FRec n)) : Except FErr (List (FRec n)) := do
  let s ← pass1 e ([], false) recs
  let tab ← filterTab e s.2 s.1
  pass2 e tab (tab.map fun x => (x.1, 0)) recs

end Verif.Dsp
