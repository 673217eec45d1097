import Verif.Util.Text
import Verif.Util.Dict
/-!
# get_params / set_params

Model of `/repo/aipy/fit.py` 91-376 and `/repo/aipy/pol.py` 64-131.

Numbers are an arbitrary type `V`.  A parameter dictionary maps names to numbers, lists, or (for the phase
polynomial, whose list object is shared by reference and mutated in place) references into a heap of lists.
The heap also holds the beams, because several antennas may hold the same beam object.
-/
namespace Verif.Fit
open Verif.Util

abbrev Key := List Char

/-- a value in a parameter dictionary -/
inductive PV (V : Type) where
  | num (v : V)
  | vec (vs : List V)
  | ref (r : Nat)
deriving DecidableEq, Repr

abbrev PrmDict (V : Type) := List (Key × PV V)

variable {V : Type}

/-- the common tail of every `get_params`, fit.py 108-113, 156-161, 315-320 etc.: `'*...'` returns everything
(discarding what was collected), other names are copied when present. -/
def selectPrms (aprms : PrmDict V) : List Key → PrmDict V → PrmDict V
  | [], prms => prms
  | p :: ps, prms =>
    if startsWith "*".toList p then aprms
    else match dget p aprms with
      | some v => selectPrms aprms ps (dset p v prms)
      | none => selectPrms aprms ps prms

/-- `try: field = prms[k] except(KeyError): pass` for a number field; a value of another kind is stored as it
is by Python, here it is rejected (`none`). -/
def updNum (k : Key) (prms : PrmDict V) (cur : V) : Option V :=
  match dget k prms with
  | none => some cur
  | some (.num v) => some v
  | some _ => none

/-- the same for a list field -/
def updVec (k : Key) (prms : PrmDict V) (cur : List V) : Option (List V) :=
  match dget k prms with
  | none => some cur
  | some (.vec v) => some v
  | some _ => none

/-! ## Sources -/

/-- the fitable state of `RadioFixedBody` (fit.py 91) -/
structure Src (V : Type) where
  jys : V
  index : V
  ra : V
  dec : V
  a1 : V
  a2 : V
  th : V
  dra : V
  ddec : V
  mfreq : V
deriving DecidableEq, Repr

/-- `RadioFixedBody.get_params`, fit.py 94-113 -/
def Src.getParams (s : Src V) (l : List Key) : PrmDict V :=
  selectPrms [("jys".toList, .num s.jys), ("index".toList, .num s.index), ("ra".toList, .num s.ra),
    ("dec".toList, .num s.dec), ("a1".toList, .num s.a1), ("a2".toList, .num s.a2), ("th".toList, .num s.th),
    ("dra".toList, .num s.dra), ("ddec".toList, .num s.ddec), ("mfreq".toList, .num s.mfreq)] l []

/-- `RadioFixedBody.set_params`, fit.py 114-133 -/
def Src.setParams (s : Src V) (p : PrmDict V) : Option (Src V) := do
  let jys ← updNum "jys".toList p s.jys
  let index ← updNum "index".toList p s.index
  let ra ← updNum "ra".toList p s.ra
  let dec ← updNum "dec".toList p s.dec
  let a1 ← updNum "a1".toList p s.a1
  let a2 ← updNum "a2".toList p s.a2
  let th ← updNum "th".toList p s.th
  let dra ← updNum "dra".toList p s.dra
  let ddec ← updNum "ddec".toList p s.ddec
  some ⟨jys, index, ra, dec, a1, a2, th, dra, ddec, s.mfreq⟩

/-- `RadioSpecial.get_params`, fit.py 145-161 (no position, no `mfreq`) -/
def Src.getParamsSpecial (s : Src V) (l : List Key) : PrmDict V :=
  selectPrms [("jys".toList, .num s.jys), ("index".toList, .num s.index),
    ("a1".toList, .num s.a1), ("a2".toList, .num s.a2), ("th".toList, .num s.th),
    ("dra".toList, .num s.dra), ("ddec".toList, .num s.ddec)] l []

/-- `RadioSpecial.set_params`, fit.py 162-177 -/
def Src.setParamsSpecial (s : Src V) (p : PrmDict V) : Option (Src V) := do
  let jys ← updNum "jys".toList p s.jys
  let index ← updNum "index".toList p s.index
  let a1 ← updNum "a1".toList p s.a1
  let a2 ← updNum "a2".toList p s.a2
  let th ← updNum "th".toList p s.th
  let dra ← updNum "dra".toList p s.dra
  let ddec ← updNum "ddec".toList p s.ddec
  some ⟨jys, index, s.ra, s.dec, a1, a2, th, dra, ddec, s.mfreq⟩

/-- `SrcCatalog.set_params`, fit.py 201-205: unknown sources are skipped -/
def catSetParams (cat : List (Key × Src V)) : List (Key × PrmDict V) → Option (List (Key × Src V))
  | [] => some cat
  | (s, p) :: rest =>
    match dget s cat with
    | none => catSetParams cat rest
    | some src => match src.setParams p with
      | none => none
      | some src' => catSetParams (dset s src' cat) rest

/-- `SrcCatalog.get_params({'*': '*'})`, fit.py 189-200 -/
def catGetParams (cat : List (Key × Src V)) : List (Key × PrmDict V) :=
  cat.map (fun e => (e.1, e.2.getParams ["*".toList]))

/-! ## Beams -/

/-- the fitable state of a beam: `Beam`, `Beam2DGaussian`, `BeamPolynomial` (the matrix row by row) and
`BeamAlm` (one list of complex coefficients per polynomial order) -/
inductive Beam (V : Type) where
  | flat
  | gauss (xw yw : V)
  | poly (rows cols : Nat) (data : List V)
  | alm (cs : List (List (V × V)))
deriving DecidableEq, Repr

/-- `np.array([data.real, data.imag]).transpose().flatten()`, fit.py 276 -/
def interleave (l : List (V × V)) : List V := l.flatMap (fun c => [c.1, c.2])

/-- `data.shape = (data.size//2, 2)` and recombination, fit.py 291-292; an odd size raises -/
def deinterleave : List V → Option (List (V × V))
  | [] => some []
  | [_] => none
  | a :: b :: l => (deinterleave l).map (fun r => (a, b) :: r)

/-- `aprms` of the beams' `get_params`, fit.py 216, 225, 247, 272-276 -/
def Beam.aprms : Beam V → PrmDict V
  | .flat => []
  | .gauss xw yw => [("bm_xwidth".toList, .num xw), ("bm_ywidth".toList, .num yw)]
  | .poly _ _ data => [("bm_poly".toList, .vec data)]
  | .alm cs => cs.zipIdx.map (fun c => ("alm".toList ++ printNat c.2, .vec (interleave c.1)))

/-- `get_params`; for `BeamAlm` (fit.py 277-282) the loop goes on after `'*'`, which returns the same -/
def Beam.getParams (b : Beam V) (l : List Key) : PrmDict V := selectPrms b.aprms l []

/-- one iteration of `BeamAlm.set_params`, fit.py 286-293.  `self.alm[-1-c]` counts from the end; a wrong
size makes `Alm.set_data` raise (healpix.py 185). -/
def almSet1 (cs : List (List (V × V))) (e : Key × PV V) : Option (List (List (V × V))) :=
  if startsWith "alm".toList e.1 then
    match e.2 with
    | .vec data => do
      let d ← deinterleave data
      let c ← parseInt (e.1.drop 3)
      if c < cs.length then
        let i : Int := if -1 - c < 0 then cs.length + (-1 - c) else -1 - c
        match cs[i.toNat]? with
        | none => none
        | some old => if d.length = old.length then some (cs.set i.toNat d) else none
      else some cs
    | _ => none
  else some cs

/-- `set_params` of the beams, fit.py 217-218, 232-240, 254-264, 283-295 -/
def Beam.setParams (b : Beam V) (p : PrmDict V) : Option (Beam V) :=
  match b with
  | .flat => some .flat
  | .gauss xw yw => do
    let xw' ← updNum "bm_xwidth".toList p xw
    let yw' ← updNum "bm_ywidth".toList p yw
    some (.gauss xw' yw')
  | .poly r c data => do
    let data' ← updVec "bm_poly".toList p data
    if data'.length = r * c then some (.poly r c data') else none
  | .alm cs => (p.foldlM almSet1 cs).map .alm

/-! ## Antennas -/

/-- objects shared by reference -/
structure Heap (V : Type) where
  phs : Nat → List V
  beams : Nat → Beam V

/-- `fit.Antenna`: position (an array of its own), references to its beam and to its phase polynomial,
passband polynomials and amplitude -/
structure Ant (V : Type) where
  x : V
  y : V
  z : V
  beam : Nat
  phs : Nat
  bpr : List V
  bpi : List V
  amp : V

/-- `l[-k]` for `k = 1, 2` -/
def fromEnd (l : List V) (k : Nat) : Option V := if k ≤ l.length then l[l.length - k]? else none

/-- `l[-k] = v` : IndexError when the list is too short -/
def setFromEnd (l : List V) (k : Nat) (v : V) : Option (List V) :=
  if k ≤ l.length then some (l.set (l.length - k) v) else none

/-- `Antenna.get_params`, fit.py 306-320; `dly`, `off` raise IndexError on a short polynomial -/
def Ant.getParams (h : Heap V) (a : Ant V) (l : List Key) : Option (PrmDict V) := do
  let dly ← fromEnd (h.phs a.phs) 2
  let off ← fromEnd (h.phs a.phs) 1
  some (selectPrms
    (((h.beams a.beam).getParams l).foldl (fun d e => dset e.1 e.2 d)
      [("x".toList, .num a.x), ("y".toList, .num a.y), ("z".toList, .num a.z),
       ("dly".toList, .num dly), ("off".toList, .num off), ("phsoff".toList, .ref a.phs),
       ("bp_r".toList, .vec a.bpr), ("bp_i".toList, .vec a.bpi), ("amp".toList, .num a.amp)]) l [])

/-- `try: self._phsoff[-k] = prms[name]`, fit.py 331-334: writes into the list object -/
def setPhsElem (h : Heap V) (r k : Nat) (name : Key) (p : PrmDict V) : Option (Heap V) :=
  match dget name p with
  | none => some h
  | some (.num v) => (setFromEnd (h.phs r) k v).map (fun l =>
      { h with phs := fun q => if q = r then l else h.phs q })
  | some _ => none

/-- `try: self._phsoff = prms['phsoff']`, fit.py 335-336: rebinds the reference -/
def setPhsRef (a : Ant V) (p : PrmDict V) : Option Nat :=
  match dget "phsoff".toList p with
  | none => some a.phs
  | some (.ref r) => some r
  | some _ => none

/-- `self.beam.set_params(prms)` -/
def setBeam (h : Heap V) (b : Nat) (p : PrmDict V) : Option (Heap V) :=
  ((h.beams b).setParams p).map (fun bm => { h with beams := fun q => if q = b then bm else h.beams q })

/-- `Antenna.set_params`, fit.py 321-344.  The derived quantities recomputed by `update()` are not stored. -/
def Ant.setParams (h : Heap V) (a : Ant V) (p : PrmDict V) : Option (Heap V × Ant V) := do
  let h ← setBeam h a.beam p
  let x ← updNum "x".toList p a.x
  let y ← updNum "y".toList p a.y
  let z ← updNum "z".toList p a.z
  let h ← setPhsElem h a.phs 2 "dly".toList p
  let h ← setPhsElem h a.phs 1 "off".toList p
  let phs ← setPhsRef a p
  let bpr ← updVec "bp_r".toList p a.bpr
  let bpi ← updVec "bp_i".toList p a.bpi
  let amp ← updNum "amp".toList p a.amp
  some (h, ⟨x, y, z, a.beam, phs, bpr, bpi, amp⟩)

/-- `try: changed |= a.set_params(prms[str(i)])`, fit.py 373-374: antennas not named are skipped -/
def antStep (h : Heap V) (a : Ant V) : Option (PrmDict V) → Option (Heap V × Ant V)
  | none => some (h, a)
  | some p => a.setParams h p

/-- the loop of `AntennaArray.set_params`, fit.py 369-376, from antenna number `i` on -/
def arrSetParams (prms : List (Key × PrmDict V)) : Nat → Heap V → List (Ant V) → Option (Heap V × List (Ant V))
  | _, h, [] => some (h, [])
  | i, h, a :: as => do
    let (h1, a1) ← antStep h a (dget (printNat i) prms)
    let (h2, as2) ← arrSetParams prms (i + 1) h1 as
    some (h2, a1 :: as2)

/-- `Antenna(x, y, z, beam)` with all other arguments defaulted, phs.py 189-198, amp.py 230-244: the default
`phsoff=[0.,0.]` is one list object (reference 0 here) evaluated once and shared by every call. -/
def mkDefaultAnt (zero one x y z : V) (beam : Nat) : Ant V := ⟨x, y, z, beam, 0, [one], [zero], one⟩

/-! ## Dual polarisation antennas -/

/-- per polarisation state of `pol.Antenna`; the lists are taken by value (aliasing is not modelled here) -/
structure PolState (V : Type) where
  phs : List V
  bpr : List V
  bpi : List V
  amp : V
deriving DecidableEq, Repr

structure PolAnt (V : Type) where
  x : V
  y : V
  z : V
  pols : List (Key × PolState V)

/-- the entries for one polarisation, pol.py 93-100 -/
def polEntries (e : Key × PolState V) : Option (PrmDict V) := do
  let dly ← fromEnd e.2.phs 2
  let off ← fromEnd e.2.phs 1
  some [("dly_".toList ++ e.1, .num dly), ("off_".toList ++ e.1, .num off),
    ("phsoff_".toList ++ e.1, .vec e.2.phs), ("bp_r_".toList ++ e.1, .vec e.2.bpr),
    ("bp_i_".toList ++ e.1, .vec e.2.bpi), ("amp_".toList ++ e.1, .num e.2.amp)]

/-- `pol.Antenna.get_params(['*'])`, pol.py 88-106 (beam parameters left out) -/
def PolAnt.getAll (a : PolAnt V) : Option (PrmDict V) := do
  let es ← a.pols.mapM polEntries
  some (es.flatten.foldl (fun d e => dset e.1 e.2 d)
    [("x".toList, .num a.x), ("y".toList, .num a.y), ("z".toList, .num a.z)])

/-- `try: l[-k] = prms[name]` on a list -/
def updElem (k : Nat) (name : Key) (p : PrmDict V) (l : List V) : Option (List V) :=
  match dget name p with
  | none => some l
  | some (.num v) => setFromEnd l k v
  | some _ => none

/-- one iteration over polarisations of `pol.Antenna.set_params`, pol.py 117-129; note `'bp_i'+p` -/
def polSet1 (p : PrmDict V) (e : Key × PolState V) : Option (Key × PolState V) := do
  let l1 ← updElem 2 ("dly_".toList ++ e.1) p e.2.phs
  let l2 ← updElem 1 ("off_".toList ++ e.1) p l1
  let l3 ← updVec ("phsoff_".toList ++ e.1) p l2
  let bpr ← updVec ("bp_r_".toList ++ e.1) p e.2.bpr
  let bpi ← updVec ("bp_i".toList ++ e.1) p e.2.bpi
  let amp ← updNum ("amp_".toList ++ e.1) p e.2.amp
  some (e.1, ⟨l3, bpr, bpi, amp⟩)

/-- `pol.Antenna.set_params`, pol.py 107-131 (beam left out) -/
def PolAnt.setParams (a : PolAnt V) (p : PrmDict V) : Option (PolAnt V) := do
  let x ← updNum "x".toList p a.x
  let y ← updNum "y".toList p a.y
  let z ← updNum "z".toList p a.z
  let pols ← a.pols.mapM (polSet1 p)
  some ⟨x, y, z, pols⟩

end Verif.Fit
