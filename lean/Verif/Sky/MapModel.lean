import Verif.Sky.HealpixModel
import Mathlib.Algebra.Order.Field.Basic
import Mathlib.Algebra.Order.Floor.Defs
/-!
# Weighted sky maps: model of `Map` in `/repo/aipy/map.py` 70-119

Exact arithmetic over a field instead of doubles.  Coordinates are pixel numbers (a tuple of angles is translated to pixel
numbers first, healpix.py 219-224).  Weights, fluxes and indices are arrays as long as the list of pixels; numpy's broadcasting
of scalars is not modelled.  The parameter `strict` is numpy's refusal (1.10 and later) to add a float array to an int array
in place.
-/
namespace Verif.Sky
open Verif.Img

/-- weight, weight*flux and weight*index maps; `wgtInt`: the weight map has become an int array -/
structure WMap (F : Type) where
  wgt : List F
  map : List F
  ind : List (List F)
  wgtInt : Bool
deriving DecidableEq

variable {F : Type} [Field F] [LinearOrder F] [FloorRing F]

/-- an array operation on two arrays of one length -/
def zipArr (f : F → F → F) (a b : List F) : Option (List F) := if a.length = b.length then some (List.zipWith f a b) else none

/-- `hpm[px] += vals`: read, add, write back, map.py 102-104 -/
def incr (l : List F) (px : List Int) (vals : List F) : Option (List F) := do
  let old ← getPx l px
  let new ← zipArr (· + ·) old vals
  setPx l px (.arr new)

/-- `for n,i in enumerate(inds): self.ind[n][crds] += i * wgts`, map.py 104 -/
def incrInds (px : List Int) (wgts : List F) : List (List F) → List (List F) → Option (List (List F))
  | ind, [] => some ind
  | [], _ :: _ => none
  | d :: ind, i :: inds => do
    let v ← zipArr (· * ·) i wgts
    let d' ← incr d px v
    let r ← incrInds px wgts ind inds
    some (d' :: r)

/-- `Map.add(crds, wgts, fluxes, inds)`, map.py 101-104, for float weights -/
def WMap.add (strict : Bool) (m : WMap F) (px : List Int) (wgts fluxes : List F) (inds : List (List F)) : Option (WMap F) := do
  if strict && m.wgtInt then none else
  let wgt ← incr m.wgt px wgts
  let v ← zipArr (· * ·) fluxes wgts
  let map ← incr m.map px v
  let ind ← incrInds px wgts m.ind inds
  some { m with wgt := wgt, map := map, ind := ind }

/-- `for n,i in enumerate(inds): self.ind[n][crds] = i * wgts`, map.py 108 -/
def putInds (px : List Int) (wgts : List F) : List (List F) → List (List F) → Option (List (List F))
  | ind, [] => some ind
  | [], _ :: _ => none
  | d :: ind, i :: inds => do
    let v ← zipArr (· * ·) i wgts
    let d' ← setPx d px (.arr v)
    let r ← putInds px wgts ind inds
    some (d' :: r)

/-- storing a float in an int array -/
def truncTo (isInt : Bool) (x : F) : F := if isInt then (if 0 ≤ x then ((⌊x⌋ : Int) : F) else ((-⌊-x⌋ : Int) : F)) else x

/-- `Map.put(crds, wgts, fluxes, inds)`, map.py 105-108 -/
def WMap.put (m : WMap F) (px : List Int) (wgts fluxes : List F) (inds : List (List F)) : Option (WMap F) := do
  let wgt ← setPx m.wgt px (.arr (wgts.map (truncTo m.wgtInt)))
  let v ← zipArr (· * ·) fluxes wgts
  let map ← setPx m.map px (.arr v)
  let ind ← putInds px wgts m.ind inds
  some { m with wgt := wgt, map := map, ind := ind }

/-- `np.where(w > 0, w, 1)`, map.py 96, 110 -/
def posOr1 (w : F) : F := if 0 < w then w else 1

/-- `Map.__getitem__`: fluxes and indices, map.py 93-100 -/
def WMap.get (m : WMap F) (px : List Int) : Option (List F × List (List F)) := do
  let w ← getPx m.wgt px
  let f ← getPx m.map px
  let d ← m.ind.mapM (fun d => getPx d px)
  some (List.zipWith (fun x y => x / posOr1 y) f w, d.map (fun i => List.zipWith (fun x y => x / posOr1 y) i w))

/-- `Map.reset_wgt(wgt)`, map.py 109-113; the given weight is an int unless said otherwise, `np.where` makes an int array -/
def WMap.resetWgt (m : WMap F) (c : F) (cInt : Bool) : WMap F where
  wgt := m.wgt.map (fun w => if 0 < w then c else 0)
  map := List.zipWith (fun x w => x / posOr1 w) m.map m.wgt
  ind := m.ind.map (fun d => List.zipWith (fun x w => x / posOr1 w) d m.wgt)
  wgtInt := cInt

/-- a sequence of `add` calls -/
def WMap.addAll (strict : Bool) (m : WMap F) : List (List Int × List F × List F × List (List F)) → Option (WMap F)
  | [] => some m
  | (px, w, f, i) :: rest => (m.add strict px w f i).bind (fun m' => m'.addAll strict rest)

end Verif.Sky
