import Verif.Img.Add2Array
/-!
# HEALPix maps: model of `/repo/aipy/healpix.py` 25-53, 188-280

Pixel data are a list; `healpy`'s index arithmetic (which pixel a direction falls in, RING/NEST conversion) is a parameter.
-/
namespace Verif.Sky
open Verif.Img

/-- the value of an assignment: a number or an array -/
inductive Val (V : Type) where
  | scalar (v : V)
  | arr (vs : List V)

/-- `mk_arr(val)`, healpix.py 25-27 -/
def Val.toList {V : Type} : Val V → List V
  | .scalar v => [v]
  | .arr vs => vs

/-- numpy indexing of one axis: `none` is IndexError -/
def npIndex (n : Nat) (x : Int) : Option Nat :=
  if -(n : Int) ≤ x ∧ x < n then some (if x < 0 then x + n else x).toNat else none

/-- a one-dimensional contiguous array -/
def ofList {V : Type} [Zero V] (l : List V) : NdArr V := ⟨[l.length], [1], fun p => l.getD p.toNat 0⟩

/-- the arguments `px.reshape(px.size,1)` and `val` of `add2array`, healpix.py 254-259 -/
def args1 {V : Type} (px : List Int) (vals : List V) : AddArgs V :=
  ⟨2, 1, 1, px.map (fun p => [p]), vals, true, true, true⟩

/-- C++ `bool` under `+=` -/
instance boolAdd : Add Bool := ⟨fun a b => a || b⟩
instance boolZero : Zero Bool := ⟨false⟩
instance boolOr : AddCommMonoid Bool where
  add_assoc := Bool.or_assoc
  zero_add := Bool.false_or
  add_zero := Bool.or_false
  add_comm := Bool.or_comm
  nsmul := nsmulRec

/-- `np.where(cnt, m, self.map)`, healpix.py 260 -/
def whereMap {V : Type} (cnt : Int → Bool) (m : Int → V) (old : List V) : List V :=
  old.zipIdx.map (fun e => if cnt e.2 then m e.2 else e.1)

/-- the branch for several pixels, healpix.py 253-260 -/
def setMany {V : Type} [Add V] [Zero V] (map : List V) (px : List Int) (vals : List V) : Option (List V) :=
  let m := add2array (ofList (map.map (fun _ => (0 : V)))) (args1 px vals)
  let cnt := add2array (ofList (map.map (fun _ => false))) (args1 px (vals.map (fun _ => true)))
  match m.2 with
  | some _ => none
  | none => match cnt.2 with
    | some _ => none
    | none => some (whereMap cnt.1.mem m.1.mem map)

/-- the branch for one pixel, healpix.py 250-252: numpy assignment, an array must have one element -/
def setOne {V : Type} (map : List V) (p : Int) (val : List V) : Option (List V) :=
  match val with
  | [v] => (npIndex map.length p).map (fun i => map.set i v)
  | _ => none

/-- `hpm[px] = val`, healpix.py 238-260; `none` is an exception -/
def setPx {V : Type} [Add V] [Zero V] (map : List V) (px : List Int) (val : Val V) : Option (List V) :=
  match px with
  | [p] => setOne map p val.toList
  | px => setMany map px val.toList

/-- `hpm[px]`, healpix.py 226-237 (no interpolation) -/
def getPx {V : Type} (map : List V) (px : List Int) : Option (List V) :=
  px.mapM (fun p => (npIndex map.length p).bind (fun i => map[i]?))

inductive Scheme | ring | nest
deriving DecidableEq

/-- a map: resolution, ordering, data, interpolation switch -/
structure HMap (V : Type) where
  nside : Nat
  scheme : Scheme
  map : List V
  interp : Bool

/-- `healpy.nest2ring` and `healpy.ring2nest` at every resolution -/
structure Orders where
  n2r : Nat → Nat → Nat
  r2n : Nat → Nat → Nat

def npix (nside : Nat) : Nat := 12 * nside * nside

/-- the table `mode`, healpix.py 41 -/
def convMode (o : Orders) (nside : Nat) : Scheme → Nat → Nat
  | .ring => o.n2r nside
  | .nest => o.r2n nside

/-- `nest_ring_conv`, healpix.py 39-44: the translated pixel numbers; the scheme of the object changes -/
def nestRingConv (o : Orders) (nside : Nat) (cur : Scheme) (px : List Nat) (scheme : Scheme) : List Nat × Scheme :=
  (if scheme ≠ cur then px.map (convMode o nside scheme) else px, scheme)

/-- `change_scheme`, healpix.py 219-225 -/
def changeScheme {V : Type} [Add V] [Zero V] (o : Orders) (h : HMap V) (scheme : Scheme) : Option (HMap V) :=
  if scheme = h.scheme then some h
  else
    let r := nestRingConv o h.nside h.scheme (List.range (npix h.nside)) scheme
    (setPx h.map (r.1.map (fun (k : Nat) => (k : Int))) (.arr h.map)).map (fun m => { h with map := m, scheme := scheme })

/-- how `healpy` reads a map in a direction with interpolation, and where a pixel centre of one map falls in another -/
structure Geometry (V : Type) where
  /-- interpolated value of a map (resolution, ordering, data) at the centre of pixel `px` of another map -/
  interpAt : HMap V → HMap V → Nat → V
  /-- pixel of the first map containing the centre of pixel `px` of the second -/
  locate : HMap V → HMap V → Nat → Nat

/-- `self.from_hpm(hpm)`, healpix.py 261-280: the new `self` and the new `hpm` -/
def fromHpm {V : Type} [Add V] [Zero V] (o : Orders) (g : Geometry V) (self hpm : HMap V) : Option (HMap V × HMap V) :=
  if hpm.nside < self.nside then
    let hpm' := { hpm with interp := true }
    (setPx self.map ((List.range (npix self.nside)).map (fun (k : Nat) => (k : Int)))
      (.arr ((List.range (npix self.nside)).map (fun k => g.interpAt hpm' self k)))).map
      (fun m => ({ self with map := m }, hpm'))
  else if hpm.nside > self.nside then
    (getPx hpm.map ((List.range (npix hpm.nside)).map (fun (k : Nat) => (k : Int)))).bind (fun vals =>
      (setPx self.map ((List.range (npix hpm.nside)).map (fun k => (g.locate self hpm k : Int))) (.arr vals)).map
        (fun m => ({ self with map := m }, hpm)))
  else if hpm.scheme = self.scheme then some ({ self with map := hpm.map }, hpm)
  else
    let r := nestRingConv o self.nside self.scheme (List.range (npix self.nside)) hpm.scheme
    (getPx hpm.map (r.1.map (fun (k : Nat) => (k : Int)))).map (fun m => ({ self with map := m, scheme := r.2 }, hpm))

end Verif.Sky
