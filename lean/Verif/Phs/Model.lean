import Verif.Coord.Model
import Mathlib.Analysis.SpecialFunctions.Complex.Circle
/-!
# Array geometry and phases: model of `/repo/aipy/phs.py` 189-400

Exact real and complex arithmetic.  One source at a time (the arrays over sources act row by row).  All antennas are
taken to share the active frequencies of antenna 0, which is what `get_afreqs` assumes.  `phsoff` is kept as the
polynomial and evaluated at use; that the evaluated copy is up to date is property C60.
-/
noncomputable section
namespace Verif.Phs
open Verif.Coord Real

/-- exceptions; `nonfinite` stands for the inf/nan numpy produces on division by a zero frequency -/
inductive Err | index | attr | value | pointing | nonfinite | broadcast
deriving DecidableEq

/-- `Antenna`, phs.py 189-199: position and phase polynomial (highest power first) -/
structure Ant where
  pos : Vec
  phsoff : List ℝ

/-- `AntennaArray` with the parts of the observer used here: latitude, current sidereal time, and whether a time
has been set (`_eq2now` exists only then) -/
structure Arr where
  ants : List Ant
  afreqs : List ℝ
  lat : ℝ
  lst : ℝ
  timeSet : Bool

/-- the `src` argument: a string, a `RadioBody` (altitude, projection map, ionospheric shift, shape), or a vector -/
inductive Src
  | str (s : String)
  | body (alt : ℝ) (map : Mat) (ionref : ℝ × ℝ) (shape : ℝ × ℝ × ℝ)
  | vec (v : Vec)

/-- `RadioBody.compute`, phs.py 49-53: the projection map for an observer at sidereal time `lst` -/
def bodyMap (lst ra dec : ℝ) : Mat := eq2top_m (lst - ra) dec

/-- `_eq2zen`, phs.py 231-232 -/
def eq2zen (a : Arr) : Mat := eq2top_m 0 a.lat

/-- `_eq2now`, phs.py 247 -/
def eq2now (a : Arr) : Mat := rot_m (-a.lst) ![0, 0, 1]

/-- `self[i]`; negative (from the end) indices are not modelled -/
def getAnt (a : Arr) (i : Nat) : Except Err Ant :=
  match a.ants[i]? with
  | none => .error .index
  | some x => .ok x

/-- the projections named by a string, phs.py 309-313 -/
def strProj (a : Arr) (s : String) : Except Err (Option Mat) :=
  if s = "e" then if a.timeSet then .ok (some (eq2now a)) else .error .attr
  else if s = "z" then .ok (some (eq2zen a))
  else if s = "r" then .ok none
  else .error .value

/-- the projection of a `RadioBody`, phs.py 314-317 -/
def bodyProj (alt : ℝ) (m : Mat) : Except Err (Option Mat) := if alt < 0 then .error .pointing else .ok (some m)

/-- the projection chosen by `get_baseline`, phs.py 309-320; `none` is the identity of `src='r'` -/
def projection (a : Arr) : Src → Except Err (Option Mat)
  | .str s => strProj a s
  | .body alt m _ _ => bodyProj alt m
  | .vec v => .ok (some (eq2top_m (a.lst - (eq2radec v).1) (eq2radec v).2))

def applyProj : Option Mat → Vec → Vec
  | none, b => b
  | some m, b => m.mulVec b

/-- `AntennaArray.get_baseline`, phs.py 303-321 -/
def getBaseline (a : Arr) (i j : Nat) (src : Src) : Except Err Vec := do
  let aj ← getAnt a j
  let ai ← getAnt a i
  let p ← projection a src
  return applyProj p (aj.pos - ai.pos)

/-- `np.polyval` (Horner) -/
def polyval (p : List ℝ) (x : ℝ) : ℝ := p.foldl (fun acc c => acc * x + c) 0

/-- `AntennaArray.get_phs_offset`, phs.py 322-324, one value per active frequency -/
def getPhsOffset (a : Arr) (i j : Nat) : Except Err (List ℝ) := do
  let aj ← getAnt a j
  let ai ← getAnt a i
  return a.afreqs.map (fun f => polyval aj.phsoff f - polyval ai.phsoff f)

/-- `AntennaArray.gen_uvw`, phs.py 325-338, at one frequency -/
def uvwAt (b : Vec) (f : ℝ) : ℝ × ℝ × ℝ := (b 0 * f, b 1 * f, b 2 * f)

/-- `refract`, phs.py 372-392, at one frequency -/
def refractAt (u v mfreq : ℝ) (ion : ℝ × ℝ) (f : ℝ) : ℝ := (ion.1 * u + ion.2 * v) * mfreq ^ 2 / f ^ 2

/-- `np.where(x == 0, 1, 2 * j1(x)/x)`, phs.py 371; `J1` is scipy's Bessel function -/
def airy (J1 : ℝ → ℝ) (x : ℝ) : ℝ := if x = 0 then 1 else 2 * J1 x / x

/-- `resolve_src`, phs.py 356-371, at one frequency -/
def resolveAt (J1 : ℝ → ℝ) (u v : ℝ) (shape : ℝ × ℝ × ℝ) : ℝ :=
  let (a1, a2, th) := shape
  let ru := a1 * (u * cos th - v * sin th)
  let rv := a2 * (u * sin th + v * cos th)
  airy J1 (2 * π * sqrt (ru ^ 2 + rv ^ 2))

/-- `w` with the ionospheric correction -/
def wAt (b : Vec) (f mfreq : ℝ) : Option (ℝ × ℝ) → ℝ
  | none => (uvwAt b f).2.2
  | some ion => (uvwAt b f).2.2 + refractAt (uvwAt b f).1 (uvwAt b f).2.1 mfreq ion f

/-- `np.exp(-1j*2*np.pi*(w + o))` -/
def expPhs (w o : ℝ) : ℂ := Complex.exp (-Complex.I * 2 * π * (w + o))

/-- `ionref`/`srcshape` taken from the source when not given, phs.py 342-344, 351-353 -/
def Src.ionref : Src → Option (ℝ × ℝ)
  | .body _ _ ion _ => some ion
  | _ => none

def Src.shape : Src → Option (ℝ × ℝ × ℝ)
  | .body _ _ _ sh => some sh
  | _ => none

/-- the amplitude factor: 1 unless a shape is resolved -/
def ampAt (J1 : ℝ → ℝ) (b : Vec) (f : ℝ) : Option (ℝ × ℝ × ℝ) → ℝ
  | none => 1
  | some sh => resolveAt J1 (uvwAt b f).1 (uvwAt b f).2.1 sh

/-- `AntennaArray.gen_phs`, phs.py 339-355, given the offsets of the baseline -/
def genPhsWith (J1 : ℝ → ℝ) (offs : Except Err (List ℝ)) (a : Arr) (src : Src) (i j : Nat) (mfreq : ℝ)
    (ionref : Option (ℝ × ℝ)) (srcshape : Option (ℝ × ℝ × ℝ)) (resolve : Bool) : Except Err (List ℂ) := do
  let ion := ionref.or src.ionref
  let b ← getBaseline a i j src
  if ion.isSome ∧ (0 : ℝ) ∈ a.afreqs then .error .nonfinite else
  let o ← offs
  let sh := if resolve then srcshape.or src.shape else none
  return List.zipWith (fun f o => expPhs (wAt b f mfreq ion) o * (ampAt J1 b f sh : ℂ)) a.afreqs o

/-- `AntennaArray.gen_phs` of `phs`/`amp`/`fit` arrays -/
def genPhs (J1 : ℝ → ℝ) (a : Arr) (src : Src) (i j : Nat) (mfreq : ℝ) (ionref : Option (ℝ × ℝ))
    (srcshape : Option (ℝ × ℝ × ℝ)) (resolve : Bool) : Except Err (List ℂ) :=
  genPhsWith J1 (getPhsOffset a i j) a src i j mfreq ionref srcshape resolve

/-- numpy broadcasting of two one-dimensional arrays (`squeeze` turns one channel into a scalar) -/
def bcast (f : ℂ → ℂ → ℂ) (x y : List ℂ) : Except Err (List ℂ) :=
  if x.length = y.length then .ok (List.zipWith f x y)
  else match y with
    | [c] => .ok (x.map (fun d => f d c))
    | _ => match x with
      | [d] => .ok (y.map (fun c => f d c))
      | _ => .error .broadcast

/-- `phs2src`, phs.py 393-396 -/
def phs2src (J1 : ℝ → ℝ) (a : Arr) (data : List ℂ) (src : Src) (i j : Nat) (mfreq : ℝ) (ionref : Option (ℝ × ℝ))
    (srcshape : Option (ℝ × ℝ × ℝ)) : Except Err (List ℂ) := do
  let p ← genPhs J1 a src i j mfreq ionref srcshape false
  bcast (· * ·) data p

/-- `unphs2src`, phs.py 397-400 -/
def unphs2src (J1 : ℝ → ℝ) (a : Arr) (data : List ℂ) (src : Src) (i j : Nat) (mfreq : ℝ) (ionref : Option (ℝ × ℝ))
    (srcshape : Option (ℝ × ℝ × ℝ)) : Except Err (List ℂ) := do
  let p ← genPhs J1 a src i j mfreq ionref srcshape false
  bcast (· / ·) data p

end Verif.Phs
