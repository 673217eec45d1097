import Verif.Phs.Model
/-!
# Visibility simulation: model of `/repo/aipy/amp.py` 222-381 and the polarised parts of `/repo/aipy/pol.py` 64-160

One antenna type covers both modules: passband, amplitude, phase polynomial and beam are functions of the feed
('x' or 'y'); in `amp`/`fit` all but the beam ignore the feed.  Beam responses are arbitrary complex functions of the
topocentric direction and the frequency.  Fluxes are functions of frequency (as `RadioBody.update_jys` makes them).
-/
noncomputable section
namespace Verif.Amp
open Verif.Coord Verif.Phs Real

/-- `amp.Antenna` / `pol.Antenna` -/
structure SAnt where
  pos : Vec
  phsoff : Char → List ℝ
  bp_r : Char → List ℝ
  bp_i : Char → List ℝ
  amp : Char → ℝ
  beam : Char → Vec → ℝ → ℂ

/-- the array; `polGain` says that passbands and offsets need an active polarisation (`pol.AntennaArray`) -/
structure SArr where
  ants : List SAnt
  afreqs : List ℝ
  lat : ℝ
  J1 : ℝ → ℝ
  polGain : Bool

/-- one row of the arrays given to `sim_cache` -/
structure Row where
  eq : Vec
  jys : ℝ → ℝ
  mfreq : ℝ
  ion : ℝ × ℝ
  shape : ℝ × ℝ × ℝ

inductive SErr | phs (e : Err) | runtime | attr
deriving DecidableEq

/-- `_update_gain`, amp.py 241-244, pol.py 71-76 -/
def SAnt.gain (a : SAnt) (p : Char) (f : ℝ) : ℂ :=
  (a.amp p : ℂ) * ((polyval (a.bp_r p) f : ℂ) + Complex.I * (polyval (a.bp_i p) f : ℂ))

/-- `AntennaArray.passband`, amp.py 296-298, pol.py 157-159 -/
def passbandAt (ai aj : SAnt) (pol : Char × Char) (f : ℝ) : ℂ :=
  aj.gain pol.2 f * (starRingEnd ℂ) (ai.gain pol.1 f)

/-- `get_phs_offset`, phs.py 322-324, pol.py 144-147 (linear polarisations) -/
def offsetAt (ai aj : SAnt) (pol : Char × Char) (f : ℝ) : ℝ :=
  polyval (aj.phsoff pol.2) f - polyval (ai.phsoff pol.1) f

/-- `gen_phs(..., resolve_src=True)` for one source and one frequency, phs.py 339-355, with the baseline projected
towards the source (phs.py 318-321) -/
def phsAt (J1 : ℝ → ℝ) (lst : ℝ) (ai aj : SAnt) (pol : Char × Char) (r : Row) (f : ℝ) : ℂ :=
  let m := eq2top_m (lst - (eq2radec r.eq).1) (eq2radec r.eq).2
  let b := m.mulVec (aj.pos - ai.pos)
  expPhs (wAt b f r.mfreq (some r.ion)) (offsetAt ai aj pol f) * (ampAt J1 b f (some r.shape) : ℂ)

/-- one term of the sum `Gij_sf * Bij_sf * I_sf * E_sf`, amp.py 373-379; `bi`, `bj` are the cached responses -/
def termAt (J1 : ℝ → ℝ) (lst : ℝ) (ai aj : SAnt) (pol : Char × Char) (r : Row) (bi bj : ℝ → ℂ) (f : ℝ) : ℂ :=
  passbandAt ai aj pol f * (bj f * (starRingEnd ℂ) (bi f)) * (r.jys f : ℂ) *
    (starRingEnd ℂ) (phsAt J1 lst ai aj pol r f)

/-- the contents of `self._cache`: attribute missing, `None`, `{}`, or the dictionary with sources, their
topocentric positions, and the beam responses cached per antenna and feed -/
inductive Cache
  | missing
  | cleared
  | empty
  | full (rows : List Row) (tops : List Vec) (beams : List ((Nat × Char) × List (ℝ → ℂ)))

structure St where
  lst : ℝ
  eq2top : Option Mat
  pol : Option (Char × Char)
  cache : Cache

/-- a new array -/
def St.init (lst : ℝ) : St := ⟨lst, none, none, .missing⟩

/-- `set_jultime`, amp.py 291-295; the argument is the sidereal time of the new date -/
def setJultime (a : SArr) (s : St) (lst : ℝ) : St :=
  { s with lst := lst, eq2top := some (eq2top_m (-lst) a.lat), cache := .cleared }

/-- `set_ephemtime`, phs.py 242-247 (not overridden in amp.py) -/
def setEphemtime (s : St) (lst : ℝ) : St := { s with lst := lst }

/-- `src_top[2,:] > 0`, amp.py 326-328 -/
def isUp (m : Mat) (r : Row) : Prop := 0 < (m.mulVec r.eq) 2

open Classical in
/-- `sim_cache`, amp.py 312-357 -/
def simCache (s : St) (rows : List Row) : Except SErr St :=
  match s.eq2top with
  | none => .error .attr
  | some m =>
    let rows' := rows.filter (fun r => decide (isUp m r))
    if rows' = [] then .ok { s with cache := .empty }
    else .ok { s with cache := .full rows' (rows'.map (fun r => m.mulVec r.eq)) [] }

/-- the beam cache of one antenna and feed, filled if necessary, amp.py 305-310 -/
def fill (tops : List Vec) (beams : List ((Nat × Char) × List (ℝ → ℂ))) (c : Nat) (p : Char) (ant : SAnt) :
    List ((Nat × Char) × List (ℝ → ℂ)) :=
  match beams.lookup (c, p) with
  | some _ => beams
  | none => ((c, p), tops.map (fun t => ant.beam p t)) :: beams

/-- the sum over sources, amp.py 379-380 -/
def sumAt (J1 : ℝ → ℝ) (lst : ℝ) (ai aj : SAnt) (pol : Char × Char) (f : ℝ) :
    List Row → List (ℝ → ℂ) → List (ℝ → ℂ) → ℂ
  | r :: rs, bi :: bis, bj :: bjs => termAt J1 lst ai aj pol r bi bj f + sumAt J1 lst ai aj pol f rs bis bjs
  | _, _, _ => 0

def getSAnt (a : SArr) (i : Nat) : Except SErr SAnt :=
  match a.ants[i]? with
  | none => .error (.phs .index)
  | some x => .ok x

/-- the branch of `sim` with sources above the horizon, amp.py 366-381.  `resolve_src` squeezes its result (phs.py 371): with
one active channel and several sources `phs *= ...` (phs.py 354) has the shapes (s,1) and (s,), which raises. -/
def simFull (a : SArr) (s : St) (i j : Nat) (rows : List Row) (tops : List Vec)
    (beams : List ((Nat × Char) × List (ℝ → ℂ))) : Except SErr (St × List ℂ) := do
  let aj ← getSAnt a j
  let ai ← getSAnt a i
  match s.pol with
  | none => .error .runtime
  | some pol =>
    let b1 := fill tops beams i pol.1 ai
    let b2 := fill tops b1 j pol.2 aj
    let ri := (b2.lookup (i, pol.1)).getD []
    let rj := (b2.lookup (j, pol.2)).getD []
    let s' : St := { s with cache := .full rows tops b2 }
    if (0 : ℝ) ∈ a.afreqs then .error (.phs .nonfinite) else
    if a.afreqs.length = 1 ∧ 1 < rows.length then .error (.phs .broadcast) else
    .ok (s', a.afreqs.map (fun f => sumAt a.J1 s.lst ai aj pol f rows ri rj))

/-- the branch with an empty cache: `np.zeros_like(self.passband(i,j))`, amp.py 364-365 -/
def simEmpty (a : SArr) (s : St) (i j : Nat) : Except SErr (St × List ℂ) := do
  if a.polGain ∧ s.pol = none then .error .runtime else
  let _ ← getSAnt a j
  let _ ← getSAnt a i
  .ok (s, a.afreqs.map (fun _ => (0 : ℂ)))

/-- `sim`, amp.py 358-381 -/
def sim (a : SArr) (s : St) (i j : Nat) : Except SErr (St × List ℂ) :=
  match s.cache with
  | .missing => .error .attr
  | .cleared => .error .runtime
  | .empty => simEmpty a s i j
  | .full rows tops beams => simFull a s i j rows tops beams

/-- calls on the array -/
inductive Op
  | setJultime (lst : ℝ)
  | setEphemtime (lst : ℝ)
  | setPol (p : Char × Char)
  | simCache (rows : List Row)
  | sim (i j : Nat)

/-- one call; a call that raises leaves the state as it was (the beam responses it may have cached are those any later
call would cache, and nothing else is modified before an exception) -/
def step (a : SArr) (s : St) : Op → St
  | .setJultime lst => setJultime a s lst
  | .setEphemtime lst => setEphemtime s lst
  | .setPol p => { s with pol := some p }
  | .simCache rows => match simCache s rows with
    | .ok s' => s'
    | .error _ => s
  | .sim i j => match sim a s i j with
    | .ok r => r.1
    | .error _ => s

def run (a : SArr) (s : St) (ops : List Op) : St := ops.foldl (step a) s

end Verif.Amp
