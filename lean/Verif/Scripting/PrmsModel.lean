import Verif.Util.Text
import Verif.Util.Dict
/-!
# Fit parameter strings

Model of `/repo/aipy/scripting.py` 171-221 (`parse_prms`).  `float(text)` is a parameter `fl` of the model
(`none` is `ValueError`); any other exception is `none` as well.
-/
namespace Verif.Scripting
open Verif.Util

/-- the characters excluded by `name = r'([^\(/,\)=]+)'`, scripting.py 171 -/
def isNameChar (c : Char) : Bool := !(c == '(' || c == '/' || c == ',' || c == ')' || c == '=')

/-- greedy `[^\(/,\)=]*` : matched text and rest -/
def spanName : List Char → List Char × List Char
  | [] => ([], [])
  | c :: cs => if isNameChar c then (c :: (spanName cs).1, (spanName cs).2) else ([], c :: cs)

/-- `(name(/name)*)\)` after the opening parenthesis: the text up to the closing parenthesis and the rest.
`inName` tells whether at least one character of the current name was read. -/
def takeInner (inName : Bool) : List Char → Option (List Char × List Char)
  | [] => none
  | c :: cs =>
    if c = ')' then (if inName then some ([], cs) else none)
    else if c = '/' then
      (if inName then (takeInner false cs).map (fun p => (c :: p.1, p.2)) else none)
    else if isNameChar c then (takeInner true cs).map (fun p => (c :: p.1, p.2))
    else none

/-- `grp` (scripting.py 172) at the start of the string: the names (`[g[2]]` or `g[3].split('/')`) and the rest.
No backtracking is needed: a name ends exactly at the first excluded character. -/
def takeGrp (s : List Char) : Option (List (List Char) × List Char) :=
  match s with
  | '(' :: cs => (takeInner false cs).map (fun p => (splitOn '/' p.1, p.2))
  | _ => if (spanName s).1 = [] then none else some ([(spanName s).1], (spanName s).2)

/-- what `prm_rgx.match(item)` captured: objects, parameters, values, errors -/
structure Captured where
  obj : List (List Char)
  plist : List (List Char)
  ival : Option (List (List Char))
  sval : Option (List (List Char))
deriving DecidableEq, Repr

/-- `(/grp)?` : the last optional part of `prm` -/
def takeSig (s : List Char) : Option (List (List Char)) :=
  match s with
  | '/' :: s3 => (takeGrp s3).map Prod.fst
  | _ => none

/-- `(/(grp)?(/grp)?)?` : value and error parts of `prm` -/
def takeVals (s : List Char) : Option (List (List Char)) × Option (List (List Char)) :=
  match s with
  | '/' :: s2 => match takeGrp s2 with
    | some (iv, s3) => (some iv, takeSig s3)
    | none => (none, takeSig s2)
  | _ => (none, none)

/-- `grp=grp(/(grp)?(/grp)?)?` at the start of the item, scripting.py 173-174, 185; text after the match is
ignored, as `re.match` does. -/
def matchPrm (s : List Char) : Option Captured :=
  match takeGrp s with
  | some (obj, '=' :: s1) => match takeGrp s1 with
    | some (pl, s2) => some ⟨obj, pl, (takeVals s2).1, (takeVals s2).2⟩
    | none => none
  | _ => none

/-- `[float(..)]`, `map(float, ..)` or `[None]`, scripting.py 191-196 -/
def floats {V : Type} (fl : List Char → Option V) (l : Option (List (List Char))) :
    Option (List (Option V)) :=
  match l with
  | none => some [none]
  | some l => l.mapM (fun t => (fl t).map some)

/-- the reshaping of `ival` (and equally `sval`) into one row per object, scripting.py 197-215;
a failed assertion is `none`. -/
def bcast {α : Type} (nobj nprm : Nat) (l : List α) : Option (List (List α)) :=
  if nobj ≠ 1 then
    if nprm ≠ 1 then
      if l.length = 1 then some (List.replicate nobj (List.flatten (List.replicate nprm l))) else none
    else
      let l' := if l.length = 1 then List.flatten (List.replicate nobj l) else l
      if l'.length = nobj then some (l'.map (fun i => [i])) else none
  else
    if nprm ≠ 1 then
      let l' := if l.length = 1 then List.flatten (List.replicate nprm l) else l
      if l'.length = nprm then some [l'] else none
    else
      if l.length = 1 then some [l] else none

/-- the dictionary `{'obj': {'prm': (val, sig)}}` -/
abbrev Prms (V : Type) := List (List Char × List (List Char × (Option V × Option V)))

/-- `prms[o]` after `if o not in prms: prms[o] = {}`, then the inner loop, scripting.py 217-219 -/
def setObj {V : Type} (o : List Char) (ps : List (List Char × (Option V × Option V))) (d : Prms V) :
    Prms V :=
  let cur := (dget o d).getD []
  dset o (ps.foldl (fun c p => dset p.1 p.2 c) cur) d

/-- one iteration of the loop over items, scripting.py 184-219 -/
def addItem {V : Type} (fl : List Char → Option V) (d : Prms V) (item : List Char) :
    Option (Prms V) := do
  let c ← matchPrm item
  let iv ← floats fl c.ival
  let sv ← floats fl c.sval
  let ivs ← bcast c.obj.length c.plist.length iv
  let svs ← bcast c.obj.length c.plist.length sv
  some ((c.obj.zip (ivs.zip svs)).foldl
    (fun d x => setObj x.1 (c.plist.zip (x.2.1.zip x.2.2)) d) d)

/-- `parse_prms(prm_str)`, scripting.py 175-221 -/
def parsePrms {V : Type} (fl : List Char → Option V) (s : List Char) : Option (Prms V) :=
  (splitOn ',' s).foldlM (addItem fl) []

end Verif.Scripting
