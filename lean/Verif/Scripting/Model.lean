import Verif.Util.Text
import Verif.Codes.Model
/-!
# Command line strings: channels and antennas

Model of `/repo/aipy/scripting.py` 46-106 (`parse_ants`) and 133-147 (`parse_chans`).
Strings are `List Char`; a raised exception is `none`.
-/
namespace Verif.Scripting
open Verif.Util Verif.Codes

/-! ## parse_chans -/

/-- `numpy.arange(a, b, s)` on integers: `ceil((b-a)/s)` values (none if negative), `s = 0` raises. -/
def arange (a b s : Int) : Option (List Int) :=
  if s = 0 then none
  else
    let n : Nat := if s > 0 then ((b - a + s - 1) / s).toNat else ((a - b + (-s) - 1) / (-s)).toNat
    some ((List.range n).map (fun (k : Nat) => a + (k : Int) * s))

/-- one iteration of the loop body, scripting.py 140-145, after `map(int, co.split('_'))`;
`assert(len(co) in [1,2,3])` failing is `none`. -/
def chanItem (co : List Int) : Option (List Int) :=
  match co with
  | [n] => some [n]
  | [a, b] => arange a (b + 1) 1
  | [a, b, s] => arange a (b + 1) s
  | _ => none

/-- `parse_chans(chan_str, nchan)` with the default `concat=True`, scripting.py 133-147. -/
def parseChans (s : List Char) (nchan : Nat) : Option (List Int) :=
  if startsWith "all".toList s then some ((List.range nchan).map (fun (k : Nat) => (k : Int)))
  else do
    let opts ← (splitOn ',' s).mapM (fun co => do
      let ns ← (splitOn '_' co).mapM parseInt
      chanItem ns)
    some opts.flatten

/-! ## parse_ants -/

/-- an element of the list returned by `parse_ants`: `('auto' | baseline, include, pol)`;
`bl = none` stands for `'auto'`, `pol = none` for `-1`. -/
structure Entry where
  bl : Option Int
  incl : Bool
  pol : Option (List Char)
deriving DecidableEq, Repr

/-- longest prefix of digits and the rest -/
def spanDigits : List Char → List Char × List Char
  | [] => ([], [])
  | c :: cs => if isDigit c then let (d, r) := spanDigits cs; (c :: d, r) else ([], c :: cs)

/-- the optional `-` of `-?\d+[xy]?`: matched sign and rest -/
def splitMinus : List Char → List Char × List Char
  | '-' :: r => (['-'], r)
  | r => ([], r)

/-- the optional feed of `-?\d+[xy]?` after the text `t` matched so far -/
def takeFeed (t : List Char) : List Char → List Char × List Char
  | 'x' :: r => (t ++ ['x'], r)
  | 'y' :: r => (t ++ ['y'], r)
  | r => (t, r)

/-- the regular expression `-?\d+[xy]?` at the start of the string (scripting.py 46):
matched text and rest. -/
def takeAnt (s : List Char) : Option (List Char × List Char) :=
  let ms := splitMinus s
  let ds := spanDigits ms.2
  if ds.1 = [] then none else some (takeFeed (ms.1 ++ ds.1) ds.2)

/-- states of the recogniser for the group content `(-?\d+[xy]?,?)+` -/
inductive GState where
  | start    -- nothing read yet: a token is required
  | minus    -- after '-': a digit is required
  | digits   -- inside `\d+`
  | pol      -- after `[xy]`
  | comma    -- after ','
deriving DecidableEq, Repr

/-- transition of the recogniser; `none` = no match -/
def gstep (st : GState) (c : Char) : Option GState :=
  match st with
  | .start | .comma =>
    if c = '-' then some .minus else if isDigit c then some .digits else none
  | .minus => if isDigit c then some .digits else none
  | .digits =>
    if isDigit c then some .digits
    else if c = 'x' ∨ c = 'y' then some .pol
    else if c = ',' then some .comma
    else if c = '-' then some .minus
    else none
  | .pol =>
    if isDigit c then some .digits
    else if c = ',' then some .comma
    else if c = '-' then some .minus
    else none

/-- may the `+` repetition end here? -/
def gaccept : GState → Bool
  | .digits | .pol | .comma => true
  | _ => false

/-- reads `((-?\d+[xy]?,?)+)\)`: content before the closing parenthesis and the rest after it -/
def takeGroupBody (st : GState) : List Char → Option (List Char × List Char)
  | [] => none
  | c :: cs =>
    if c = ')' then (if gaccept st then some ([], cs) else none)
    else match gstep st c with
      | none => none
      | some st' => match takeGroupBody st' cs with
        | none => none
        | some (body, rest) => some (c :: body, rest)

/-- what `ant_re` captured: a parenthesised group (inner text) or a single antenna (text) -/
inductive Cap where
  | group (body : List Char)
  | one (txt : List Char)
deriving DecidableEq, Repr

/-- `ant_re` at the start of the string, scripting.py 46 -/
def takeCap (s : List Char) : Option (Cap × List Char) :=
  match s with
  | '(' :: r => match takeGroupBody .start r with
    | some (b, rest) => some (.group b, rest)
    | none => none
  | r => match takeAnt r with
    | some (t, rest) => some (.one t, rest)
    | none => none

/-- result of matching `bl_re` (scripting.py 47) -/
inductive BlMatch where
  | pair (a b : Cap)
  | single (a : Cap)
deriving DecidableEq, Repr

/-- the optional `,` at the end of `bl_re` -/
def dropComma : List Char → List Char
  | ',' :: r => r
  | r => r

/-- `re.search(bl_re, s)`: the alternative with two antennas is tried first. -/
def takeBl (s : List Char) : Option (BlMatch × List Char) :=
  match takeCap s with
  | none => none
  | some (a, r) =>
    match r with
    | '_' :: r2 => match takeCap r2 with
      | some (b, r3) => some (.pair a b, dropComma r3)
      | none => some (.single a, r)
    | _ => some (.single a, dropComma r)

/-- `re.search(r'(\d+)([x,y])', s)`: leftmost digits followed by one of `x` `,` `y`.
(the character class of the source contains the comma) -/
def searchAntPol (s : List Char) : Option (List Char × Char) :=
  match s with
  | [] => none
  | c :: cs =>
    let (d, r) := spanDigits (c :: cs)
    match d, r with
    | [], _ => searchAntPol cs
    | d, p :: _ => if p = 'x' ∨ p = ',' ∨ p = 'y' then some (d, p) else searchAntPol cs
    | _, [] => searchAntPol cs

/-- `s.isdigit()` -/
def isDigitStr (s : List Char) : Bool := s ≠ [] && s.all isDigit

/-- strips a leading `-`; second component is `include` (scripting.py 72-75, 78-81) -/
def nibble : List Char → List Char × Bool
  | '-' :: r => (r, false)
  | r => (r, true)

/-- the body of the double loop, scripting.py 76-105, for antenna strings `i` (already nibbled, with
its `include_i`) and `j`. -/
def antPair (i : List Char) (incI : Bool) (j : List Char) : Option (List Entry) := do
  let (j, incJ) := nibble j
  let incl := incI && incJ
  match isDigitStr i, isDigitStr j with
  | true, true => do
    let a ← parseNat i
    let b ← parseNat j
    some [⟨some (ij2bl a b), incl, none⟩]
  | true, false => do
    let (dj, pj) ← searchAntPol j
    let a ← parseNat i
    let b ← parseNat dj
    some [⟨some (ij2bl a b), incl, some ['x', pj]⟩, ⟨some (ij2bl a b), incl, some ['y', pj]⟩]
  | false, true => do
    let (di, pi) ← searchAntPol i
    let a ← parseNat di
    let b ← parseNat j
    some [⟨some (ij2bl a b), incl, some [pi, 'x']⟩, ⟨some (ij2bl a b), incl, some [pi, 'y']⟩]
  | false, false => do
    let (di, pi) ← searchAntPol i
    let (dj, pj) ← searchAntPol j
    let a ← parseNat di
    let b ← parseNat dj
    some [⟨some (ij2bl a b), incl, some [pi, pj]⟩]

/-- `ais`/`ajs` of a capture in a pair, scripting.py 66-69 -/
def capList : Cap → List (List Char)
  | .group b => splitOn ',' b
  | .one t => [t]

/-- text of the capture used for a single antenna (`m[8]`, the whole match including the
parentheses), scripting.py 63 -/
def capText : Cap → List Char
  | .group b => '(' :: b ++ [')']
  | .one t => t

/-- the double loop, scripting.py 70-105 -/
def blEntries (nants : Nat) (m : BlMatch) : Option (List Entry) :=
  let (ais, ajs) := match m with
    | .single a => ([capText a], (List.range nants).map printNat)
    | .pair a b => (capList a, capList b)
  (ais.mapM (fun i =>
    let (i, incI) := nibble i
    (ajs.mapM (fun j => antPair i incI j)).map List.flatten)).map List.flatten

/-- drops everything up to and including the next comma (or all), scripting.py 57-59 -/
def skipPastComma : List Char → List Char
  | [] => []
  | c :: cs => if c = ',' then cs else skipPastComma cs

theorem skipPastComma_le (s : List Char) : (skipPastComma s).length ≤ s.length := by
  induction s with
  | nil => simp [skipPastComma]
  | cons c cs ih => rw [skipPastComma]; split <;> simp <;> omega

theorem spanDigits_append (s : List Char) : (spanDigits s).1 ++ (spanDigits s).2 = s := by
  induction s with
  | nil => rfl
  | cons c cs ih => rw [spanDigits]; split <;> simp [ih]

theorem takeFeed_le (t s : List Char) : (takeFeed t s).2.length ≤ s.length := by
  unfold takeFeed; split <;> simp

theorem splitMinus_le (s : List Char) : (splitMinus s).2.length ≤ s.length := by
  unfold splitMinus; split <;> simp

theorem takeAnt_lt {s t r : List Char} (h : takeAnt s = some (t, r)) : r.length < s.length := by
  unfold takeAnt at h
  simp only at h
  split at h
  · cases h
  · rename_i hne
    have hd := List.length_pos_iff.2 hne
    have ha := congrArg List.length (spanDigits_append (splitMinus s).2)
    rw [List.length_append] at ha
    have h1 := splitMinus_le s
    have h2 := takeFeed_le ((splitMinus s).1 ++ (spanDigits (splitMinus s).2).1)
      (spanDigits (splitMinus s).2).2
    rw [Option.some.injEq] at h
    rw [h] at h2
    simp only at h2
    omega

theorem takeGroupBody_lt {st : GState} {s b r : List Char}
    (h : takeGroupBody st s = some (b, r)) : r.length < s.length := by
  induction s generalizing st b with
  | nil => simp [takeGroupBody] at h
  | cons c cs ih =>
    rw [takeGroupBody] at h
    split at h
    · split at h
      · cases h; simp
      · cases h
    · split at h
      · cases h
      · split at h
        · cases h
        · rename_i heq
          cases h
          have := ih heq
          simp; omega

theorem takeCap_lt {s r : List Char} {c : Cap} (h : takeCap s = some (c, r)) :
    r.length < s.length := by
  unfold takeCap at h
  split at h
  · split at h
    · rename_i heq; cases h
      have := takeGroupBody_lt heq; simp; omega
    · cases h
  · split at h
    · rename_i heq; cases h; exact takeAnt_lt heq
    · cases h

theorem dropComma_le (s : List Char) : (dropComma s).length ≤ s.length := by
  unfold dropComma; split <;> simp

theorem takeBl_lt {s r : List Char} {m : BlMatch} (h : takeBl s = some (m, r)) :
    r.length < s.length := by
  unfold takeBl at h
  split at h
  · cases h
  · rename_i heq
    have h1 := takeCap_lt heq
    split at h
    · split at h
      · rename_i heq2
        have h2 := takeCap_lt heq2
        cases h
        exact Nat.lt_of_le_of_lt (dropComma_le _) (by simp at h1; omega)
      · cases h; exact h1
    · cases h
      exact Nat.lt_of_le_of_lt (dropComma_le _) h1

/-- the `while` loop of `parse_ants`, scripting.py 52-106, on the unread rest of the string -/
def parseAntsLoop (nants : Nat) (s : List Char) (rv : List Entry) : Option (List Entry) :=
  if _hs : s = [] then some rv
  else
    match h : takeBl s with
    | none =>
      if startsWith "all".toList s then
        parseAntsLoop nants (skipPastComma (s.drop 1)) []
      else if startsWith "auto".toList s then
        parseAntsLoop nants (skipPastComma (s.drop 1)) (rv ++ [⟨none, true, none⟩])
      else if startsWith "cross".toList s then
        parseAntsLoop nants (skipPastComma (s.drop 1)) (rv ++ [⟨none, false, none⟩])
      else none
    | some (m, rest) =>
      match blEntries nants m with
      | none => none
      | some es => parseAntsLoop nants rest (rv ++ es)
termination_by s.length
decreasing_by
  all_goals first
    | exact takeBl_lt h
    | (have h1 := skipPastComma_le (s.drop 1)
       have h2 : 0 < s.length := List.length_pos_iff.2 _hs
       rw [List.length_drop] at h1
       omega)

/-- `parse_ants(ant_str, nants)`, scripting.py 48-106.  In the keyword branches the model skips past the next comma
starting from the second character; the first is a letter, so this is `find(',')`. -/
def parseAnts (s : List Char) (nants : Nat) : Option (List Entry) := parseAntsLoop nants s []

end Verif.Scripting
