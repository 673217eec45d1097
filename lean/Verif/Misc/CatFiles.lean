import Mathlib.Data.List.Forall2
import Mathlib.Data.Finset.Card
import Mathlib.Algebra.Field.Rat
import Mathlib.Tactic.NormNum
import Mathlib.Tactic.Tauto
import Verif.Misc.Catalog
import Verif.Util.Text
/-!
# The files of the source catalogs (C105)

`/repo/aipy/_src/*.py`, `fromfile`: tables from VizieR with tabs between the columns, and the files of the PAPER and MRT catalogs.

Simplified: numbers are elements of a field, `float` is a parameter, a source is the arguments of its constructor (what `ephem` does
with the strings of the position is not modelled), lines end with `\n`, white space is that of ASCII, `int` of a character takes the ten
ASCII digits.  culgoora.py is in `Culgoora`, helm.py in `Helm`.
-/
namespace Verif.Misc.CatFiles
open Verif.Util

/-! ## Model -/

/-- `f.readlines()` -/
def readlines : List Char → List (List Char)
  | [] => []
  | c :: cs => if c = '\n' then [c] :: readlines cs else
    match readlines cs with
    | [] => [[c]]
    | l :: ls => (c :: l) :: ls

/-- white space of ASCII -/
def isSpace (c : Char) : Bool := c = ' ' || c = '\t' || c = '\n' || c = '\r' || c = '\x0b' || c = '\x0c'

/-- `s.strip(...)` of the characters with `p` -/
def stripBy (p : Char → Bool) (s : List Char) : List Char := ((s.dropWhile p).reverse.dropWhile p).reverse

/-- `s.replace(' ', ':')` -/
def colons (s : List Char) : List Char := s.map fun c => if c = ' ' then ':' else c

/-- the arguments of `RadioFixedBody(ra, dec, jys=, index=, mfreq=)` -/
structure Body (F : Type) where
  ra : List Char
  dec : List Char
  jys : F
  index : F
  mfreq : F

/-- what a line gives: `continue`, an exception, or a source -/
inductive Row (F : Type)
  | skip
  | raise
  | src (s : Src (Body F))

/-- what the `fromfile` functions of the VizieR catalogs differ in -/
structure Fmt (F : Type) where
  /-- `L.strip('\n')`, only seven_c.py -/
  stripNl : Bool
  ra : Nat
  dec : Nat
  /-- the column of the name; `none`: `'%s_%s' % (ra, dec)` -/
  name : Option Nat
  flux : Nat
  /-- `/1000.` -/
  milli : Bool
  /-- `except(ValueError): continue` around the flux, only parkes.py -/
  skipBad : Bool
  /-- the column of the index, only txs.py -/
  index : Option Nat
  mfreq : F

/-- the catalogs from VizieR that are read in the same way -/
inductive Survey
  | threeC | threeCR | fourC | gbSix | nvss | parkes | sevenC | sixC | txs | vlss | wenss
deriving DecidableEq

variable {F : Type} [Field F]

/-- three_c.py 22-35, three_cr.py 22-36, four_c.py 22-36, gbsix.py 21-35, nvss.py 22-36, parkes.py 22-36, seven_c.py 22-36,
six_c.py 23-37, txs.py 22-38, vlss.py 22-36, wenss.py 22-36 -/
def fmt : Survey → Fmt F
  | .threeC => ⟨false, 0, 1, some 2, 9, false, false, none, 159 / 1000⟩
  | .threeCR => ⟨false, 0, 1, some 2, 7, false, false, none, 178 / 1000⟩
  | .fourC => ⟨false, 0, 1, some 2, 5, false, false, none, 178 / 1000⟩
  | .gbSix => ⟨false, 0, 1, some 18, 8, true, false, none, 485 / 100⟩
  | .nvss => ⟨false, 3, 4, some 2, 7, true, false, none, 140 / 100⟩
  | .parkes => ⟨false, 0, 1, some 11, 9, false, true, none, 270 / 100⟩
  | .sevenC => ⟨true, 0, 1, none, 5, false, false, none, 151 / 1000⟩
  | .sixC => ⟨false, 0, 1, none, 4, false, false, none, 151 / 1000⟩
  | .txs => ⟨false, 0, 1, some 2, 7, false, false, some 10, 365 / 1000⟩
  | .vlss => ⟨false, 3, 4, some 2, 5, false, false, none, 74 / 1000⟩
  | .wenss => ⟨false, 4, 5, some 2, 9, true, false, none, 330 / 1000⟩

/-- the name; `none` is IndexError -/
def rowName (f : Fmt F) (text : List (List Char)) (ra dec : List Char) : Option (List Char) :=
  match f.name with
  | some k => (text[k]?).map (stripBy isSpace)
  | none => some (ra ++ '_' :: dec)

/-- the index; `none` is IndexError -/
def rowIndex (toFloat : List Char → Option F) (f : Fmt F) (text : List (List Char)) : Option F :=
  match f.index with
  | some k => (text[k]?).map fun s => (toFloat s).getD 0
  | none => some 0

/-- the body of the loop after the row is known to be one, e.g. three_c.py 30-35 -/
def vizSrc (toFloat : List Char → Option F) (f : Fmt F) (text : List (List Char)) : Row F :=
  match text[f.ra]?, text[f.dec]? with
  | some ra, some dec =>
    match rowName f text (colons ra) (colons dec), text[f.flux]? with
    | some name, some fl =>
      match toFloat fl with
      | none => if f.skipBad then .skip else .raise
      | some x =>
        match rowIndex toFloat f text with
        | none => .raise
        | some ix => .src ⟨String.ofList name, colons ra, colons dec, if f.milli then x / 1000 else x, ix, f.mfreq⟩
    | _, _ => .raise
  | _, _ => .raise

/-- the body of the loop after the line is cut, e.g. three_c.py 27-35 -/
def vizCut (toFloat : List Char → Option F) (f : Fmt F) (text : List (List Char)) : Row F :=
  if text.length ≤ 4 then .skip else
  match (text.headD []).head? with
  | none => .raise
  | some c => if isDigit c then vizSrc toFloat f text else .skip

/-- the body of the loop, e.g. three_c.py 25-35 -/
def vizRow (toFloat : List Char → Option F) (f : Fmt F) (L : List Char) : Row F :=
  vizCut toFloat f (splitOn '\t' (if f.stripNl then stripBy (fun c => c = '\n') L else L))

/-- the body of the loop of paper.py 18-28 -/
def paperRow (toFloat : List Char → Option F) (L : List Char) : Row F :=
  let text := splitOn '\t' L
  if text.length ≤ 3 then .skip else
  match (stripBy isSpace (text.headD [])).head? with
  | none => .raise
  | some c => if isDigit c then
      match text[1]?, text[2]?, text[3]?, text[4]? with
      | some ra, some dec, some name, some fl =>
        match toFloat fl with
        | none => .raise
        | some x => .src ⟨String.ofList (stripBy isSpace name), ra, dec, x, 0, 150 / 1000⟩
      | _, _, _, _ => .raise
    else .skip

/-- a character before the next one and the words from there on -/
def glue (c : Char) (next : Option Char) (ws : List (List Char)) : List (List Char) :=
  match next, ws with
  | some d, w :: ws => if isSpace d then [c] :: w :: ws else (c :: w) :: ws
  | _, ws => [c] :: ws

/-- `s.split()`: the words -/
def words : List Char → List (List Char)
  | [] => []
  | c :: cs => if isSpace c then words cs else glue c cs.head? (words cs)

/-- the body of the loop of mrt.py 22-24 -/
def mrtRow (toFloat : List Char → Option F) (L : List Char) : Row F :=
  match words L with
  | s :: ra :: dec :: jys :: _ =>
    match toFloat jys with
    | none => .raise
    | some x => .src ⟨String.ofList s, ra, dec, x, 0, 150 / 1000⟩
  | _ => .raise

/-- the loop: `addsrcs`; `none` is an exception -/
def collect : List (Row F) → Option (List (Src (Body F)))
  | [] => some []
  | .skip :: rs => collect rs
  | .raise :: _ => none
  | .src s :: rs => (collect rs).map (s :: ·)

/-- `fromfile` of a VizieR catalog, e.g. three_c.py 22-36 -/
def vizFile (toFloat : List Char → Option F) (sv : Survey) (cat : Cat (Body F)) (file : List Char) : Option (Cat (Body F)) :=
  (collect (((readlines file).filter fun L => !startsWith ['#'] L).map (vizRow toFloat (fmt sv)))).map (addSrcs cat)

/-- `fromfile` of paper.py 15-29 -/
def paperFile (toFloat : List Char → Option F) (cat : Cat (Body F)) (file : List Char) : Option (Cat (Body F)) :=
  (collect (((readlines file).filter fun L => !startsWith ['#'] L).map (paperRow toFloat))).map (addSrcs cat)

/-- `fromfile` of mrt.py 19-25 -/
def mrtFile (toFloat : List Char → Option F) (cat : Cat (Body F)) (file : List Char) : Option (Cat (Body F)) :=
  (collect (((readlines file).drop 4).map (mrtRow toFloat))).map (addSrcs cat)

/-! ## Specification -/

/-- where a catalog has the right ascension; the declination is the column after it -/
def raCol : Survey → Nat
  | .nvss => 3
  | .vlss => 3
  | .wenss => 4
  | _ => 0

/-- where it has the flux -/
def fluxCol : Survey → Nat
  | .sixC => 4
  | .fourC => 5
  | .sevenC => 5
  | .vlss => 5
  | .threeCR => 7
  | .nvss => 7
  | .txs => 7
  | .gbSix => 8
  | .threeC => 9
  | .parkes => 9
  | .wenss => 9

/-- where it has the name, if it has names -/
def nameCol : Survey → Option Nat
  | .sixC => none
  | .sevenC => none
  | .parkes => some 11
  | .gbSix => some 18
  | _ => some 2

/-- the frequency of the survey in MHz -/
def survMHz : Survey → Nat
  | .vlss => 74
  | .sixC => 151
  | .sevenC => 151
  | .threeC => 159
  | .threeCR => 178
  | .fourC => 178
  | .wenss => 330
  | .txs => 365
  | .nvss => 1400
  | .parkes => 2700
  | .gbSix => 4850

/-- surveys with fluxes in mJy -/
def inMilli (sv : Survey) : Prop := sv = .gbSix ∨ sv = .nvss ∨ sv = .wenss

/-- white space -/
def White (c : Char) : Prop := c ∈ [' ', '\t', '\n', '\r', '\x0b', '\x0c']

/-- `t` is `s` without white space around it -/
def Trimmed (s t : List Char) : Prop :=
  ∃ a b, s = a ++ t ++ b ∧ (∀ c ∈ a, White c) ∧ (∀ c ∈ b, White c) ∧ (∀ c, t.head? = some c → ¬ White c) ∧
    ∀ c, t.getLast? = some c → ¬ White c

/-- `t` is `s` with colons for blanks -/
def Coloned (s t : List Char) : Prop := List.Forall₂ (fun c d => (c = ' ' ∧ d = ':') ∨ (c ≠ ' ' ∧ d = c)) s t

/-- a decimal digit -/
def Digit (c : Char) : Prop := 48 ≤ c.toNat ∧ c.toNat ≤ 57

/-- `s` is the source of a row of a catalog -/
structure IsEntry (toFloat : List Char → Option F) (sv : Survey) (cells : List (List Char)) (s : Src (Body F)) : Prop where
  ra : ∃ c, cells[raCol sv]? = some c ∧ Coloned c s.body.ra
  dec : ∃ c, cells[raCol sv + 1]? = some c ∧ Coloned c s.body.dec
  named : ∀ k, nameCol sv = some k → ∃ c t, cells[k]? = some c ∧ Trimmed c t ∧ s.name = String.ofList t
  unnamed : nameCol sv = none → s.name = String.ofList (s.body.ra ++ ['_'] ++ s.body.dec)
  flux : ∃ c x, cells[fluxCol sv]? = some c ∧ toFloat c = some x ∧ (inMilli sv → s.body.jys * 1000 = x) ∧ (¬ inMilli sv → s.body.jys = x)
  freq : s.body.mfreq * 1000 = survMHz sv
  index : sv ≠ .txs → s.body.index = 0
  txs : sv = .txs → ∃ c, cells[10]? = some c ∧ (toFloat c = some s.body.index ∨ toFloat c = none ∧ s.body.index = 0)

/-- a line of a file: a comment, a heading and the like, or a row of the table -/
inductive Line
  | comment (s : List Char)
  | other (cells : List (List Char))
  | row (cells : List (List Char))

/-- cells that can be written -/
def Clean (cells : List (List Char)) : Prop := ∀ c ∈ cells, '\t' ∉ c ∧ '\n' ∉ c

/-- the line as it is written -/
def Line.text : Line → List Char
  | .comment s => '#' :: s ++ ['\n']
  | .other cells => joinWith '\t' cells ++ ['\n']
  | .row cells => joinWith '\t' cells ++ ['\n']

/-- rows have more than four columns and begin with a digit; what is no row has less or begins with another character, or it is
of the Parkes catalog and has no flux -/
def Line.Ok (toFloat : List Char → Option F) (sv : Survey) : Line → Prop
  | .comment s => '\n' ∉ s
  | .other cells => cells ≠ [] ∧ Clean cells ∧ (cells.length ≤ 4 ∨ (∃ c s l, cells = (c :: s) :: l ∧ ¬ Digit c) ∨
      (sv = .parkes ∧ (∃ c s l, cells = (c :: s) :: l ∧ Digit c) ∧ 11 < cells.length ∧ ∃ c, cells[fluxCol sv]? = some c ∧ toFloat c = none))
  | .row cells => Clean cells ∧ 4 < cells.length ∧ ∃ c s l, cells = (c :: s) :: l ∧ Digit c

/-- the file -/
def fileText (ls : List Line) : List Char := ls.flatMap Line.text

/-- the rows -/
def rowsOf : List Line → List (List (List Char))
  | [] => []
  | .row cells :: ls => cells :: rowsOf ls
  | _ :: ls => rowsOf ls

/-! ## Lemmas -/

theorem readlines_line {l : List Char} (h : '\n' ∉ l) (rest : List Char) :
    readlines (l ++ '\n' :: rest) = (l ++ ['\n']) :: readlines rest := by
  induction l with
  | nil => simp [readlines]
  | cons c l ih =>
    have hc : c ≠ '\n' := fun hc => h (by simp [hc])
    rw [List.cons_append, readlines, if_neg hc, ih fun hl => h (by simp [hl])]
    rfl

theorem dropWhile_all {p : Char → Bool} {a : List Char} (h : ∀ c ∈ a, p c = true) (t : List Char) : (a ++ t).dropWhile p = t.dropWhile p := by
  induction a with
  | nil => rfl
  | cons c a ih =>
    rw [List.cons_append, List.dropWhile_cons_of_pos (h c (by simp)), ih fun d hd => h d (by simp [hd])]

theorem stripBy_eq {p : Char → Bool} {a t b : List Char} (ha : ∀ c ∈ a, p c = true) (hb : ∀ c ∈ b, p c = true)
    (h1 : ∀ c, t.head? = some c → p c = false) (h2 : ∀ c, t.getLast? = some c → p c = false) : stripBy p (a ++ t ++ b) = t := by
  unfold stripBy
  rw [List.append_assoc, dropWhile_all ha]
  have e1 : (t ++ b).dropWhile p = t ++ (if t = [] then [] else b) := by
    cases t with
    | nil =>
      have := dropWhile_all hb []
      simpa using this
    | cons c t =>
      rw [List.cons_append, List.dropWhile_cons_of_neg (by simp [h1 c rfl])]
      simp
  rw [e1]
  by_cases ht : t = []
  · simp [ht]
  · rw [if_neg ht, List.reverse_append, dropWhile_all (by simpa using hb)]
    have e2 : t.reverse.dropWhile p = t.reverse := by
      cases hr : t.reverse with
      | nil => rfl
      | cons c r =>
        refine List.dropWhile_cons_of_neg ?_
        have : t.getLast? = some c := by rw [← List.head?_reverse, hr]; rfl
        simp [h2 c this]
    rw [e2, List.reverse_reverse]

theorem white_iff (c : Char) : isSpace c = true ↔ White c := by
  unfold isSpace White
  simp [or_assoc]

theorem strip_trim {s t : List Char} (h : Trimmed s t) : stripBy isSpace s = t ∧ stripBy isSpace (s ++ ['\n']) = t := by
  obtain ⟨a, b, rfl, h1, h2, h3, h4⟩ := h
  have key : ∀ b', (∀ c ∈ b', White c) → stripBy isSpace (a ++ t ++ b') = t := fun b' hb' =>
    stripBy_eq (fun c hc => (white_iff c).2 (h1 c hc)) (fun c hc => (white_iff c).2 (hb' c hc))
      (fun c hc => by rw [← Bool.not_eq_true, white_iff]; exact h3 c hc) (fun c hc => by rw [← Bool.not_eq_true, white_iff]; exact h4 c hc)
  refine ⟨key b h2, ?_⟩
  rw [List.append_assoc]
  refine key _ fun c hc => ?_
  rcases List.mem_append.1 hc with hc | hc
  · exact h2 c hc
  · rw [List.mem_singleton.1 hc]
    simp [White]

theorem coloned {s t : List Char} (h : Coloned s t) : colons s = t := by
  unfold colons
  induction h with
  | nil => rfl
  | cons h _ ih =>
    rw [List.map_cons, ih]
    congr 1
    rcases h with ⟨h1, h2⟩ | ⟨h1, h2⟩
    · rw [if_pos h1, h2]
    · rw [if_neg h1, h2]

/-- the cells as they are read: the last one may have the end of the line -/
def Same (text cells : List (List Char)) : Prop :=
  text.length = cells.length ∧ ∀ (k : Nat) s, cells[k]? = some s → ∃ t, text[k]? = some t ∧ (t = s ∨ (t = s ++ ['\n'] ∧ k + 1 = cells.length))

/-- the end of the line at the last cell -/
def withNl : List (List Char) → List (List Char)
  | [] => []
  | [p] => [p ++ ['\n']]
  | p :: q :: ps => p :: withNl (q :: ps)

theorem withNl_join : ∀ cells : List (List Char), cells ≠ [] → joinWith '\t' cells ++ ['\n'] = joinWith '\t' (withNl cells)
  | [], h => absurd rfl h
  | [p], _ => rfl
  | p :: q :: ps, _ => by
    have ih := withNl_join (q :: ps) (by simp)
    have hne : ∃ x xs, withNl (q :: ps) = x :: xs := by
      cases ps with
      | nil => exact ⟨_, _, rfl⟩
      | cons a b => exact ⟨_, _, rfl⟩
    obtain ⟨x, xs, hx⟩ := hne
    show p ++ '\t' :: joinWith '\t' (q :: ps) ++ ['\n'] = joinWith '\t' (p :: withNl (q :: ps))
    rw [List.append_assoc, List.cons_append, ih, hx]
    rfl

theorem withNl_same : ∀ cells : List (List Char), Same (withNl cells) cells
  | [] => ⟨rfl, by simp⟩
  | [p] => ⟨rfl, fun k s h => by
      cases k with
      | zero => exact ⟨_, rfl, .inr ⟨by simp at h; rw [h], rfl⟩⟩
      | succ k => simp at h⟩
  | p :: q :: ps => by
    obtain ⟨h1, h2⟩ := withNl_same (q :: ps)
    refine ⟨by show (withNl (q :: ps)).length + 1 = _; rw [h1]; rfl, fun k s h => ?_⟩
    cases k with
    | zero => exact ⟨p, rfl, .inl (by simpa using h)⟩
    | succ k =>
      obtain ⟨t, ht, h3⟩ := h2 k s (by simpa using h)
      refine ⟨t, by show (p :: withNl (q :: ps))[k + 1]? = some t; simpa using ht, ?_⟩
      rcases h3 with h3 | ⟨h3, h4⟩
      · exact .inl h3
      · exact .inr ⟨h3, by simp at h4 ⊢; omega⟩

theorem withNl_clean {cells : List (List Char)} (h : Clean cells) : ∀ c ∈ withNl cells, '\t' ∉ c := by
  intro c hc
  obtain ⟨k, hk, rfl⟩ := List.mem_iff_getElem.1 hc
  obtain ⟨h1, h2⟩ := withNl_same cells
  have hk' : k < cells.length := by rw [← h1]; exact hk
  obtain ⟨t, ht, h3⟩ := h2 k cells[k] (List.getElem?_eq_getElem hk')
  rw [List.getElem?_eq_getElem hk] at ht
  rw [Option.some.inj ht]
  have := (h _ (List.getElem_mem hk')).1
  rcases h3 with h3 | ⟨h3, _⟩
  · rw [h3]; exact this
  · rw [h3]
    intro hm
    rcases List.mem_append.1 hm with hm | hm
    · exact this hm
    · simp at hm

theorem not_mem_join {cells : List (List Char)} (h : Clean cells) : '\n' ∉ joinWith '\t' cells :=
  joinWith_not_mem (by decide) fun p hp => (h p hp).2

/-- how a line is cut into cells -/
theorem cut_line {cells : List (List Char)} (hne : cells ≠ []) (h : Clean cells) (strip : Bool) :
    Same (splitOn '\t' (if strip then stripBy (fun c => c = '\n') (joinWith '\t' cells ++ ['\n']) else joinWith '\t' cells ++ ['\n'])) cells := by
  cases strip with
  | false =>
    simp only [Bool.false_eq_true, if_false]
    rw [withNl_join cells hne, splitOn_joinWith ?_ (withNl_clean h)]
    · exact withNl_same cells
    · intro h0
      have := (withNl_same cells).1
      rw [h0] at this
      exact hne (List.length_eq_zero_iff.1 this.symm)
  | true =>
    simp only [if_true]
    have hn := not_mem_join h
    have e : stripBy (fun c => c = '\n') ([] ++ joinWith '\t' cells ++ ['\n']) = joinWith '\t' cells := by
      refine stripBy_eq (by simp) (by simp) (fun c hc => ?_) fun c hc => ?_
      · have := List.mem_of_mem_head? hc
        simp only [decide_eq_false_iff_not]
        rintro rfl
        exact hn this
      · have := List.mem_of_mem_getLast? hc
        simp only [decide_eq_false_iff_not]
        rintro rfl
        exact hn this
    rw [List.nil_append] at e
    rw [e, splitOn_joinWith hne fun p hp => (h p hp).1]
    exact ⟨rfl, fun k s hs => ⟨s, hs, .inl rfl⟩⟩

/-- what the formats are -/
theorem fmt_facts [CharZero F] (sv : Survey) : (fmt sv : Fmt F).ra = raCol sv ∧ (fmt sv : Fmt F).dec = raCol sv + 1 ∧
    (fmt sv : Fmt F).flux = fluxCol sv ∧ (fmt sv : Fmt F).name = nameCol sv ∧ ((fmt sv : Fmt F).milli = true ↔ inMilli sv) ∧
    ((fmt sv : Fmt F).skipBad = true ↔ sv = .parkes) ∧ (fmt sv : Fmt F).index = (if sv = .txs then some 10 else none) ∧
    (fmt sv : Fmt F).mfreq * 1000 = survMHz sv ∧ raCol sv + 1 < fluxCol sv := by
  cases sv <;> simp [fmt, raCol, fluxCol, nameCol, inMilli, survMHz] <;> norm_num

omit [Field F] in
theorem same_num {toFloat : List Char → Option F} (hnl : ∀ s, toFloat (s ++ ['\n']) = toFloat s) {text cells : List (List Char)}
    (hs : Same text cells) {k : Nat} {c : List Char} (hc : cells[k]? = some c) : ∃ t, text[k]? = some t ∧ toFloat t = toFloat c := by
  obtain ⟨t, ht, h⟩ := hs.2 k c hc
  refine ⟨t, ht, ?_⟩
  rcases h with rfl | ⟨rfl, _⟩
  · rfl
  · exact hnl c

theorem same_inner {text cells : List (List Char)} (hs : Same text cells) {k : Nat} {c : List Char} (hc : cells[k]? = some c)
    (hk : k + 1 < cells.length) : text[k]? = some c := by
  obtain ⟨t, ht, h⟩ := hs.2 k c hc
  rcases h with rfl | ⟨_, h⟩
  · exact ht
  · omega

theorem same_head {text cells : List (List Char)} (hs : Same text cells) {c : List Char} {l : List (List Char)} (hc : cells = c :: l)
    (hk : 1 < cells.length) : text.headD [] = c := by
  have := same_inner hs (k := 0) (c := c) (by simp [hc]) (by simpa using hk)
  cases text with
  | nil => simp at this
  | cons t ts => simpa using this

/-- a row gives its source -/
theorem viz_src [CharZero F] {toFloat : List Char → Option F} (hnl : ∀ s, toFloat (s ++ ['\n']) = toFloat s) {sv : Survey}
    {text cells : List (List Char)} (hs : Same text cells) {s : Src (Body F)} (h : IsEntry toFloat sv cells s) :
    vizSrc toFloat (fmt sv) text = .src s := by
  obtain ⟨f1, f2, f3, f4, f5, f6, f7, f8, f9⟩ := fmt_facts (F := F) sv
  obtain ⟨cr, h1, h2⟩ := h.ra
  obtain ⟨cd, h3, h4⟩ := h.dec
  obtain ⟨cf, x, h5, h6, h7, h8⟩ := h.flux
  have hlen : fluxCol sv < cells.length := (List.getElem?_eq_some_iff.1 h5).1
  have t1 := same_inner hs h1 (by omega)
  have t2 := same_inner hs h3 (by omega)
  obtain ⟨tf, t3, t4⟩ := same_num hnl hs h5
  rw [h6] at t4
  unfold vizSrc
  rw [f1, f2, f3, t1, t2, t3]
  simp only
  have hname : rowName (fmt sv : Fmt F) text (colons cr) (colons cd) = some s.name.toList := by
    unfold rowName
    rw [f4]
    cases hn : nameCol sv with
    | none =>
      simp only
      rw [h.unnamed hn, coloned h2, coloned h4]
      simp
    | some k =>
      obtain ⟨c, t, k1, k2, k3⟩ := h.named k hn
      obtain ⟨u, u1, u2⟩ := hs.2 k c k1
      simp only
      rw [u1, k3, Option.map_some]
      congr 1
      rcases u2 with rfl | ⟨rfl, _⟩
      · rw [(strip_trim k2).1]; simp
      · rw [(strip_trim k2).2]; simp
  have hidx : rowIndex toFloat (fmt sv) text = some s.body.index := by
    unfold rowIndex
    rw [f7]
    by_cases ht : sv = .txs
    · rw [if_pos ht]
      simp only
      obtain ⟨c, k1, k2⟩ := h.txs ht
      obtain ⟨u, u1, u2⟩ := same_num hnl hs k1
      rw [u1, Option.map_some, u2]
      rcases k2 with k2 | ⟨k2, k3⟩
      · rw [k2]; rfl
      · rw [k2, k3]; rfl
    · rw [if_neg ht]
      simp only
      rw [h.index ht]
  have hj : (if (fmt sv : Fmt F).milli = true then x / 1000 else x) = s.body.jys := by
    by_cases hm : inMilli sv
    · rw [if_pos (f5.2 hm), ← h7 hm]
      exact mul_div_cancel_right₀ _ (by norm_num)
    · rw [if_neg fun h' => hm (f5.1 h'), h8 hm]
  have hq : (fmt sv : Fmt F).mfreq = s.body.mfreq := by
    have := f8.trans h.freq.symm
    exact mul_right_cancel₀ (by norm_num : (1000 : F) ≠ 0) this
  rw [hname]
  simp only
  rw [t4]
  simp only
  rw [hidx]
  simp only
  rw [hj, hq, coloned h2, coloned h4]
  simp

theorem digit_iff (c : Char) : isDigit c = true ↔ Digit c := by
  unfold isDigit Digit
  simp

theorem viz_row [CharZero F] {toFloat : List Char → Option F} (hnl : ∀ s, toFloat (s ++ ['\n']) = toFloat s) {sv : Survey}
    {cells : List (List Char)} (hok : (Line.row cells).Ok toFloat sv) {s : Src (Body F)} (h : IsEntry toFloat sv cells s) :
    vizRow toFloat (fmt sv) (Line.row cells).text = .src s := by
  obtain ⟨hc, hl, c, r, l, he, hd⟩ := hok
  have hs := cut_line (by rw [he]; simp) hc (fmt sv : Fmt F).stripNl
  unfold vizRow Line.text
  simp only
  generalize splitOn '\t' _ = text at *
  unfold vizCut
  rw [if_neg (by rw [hs.1]; omega), same_head hs he (by omega)]
  simp only [List.head?_cons]
  rw [if_pos ((digit_iff c).2 hd)]
  exact viz_src hnl hs h

theorem viz_other [CharZero F] {toFloat : List Char → Option F} (hnl : ∀ s, toFloat (s ++ ['\n']) = toFloat s) {sv : Survey}
    {cells : List (List Char)} (hok : (Line.other cells).Ok toFloat sv) : vizRow toFloat (fmt sv) (Line.other cells).text = .skip := by
  obtain ⟨hne, hc, h⟩ := hok
  have hs := cut_line hne hc (fmt sv : Fmt F).stripNl
  unfold vizRow Line.text
  simp only
  generalize splitOn '\t' _ = text at *
  unfold vizCut
  by_cases hl : cells.length ≤ 4
  · rw [if_pos (by rw [hs.1]; exact hl)]
  rw [if_neg (by rw [hs.1]; exact hl)]
  rcases h with h | ⟨c, r, l, he, hd⟩ | ⟨hp, ⟨c, r, l, he, hd⟩, h11, cf, hcf, hnum⟩
  · exact absurd h hl
  · rw [same_head hs he (by omega)]
    simp only [List.head?_cons]
    rw [if_neg fun h' => hd ((digit_iff c).1 h')]
  · subst hp
    rw [same_head hs he (by omega)]
    simp only [List.head?_cons]
    rw [if_pos ((digit_iff c).2 hd)]
    obtain ⟨u, u1, u2⟩ := same_num hnl hs hcf
    have g : ∀ k < cells.length, ∃ t, text[k]? = some t := by
      intro k hk
      obtain ⟨t, ht, _⟩ := hs.2 k _ (List.getElem?_eq_getElem hk)
      exact ⟨t, ht⟩
    obtain ⟨t0, g0⟩ := g 0 (by omega)
    obtain ⟨t1, g1⟩ := g 1 (by omega)
    obtain ⟨t11, g11⟩ := g 11 (by omega)
    unfold vizSrc
    rw [show (fmt .parkes : Fmt F).ra = 0 from rfl, show (fmt .parkes : Fmt F).dec = 1 from rfl,
      show (fmt .parkes : Fmt F).flux = fluxCol .parkes from rfl, g0, g1, u1]
    simp only
    have hname : rowName (fmt .parkes : Fmt F) text (colons t0) (colons t1) = some (stripBy isSpace t11) := by
      unfold rowName
      rw [show (fmt .parkes : Fmt F).name = some 11 from rfl]
      simp only
      rw [g11]
      rfl
    rw [hname]
    simp only
    rw [u2, hnum]
    simp [fmt]

omit [Field F] in
theorem text_line (toFloat : List Char → Option F) {sv : Survey} {l : Line} (h : l.Ok toFloat sv) : ∃ t, l.text = t ++ ['\n'] ∧ '\n' ∉ t := by
  cases l with
  | comment s =>
    refine ⟨'#' :: s, rfl, ?_⟩
    simp only [List.mem_cons, not_or]
    exact ⟨by decide, h⟩
  | other cells => exact ⟨_, rfl, not_mem_join h.2.1⟩
  | row cells => exact ⟨_, rfl, not_mem_join h.1⟩

omit [Field F] in
theorem readlines_file (toFloat : List Char → Option F) {sv : Survey} : ∀ {ls : List Line}, (∀ l ∈ ls, l.Ok toFloat sv) →
    readlines (fileText ls) = ls.map Line.text := by
  intro ls
  induction ls with
  | nil => intro _; rfl
  | cons l ls ih =>
    intro h
    obtain ⟨t, h1, h2⟩ := text_line toFloat (h l (by simp))
    have e : fileText (l :: ls) = t ++ '\n' :: fileText ls := by
      unfold fileText
      rw [List.flatMap_cons, h1, List.append_assoc]
      rfl
    rw [e, readlines_line h2, ih fun l' hl' => h l' (by simp [hl']), List.map_cons, h1]

theorem digit_head {cells : List (List Char)} {c : Char} {r : List Char} {l : List (List Char)} (he : cells = (c :: r) :: l) (hd : Digit c) :
    startsWith ['#'] (joinWith '\t' cells ++ ['\n']) = false := by
  have hc : ('#' == c) = false := by
    simp only [beq_eq_false_iff_ne]
    rintro rfl
    revert hd
    unfold Digit
    decide
  subst he
  have : ∃ rest, joinWith '\t' ((c :: r) :: l) ++ ['\n'] = c :: rest := by
    cases l with
    | nil => exact ⟨_, rfl⟩
    | cons a b => exact ⟨_, rfl⟩
  obtain ⟨rest, hr⟩ := this
  rw [hr]
  simp [startsWith, List.isPrefixOf, hc]

/-- the sources of a file are those of its rows -/
theorem collect_file [CharZero F] {toFloat : List Char → Option F} (hnl : ∀ s, toFloat (s ++ ['\n']) = toFloat s) {sv : Survey} :
    ∀ {ls : List Line}, (∀ l ∈ ls, l.Ok toFloat sv) → ∀ {es : List (Src (Body F))}, List.Forall₂ (IsEntry toFloat sv) (rowsOf ls) es →
    collect (((ls.map Line.text).filter fun L => !startsWith ['#'] L).map (vizRow toFloat (fmt sv))) = some es := by
  intro ls
  induction ls with
  | nil =>
    intro _ es he
    cases he
    rfl
  | cons l ls ih =>
    intro h es he
    have hl := h l (by simp)
    have ih' := fun {es} => ih (fun l' hl' => h l' (by simp [hl'])) (es := es)
    rw [List.map_cons, List.filter_cons]
    cases l with
    | comment s =>
      rw [if_neg (by simp [Line.text, startsWith, List.isPrefixOf])]
      exact ih' he
    | other cells =>
      split
      · rw [List.map_cons, viz_other hnl hl]
        exact ih' he
      · exact ih' he
    | row cells =>
      obtain ⟨_, _, c, r, l, e1, hd⟩ := hl
      cases he with
      | cons h1 h2 =>
        rw [if_pos (by simp only [Line.text]; rw [digit_head e1 hd]; rfl), List.map_cons, viz_row hnl (h _ (by simp)) h1]
        show (collect _).map _ = _
        rw [ih' h2]
        rfl

theorem put_new {α : Type} (n : String) (s : Src α) : ∀ c : Cat α, (∀ p ∈ c, p.1 ≠ n) → put n s c = c ++ [(n, s)]
  | [], _ => rfl
  | (m, t) :: rest, h => by
    rw [put, if_neg (h (m, t) (by simp)), put_new n s rest fun p hp => h p (by simp [hp])]
    rfl

theorem addSrcs_new {α : Type} : ∀ (l : List (Src α)) (c : Cat α), (l.map (·.name)).Nodup → (∀ s ∈ l, ∀ p ∈ c, p.1 ≠ s.name) →
    addSrcs c l = c ++ l.map fun s => (s.name, s)
  | [], c, _, _ => by simp [addSrcs]
  | s :: l, c, h, hc => by
    rw [List.map_cons, List.nodup_cons] at h
    show addSrcs (put s.name s c) l = _
    rw [put_new _ _ _ (hc s (by simp)), addSrcs_new l _ h.2]
    · simp
    · intro t ht p hp
      rcases List.mem_append.1 hp with hp | hp
      · exact hc t (by simp [ht]) p hp
      · rw [List.mem_singleton.1 hp]
        exact fun he => h.1 (List.mem_map.2 ⟨t, ht, he.symm⟩)

theorem keys_put {α : Type} (n : String) (s : Src α) : ∀ c : Cat α, (put n s c).map (·.1) = if n ∈ c.map (·.1) then c.map (·.1) else c.map (·.1) ++ [n]
  | [] => rfl
  | (m, t) :: rest => by
    rw [put]
    split
    · next h => simp [h]
    · next h =>
      rw [List.map_cons, keys_put n s rest]
      have h' : n ≠ m := fun e => h e.symm
      by_cases hm : n ∈ rest.map (·.1)
      · simp only [List.map_cons, List.mem_cons, hm, or_true, if_true]
      · simp only [List.map_cons, List.mem_cons, hm, h', or_self, if_false, List.cons_append]

theorem keys_add {α : Type} : ∀ (l : List (Src α)) (c : Cat α), (c.map (·.1)).Nodup → ((addSrcs c l).map (·.1)).Nodup ∧
    ∀ n, n ∈ (addSrcs c l).map (·.1) ↔ n ∈ c.map (·.1) ∨ n ∈ l.map (·.name)
  | [], c, h => ⟨h, by simp [addSrcs]⟩
  | s :: l, c, h => by
    have hp : ((put s.name s c).map (·.1)).Nodup := by
      rw [keys_put]
      split
      · exact h
      · next hn => exact List.nodup_append.2 ⟨h, by simp, by
          intro a ha b hb hab
          rw [List.mem_singleton.1 hb] at hab
          exact hn (hab ▸ ha)⟩
    obtain ⟨h1, h2⟩ := keys_add l (put s.name s c) hp
    refine ⟨h1, fun n => ?_⟩
    show n ∈ (addSrcs (put s.name s c) l).map (·.1) ↔ _
    rw [h2, keys_put, List.map_cons, List.mem_cons]
    split
    · next hn =>
      constructor
      · rintro (a | a)
        · exact .inl a
        · exact .inr (.inr a)
      · rintro (a | a | a)
        · exact .inl a
        · exact .inl (a ▸ hn)
        · exact .inr a
    · rw [List.mem_append, List.mem_singleton]
      tauto

/-! ## C105 -/

/-- **C105**: the catalog of a file from VizieR has for every name the source of the last row with it: position, flux, index and
frequency are those of the table, fluxes in Jy. -/
theorem c105_file [CharZero F] {toFloat : List Char → Option F} (hnl : ∀ s, toFloat (s ++ ['\n']) = toFloat s) {sv : Survey} {ls : List Line}
    (hok : ∀ l ∈ ls, l.Ok toFloat sv) {es : List (Src (Body F))} (hes : List.Forall₂ (IsEntry toFloat sv) (rowsOf ls) es) (cat : Cat (Body F)) :
    ∃ cat', vizFile toFloat sv cat (fileText ls) = some cat' ∧ ∀ n, get n cat' = (lastNamed n es).or (get n cat) := by
  refine ⟨addSrcs cat es, ?_, fun n => get_addSrcs es cat n⟩
  unfold vizFile
  rw [readlines_file toFloat hok, collect_file hnl hok hes]
  rfl

/-- **C105**: where no two rows have the same name a new catalog has one source for every row, in the order of the rows. -/
theorem c105_all_partial [CharZero F] {toFloat : List Char → Option F} (hnl : ∀ s, toFloat (s ++ ['\n']) = toFloat s) {sv : Survey} {ls : List Line}
    (hok : ∀ l ∈ ls, l.Ok toFloat sv) {es : List (Src (Body F))} (hes : List.Forall₂ (IsEntry toFloat sv) (rowsOf ls) es)
    (hn : (es.map (·.name)).Nodup) : vizFile toFloat sv [] (fileText ls) = some (es.map fun s => (s.name, s)) := by
  unfold vizFile
  rw [readlines_file toFloat hok, collect_file hnl hok hes, Option.map_some, addSrcs_new es [] hn (by simp)]
  rfl

/-- **C105, disagreement**: rows with one name give one source; the other rows are lost. -/
theorem c105_lost_violated [CharZero F] {toFloat : List Char → Option F} (hnl : ∀ s, toFloat (s ++ ['\n']) = toFloat s) {sv : Survey}
    {ls : List Line} (hok : ∀ l ∈ ls, l.Ok toFloat sv) {es : List (Src (Body F))} (hes : List.Forall₂ (IsEntry toFloat sv) (rowsOf ls) es)
    (hn : ¬ (es.map (·.name)).Nodup) : ∃ cat', vizFile toFloat sv [] (fileText ls) = some cat' ∧ cat'.length < (rowsOf ls).length := by
  refine ⟨addSrcs [] es, by unfold vizFile; rw [readlines_file toFloat hok, collect_file hnl hok hes]; rfl, ?_⟩
  rw [hes.length_eq]
  obtain ⟨h1, h2⟩ := keys_add es [] (by simp)
  have hsub : (addSrcs [] es).map (·.1) ⊆ es.map (·.name) := fun n hn => by simpa using (h2 n).1 hn
  have hle := h1.subperm hsub
  have h3 := hle.length_le
  simp only [List.length_map] at h3
  refine lt_of_le_of_ne h3 fun he => hn ?_
  have := hle.perm_of_length_le (by simp only [List.length_map]; omega)
  exact this.nodup_iff.1 h1

omit [Field F] in
theorem collect_raise (A B : List (Row F)) : collect (A ++ .raise :: B) = none := by
  induction A with
  | nil => rfl
  | cons a A ih =>
    cases a with
    | skip => exact ih
    | raise => rfl
    | src s =>
      show (collect (A ++ .raise :: B)).map _ = none
      rw [ih]
      rfl

omit [Field F] in
theorem readlines_before (toFloat : List Char → Option F) {sv : Survey} {before : List Line} (hb : ∀ l ∈ before, l.Ok toFloat sv)
    (rest : List Char) : readlines (fileText before ++ rest) = before.map Line.text ++ readlines rest := by
  induction before with
  | nil => rfl
  | cons l ls ih =>
    obtain ⟨t, h1, h2⟩ := text_line toFloat (hb l (by simp))
    have e : fileText (l :: ls) ++ rest = t ++ '\n' :: (fileText ls ++ rest) := by
      unfold fileText
      rw [List.flatMap_cons, h1]
      simp
    rw [e, readlines_line h2, ih fun l' hl' => hb l' (by simp [hl']), List.map_cons, h1]
    rfl

theorem file_raise {toFloat : List Char → Option F} {sv : Survey} {before : List Line} (hb : ∀ l ∈ before, l.Ok toFloat sv)
    {cells : List (List Char)} (hc : Clean cells) (hh : startsWith ['#'] (joinWith '\t' cells ++ ['\n']) = false)
    (hr : vizRow toFloat (fmt sv) (joinWith '\t' cells ++ ['\n']) = .raise) (after : List Char) (cat : Cat (Body F)) :
    vizFile toFloat sv cat (fileText before ++ (joinWith '\t' cells ++ '\n' :: after)) = none := by
  unfold vizFile
  rw [readlines_before toFloat hb, readlines_line (not_mem_join hc), List.filter_append, List.filter_cons, if_pos (by rw [hh]; rfl),
    List.map_append, List.map_cons, hr, collect_raise]
  rfl

/-- **C105, disagreement**: a row whose first column is empty makes the whole catalog unreadable (IndexError). -/
theorem c105_blank_violated {toFloat : List Char → Option F} {sv : Survey} {before : List Line}
    (hb : ∀ l ∈ before, l.Ok toFloat sv) {cells : List (List Char)} (hc : Clean cells) (hl : 4 < cells.length) (h0 : cells[0]? = some [])
    (after : List Char) (cat : Cat (Body F)) :
    vizFile toFloat sv cat (fileText before ++ (joinWith '\t' cells ++ '\n' :: after)) = none := by
  obtain ⟨l, he⟩ : ∃ l, cells = [] :: l := by
    cases cells with
    | nil => simp at h0
    | cons a l => exact ⟨l, by simpa using h0⟩
  have hs := cut_line (by rw [he]; simp) hc (fmt sv : Fmt F).stripNl
  refine file_raise hb hc ?_ ?_ after cat
  · subst he
    cases l with
    | nil => simp at hl
    | cons a b => simp [joinWith, startsWith, List.isPrefixOf]
  · unfold vizRow
    generalize splitOn '\t' _ = text at *
    unfold vizCut
    rw [if_neg (by rw [hs.1]; omega), same_head hs he (by omega)]
    rfl

/-- **C105, disagreement**: a row whose flux is no number makes the whole catalog unreadable (ValueError), but for Parkes. -/
theorem c105_noflux_violated [CharZero F] {toFloat : List Char → Option F} (hnl : ∀ s, toFloat (s ++ ['\n']) = toFloat s) {sv : Survey}
    (hp : sv ≠ .parkes) {before : List Line} (hb : ∀ l ∈ before, l.Ok toFloat sv) {cells : List (List Char)}
    (hc : (Line.row cells).Ok toFloat sv) {c : List Char} (h0 : cells[fluxCol sv]? = some c) (hf : toFloat c = none) (after : List Char)
    (cat : Cat (Body F)) : vizFile toFloat sv cat (fileText before ++ (joinWith '\t' cells ++ '\n' :: after)) = none := by
  obtain ⟨hcl, hl, d, r, l, he, hd⟩ := hc
  obtain ⟨f1, f2, f3, f4, f5, f6, f7, f8, f9⟩ := fmt_facts (F := F) sv
  have hs := cut_line (by rw [he]; simp) hcl (fmt sv : Fmt F).stripNl
  refine file_raise hb hcl (digit_head he hd) ?_ after cat
  unfold vizRow
  generalize splitOn '\t' _ = text at *
  unfold vizCut
  rw [if_neg (by rw [hs.1]; omega), same_head hs he (by omega)]
  simp only [List.head?_cons]
  rw [if_pos ((digit_iff d).2 hd)]
  obtain ⟨u, u1, u2⟩ := same_num hnl hs h0
  unfold vizSrc
  rw [f1, f2, f3, u1]
  split
  · next ra dec h1 h2 =>
    split
    · next name fl h3 h4 =>
      obtain rfl := Option.some.inj h4
      rw [u2, hf]
      simp only
      rw [if_neg fun h => hp (f6.1 h)]
    · rfl
  · rfl

/-! ### PAPER and MRT -/

/-- `s` is the source of a row of the PAPER catalog: number, right ascension, declination, name, flux -/
structure IsPaper (toFloat : List Char → Option F) (cells : List (List Char)) (s : Src (Body F)) : Prop where
  ra : cells[1]? = some s.body.ra
  dec : cells[2]? = some s.body.dec
  name : ∃ c t, cells[3]? = some c ∧ Trimmed c t ∧ s.name = String.ofList t
  flux : ∃ c, cells[4]? = some c ∧ toFloat c = some s.body.jys
  freq : s.body.mfreq * 1000 = 150
  index : s.body.index = 0

/-- rows begin with a number, maybe after blanks; what is no row begins with another character or has at most three columns -/
def PaperOk : Line → Prop
  | .comment s => '\n' ∉ s
  | .other cells => cells ≠ [] ∧ Clean cells ∧ (cells.length ≤ 3 ∨ ∃ f l t c r, cells = f :: l ∧ Trimmed f t ∧ t = c :: r ∧ ¬ Digit c)
  | .row cells => Clean cells ∧ 4 < cells.length ∧ ∃ f l t c r, cells = f :: l ∧ Trimmed f t ∧ t = c :: r ∧ Digit c ∧ ∀ l', f ≠ '#' :: l'

theorem paper_line {l : Line} (h : PaperOk l) : ∃ t, l.text = t ++ ['\n'] ∧ '\n' ∉ t := by
  cases l with
  | comment s =>
    refine ⟨'#' :: s, rfl, ?_⟩
    simp only [List.mem_cons, not_or]
    exact ⟨by decide, h⟩
  | other cells => exact ⟨_, rfl, not_mem_join h.2.1⟩
  | row cells => exact ⟨_, rfl, not_mem_join h.1⟩

theorem paper_readlines : ∀ {ls : List Line}, (∀ l ∈ ls, PaperOk l) → readlines (fileText ls) = ls.map Line.text := by
  intro ls
  induction ls with
  | nil => intro _; rfl
  | cons l ls ih =>
    intro h
    obtain ⟨t, h1, h2⟩ := paper_line (h l (by simp))
    have e : fileText (l :: ls) = t ++ '\n' :: fileText ls := by
      unfold fileText
      rw [List.flatMap_cons, h1, List.append_assoc]
      rfl
    rw [e, readlines_line h2, ih fun l' hl' => h l' (by simp [hl']), List.map_cons, h1]

theorem paper_cut {cells : List (List Char)} (hne : cells ≠ []) (h : Clean cells) :
    Same (splitOn '\t' (joinWith '\t' cells ++ ['\n'])) cells := by
  have := cut_line hne h false
  simpa using this

theorem paper_row [CharZero F] {toFloat : List Char → Option F} (hnl : ∀ s, toFloat (s ++ ['\n']) = toFloat s) {cells : List (List Char)}
    (hok : PaperOk (.row cells)) {s : Src (Body F)} (h : IsPaper toFloat cells s) : paperRow toFloat (Line.row cells).text = .src s := by
  obtain ⟨hc, hl, f, l, t, c, r, he, ht, htc, hd, _⟩ := hok
  have hs := paper_cut (by rw [he]; simp) hc
  unfold paperRow Line.text
  simp only
  have hh := same_head hs he (by omega)
  generalize splitOn '\t' _ = text at *
  rw [if_neg (by rw [hs.1]; omega), hh, (strip_trim ht).1, htc]
  simp only [List.head?_cons]
  rw [if_pos ((digit_iff c).2 hd)]
  obtain ⟨cn, tn, n1, n2, n3⟩ := h.name
  obtain ⟨cf, g1, g2⟩ := h.flux
  obtain ⟨u, u1, u2⟩ := same_num hnl hs g1
  rw [same_inner hs h.ra (by omega), same_inner hs h.dec (by omega), same_inner hs n1 (by omega), u1]
  simp only
  rw [u2, g2]
  simp only
  have hq : s.body.mfreq = 150 / 1000 := by
    rw [eq_div_iff (by norm_num)]
    exact h.freq
  rw [(strip_trim n2).1, ← n3, ← h.index, ← hq]

theorem paper_other {toFloat : List Char → Option F} {cells : List (List Char)}
    (hok : PaperOk (.other cells)) : paperRow toFloat (Line.other cells).text = .skip := by
  obtain ⟨hne, hc, h⟩ := hok
  have hs := paper_cut hne hc
  unfold paperRow Line.text
  simp only
  by_cases hl : cells.length ≤ 3
  · rw [if_pos (by rw [hs.1]; exact hl)]
  rcases h with h | ⟨f, l, t, c, r, he, ht, htc, hd⟩
  · exact absurd h hl
  · have hh := same_head hs he (by omega)
    generalize splitOn '\t' _ = text at *
    rw [if_neg (by rw [hs.1]; exact hl), hh, (strip_trim ht).1, htc]
    simp only [List.head?_cons]
    rw [if_neg fun h' => hd ((digit_iff c).1 h')]

theorem paper_head {cells : List (List Char)} {f : List Char} {l : List (List Char)} (he : cells = f :: l) (hl : 4 < cells.length)
    (hf : ∀ l', f ≠ '#' :: l') : startsWith ['#'] (joinWith '\t' cells ++ ['\n']) = false := by
  subst he
  cases l with
  | nil => simp at hl
  | cons a b =>
    cases f with
    | nil => simp [joinWith, startsWith, List.isPrefixOf]
    | cons c f =>
      have hc : c ≠ '#' := fun h => hf f (by rw [h])
      simp [joinWith, startsWith, List.isPrefixOf, Ne.symm hc]

/-- **C105**: the same for the file of the PAPER catalog. -/
theorem c105_paper [CharZero F] {toFloat : List Char → Option F} (hnl : ∀ s, toFloat (s ++ ['\n']) = toFloat s) {ls : List Line}
    (hok : ∀ l ∈ ls, PaperOk l) {es : List (Src (Body F))} (hes : List.Forall₂ (IsPaper toFloat) (rowsOf ls) es) (cat : Cat (Body F)) :
    ∃ cat', paperFile toFloat cat (fileText ls) = some cat' ∧ ∀ n, get n cat' = (lastNamed n es).or (get n cat) := by
  have key : ∀ (ls : List Line), (∀ l ∈ ls, PaperOk l) → ∀ {es : List (Src (Body F))}, List.Forall₂ (IsPaper toFloat) (rowsOf ls) es →
      collect (((ls.map Line.text).filter fun L => !startsWith ['#'] L).map (paperRow toFloat)) = some es := by
    intro ls
    induction ls with
    | nil =>
      intro _ es he
      cases he
      rfl
    | cons l ls ih =>
      intro h es he
      have hl := h l (by simp)
      have ih' := fun {es} => ih (fun l' hl' => h l' (by simp [hl'])) (es := es)
      rw [List.map_cons, List.filter_cons]
      cases l with
      | comment s =>
        rw [if_neg (by simp [Line.text, startsWith, List.isPrefixOf])]
        exact ih' he
      | other cells =>
        split
        · rw [List.map_cons, paper_other hl]
          exact ih' he
        · exact ih' he
      | row cells =>
        obtain ⟨_, h4, f, l, t, c, r, e1, _, _, _, hf⟩ := hl
        cases he with
        | cons h1 h2 =>
          rw [if_pos (by simp only [Line.text]; rw [paper_head e1 h4 hf]; rfl), List.map_cons, paper_row hnl (h _ (by simp)) h1]
          show (collect _).map _ = _
          rw [ih' h2]
          rfl
  refine ⟨addSrcs cat es, ?_, fun n => get_addSrcs es cat n⟩
  unfold paperFile
  rw [paper_readlines hok, key ls hok hes]
  rfl

/-- a line of words, each with the white space before it, and white space at the end -/
structure WordLine where
  parts : List (List Char × List Char)
  trail : List Char

/-- the line as it is written -/
def WordLine.text (l : WordLine) : List Char := (l.parts.flatMap fun p => p.1 ++ p.2) ++ l.trail ++ ['\n']

/-- words have no white space and are apart -/
structure WordLine.Ok (l : WordLine) : Prop where
  word : ∀ p ∈ l.parts, p.2 ≠ [] ∧ ∀ c ∈ p.2, ¬ White c
  sep : ∀ p ∈ l.parts, (∀ c ∈ p.1, White c) ∧ '\n' ∉ p.1
  apart : ∀ p ∈ l.parts.tail, p.1 ≠ []
  trail : (∀ c ∈ l.trail, White c) ∧ '\n' ∉ l.trail

/-- `s` is the source of a line of the MRT catalog: name, right ascension, declination, flux -/
structure IsMrt (toFloat : List Char → Option F) (l : WordLine) (s : Src (Body F)) : Prop where
  words : ∃ p0 p1 p2 p3 rest, l.parts = p0 :: p1 :: p2 :: p3 :: rest ∧ s.name = String.ofList p0.2 ∧ s.body.ra = p1.2 ∧ s.body.dec = p2.2 ∧
    toFloat p3.2 = some s.body.jys
  freq : s.body.mfreq * 1000 = 150
  index : s.body.index = 0

theorem words_white {a : List Char} (h : ∀ c ∈ a, White c) (t : List Char) : words (a ++ t) = words t := by
  induction a with
  | nil => rfl
  | cons c a ih =>
    rw [List.cons_append, words, if_pos ((white_iff c).2 (h c (by simp))), ih fun d hd => h d (by simp [hd])]

theorem words_word : ∀ {w : List Char}, w ≠ [] → (∀ c ∈ w, ¬ White c) → ∀ {t : List Char}, (∀ c, t.head? = some c → White c) →
    words (w ++ t) = w :: words t
  | [], h, _, _, _ => absurd rfl h
  | [c], _, h, t, ht => by
    have hc : isSpace c = false := by rw [← Bool.not_eq_true, white_iff]; exact h c (by simp)
    rw [List.singleton_append, words, if_neg (by simp [hc])]
    cases t with
    | nil => rfl
    | cons d t =>
      have hd := (white_iff d).2 (ht d rfl)
      rw [List.head?_cons]
      unfold glue
      cases words (d :: t) with
      | nil => rfl
      | cons w ws => simp [hd]
  | c :: d :: w, _, h, t, ht => by
    have hc : isSpace c = false := by rw [← Bool.not_eq_true, white_iff]; exact h c (by simp)
    have hd : isSpace d = false := by rw [← Bool.not_eq_true, white_iff]; exact h d (by simp)
    have ih := words_word (w := d :: w) (by simp) (fun e he => h e (by simp [he])) ht
    rw [List.cons_append, words, if_neg (by simp [hc]), ih]
    simp [glue, hd]

theorem words_line {l : WordLine} (h : l.Ok) : words l.text = l.parts.map (·.2) := by
  have hend : ∀ c ∈ l.trail ++ ['\n'], White c := by
    intro c hc
    rcases List.mem_append.1 hc with hc | hc
    · exact h.trail.1 c hc
    · rw [List.mem_singleton.1 hc]; simp [White]
  have key : ∀ ps : List (List Char × List Char), (∀ p ∈ ps, p.2 ≠ [] ∧ ∀ c ∈ p.2, ¬ White c) → (∀ p ∈ ps, ∀ c ∈ p.1, White c) →
      (∀ p ∈ ps.tail, p.1 ≠ []) → words ((ps.flatMap fun p => p.1 ++ p.2) ++ (l.trail ++ ['\n'])) = ps.map (·.2) := by
    intro ps
    induction ps with
    | nil =>
      intro _ _ _
      have := words_white hend []
      simpa [words] using this
    | cons p ps ih =>
      intro h1 h2 h3
      rw [List.flatMap_cons, List.append_assoc, List.append_assoc, words_white (h2 p (by simp)), words_word (h1 p (by simp)).1 (h1 p (by simp)).2,
        ih (fun q hq => h1 q (by simp [hq])) (fun q hq => h2 q (by simp [hq])) (fun q hq => h3 q (List.mem_of_mem_tail hq))]
      · rfl
      · intro c hc
        cases ps with
        | nil => exact hend c (List.mem_of_mem_head? (by simpa using hc))
        | cons q qs =>
          have hq := h3 q (by simp)
          cases hq1 : q.1 with
          | nil => exact absurd hq1 hq
          | cons d r =>
            rw [List.flatMap_cons, hq1] at hc
            simp at hc
            rw [← hc]
            exact h2 q (by simp) d (by simp [hq1])
  have := key l.parts h.word (fun p hp => (h.sep p hp).1) h.apart
  unfold WordLine.text
  rw [List.append_assoc]
  exact this

theorem wordline_nl {l : WordLine} (h : l.Ok) : '\n' ∉ (l.parts.flatMap fun p => p.1 ++ p.2) ++ l.trail := by
  intro hm
  rcases List.mem_append.1 hm with hm | hm
  · obtain ⟨p, hp, hm⟩ := List.mem_flatMap.1 hm
    rcases List.mem_append.1 hm with hm | hm
    · exact (h.sep p hp).2 hm
    · exact (h.word p hp).2 _ hm (by simp [White])
  · exact h.trail.2 hm

/-- four lines of title -/
def titled (title : List (List Char)) (ls : List WordLine) : List Char := (title.flatMap fun t => t ++ ['\n']) ++ ls.flatMap WordLine.text

theorem readlines_titled {title : List (List Char)} (ht : ∀ t ∈ title, '\n' ∉ t) {ls : List WordLine} (hl : ∀ l ∈ ls, l.Ok) :
    readlines (titled title ls) = (title.map fun t => t ++ ['\n']) ++ ls.map WordLine.text := by
  unfold titled
  induction title with
  | nil =>
    rw [List.flatMap_nil, List.nil_append, List.map_nil, List.nil_append]
    induction ls with
    | nil => rfl
    | cons l ls ih =>
      rw [List.flatMap_cons, show WordLine.text l = (l.parts.flatMap fun p => p.1 ++ p.2) ++ l.trail ++ ['\n'] from rfl, List.append_assoc,
        List.singleton_append, readlines_line (wordline_nl (hl l (by simp))), ih fun l' hl' => hl l' (by simp [hl']), List.map_cons]
      rfl
  | cons t ts ih =>
    rw [List.flatMap_cons, List.append_assoc, List.append_assoc, List.singleton_append, readlines_line (ht t (by simp)),
      ih fun t' ht' => ht t' (by simp [ht'])]
    rfl

/-- **C105**: the same for the file of the MRT catalog, which has four lines of title. -/
theorem c105_mrt [CharZero F] {toFloat : List Char → Option F} {title : List (List Char)} (h4 : title.length = 4)
    (ht : ∀ t ∈ title, '\n' ∉ t) {ls : List WordLine} (hl : ∀ l ∈ ls, l.Ok) {es : List (Src (Body F))}
    (hes : List.Forall₂ (IsMrt toFloat) ls es) (cat : Cat (Body F)) :
    ∃ cat', mrtFile toFloat cat (titled title ls) = some cat' ∧ ∀ n, get n cat' = (lastNamed n es).or (get n cat) := by
  refine ⟨addSrcs cat es, ?_, fun n => get_addSrcs es cat n⟩
  unfold mrtFile
  rw [readlines_titled ht hl, List.drop_left' (by simp [h4])]
  have : collect ((ls.map WordLine.text).map (mrtRow toFloat)) = some es := by
    induction hes with
    | nil => rfl
    | @cons l s ls es h1 h2 ih =>
      have hrow : mrtRow toFloat l.text = .src s := by
        obtain ⟨p0, p1, p2, p3, rest, e1, e2, e3, e4, e5⟩ := h1.words
        unfold mrtRow
        rw [words_line (hl l (by simp)), e1]
        simp only [List.map_cons]
        rw [e5]
        simp only
        have hq : s.body.mfreq = 150 / 1000 := by
          rw [eq_div_iff (by norm_num)]
          exact h1.freq
        rw [← e2, ← e3, ← e4, ← h1.index, ← hq]
      rw [List.map_cons, List.map_cons, hrow]
      show (collect _).map _ = _
      rw [ih fun l' hl' => hl l' (by simp [hl'])]
      rfl
  rw [this]
  rfl

/-- **C105, disagreement**: a line after the title with less than four words, such as a blank one, makes the MRT catalog unreadable. -/
theorem c105_mrt_violated {toFloat : List Char → Option F} {title : List (List Char)} (h4 : title.length = 4) (ht : ∀ t ∈ title, '\n' ∉ t)
    {ls : List WordLine} (hl : ∀ l ∈ ls, l.Ok) (h : ∃ l ∈ ls, l.parts.length < 4) (cat : Cat (Body F)) :
    mrtFile toFloat cat (titled title ls) = none := by
  obtain ⟨l, hm, hlt⟩ := h
  obtain ⟨a, b, rfl⟩ := List.append_of_mem hm
  unfold mrtFile
  rw [readlines_titled ht hl, List.drop_left' (by simp [h4])]
  have hrow : mrtRow toFloat l.text = .raise := by
    unfold mrtRow
    rw [words_line (hl l hm)]
    match hp : l.parts, hlt with
    | [], _ => rfl
    | [_], _ => rfl
    | [_, _], _ => rfl
    | [_, _, _], _ => rfl
  rw [List.map_append, List.map_append, List.map_cons, List.map_cons, hrow, collect_raise]
  rfl

/-! ## The theorems on concrete files -/

/-- numbers for the examples: digits among white space -/
def demoFloat (s : List Char) : Option ℚ := (parseNat (s.filter fun c => !isSpace c)).map fun n => (n : ℚ)

theorem demo_nl (s : List Char) : demoFloat (s ++ ['\n']) = demoFloat s := by
  unfold demoFloat
  rw [List.filter_append]
  simp [isSpace]

/-- a row of 4C -/
def demoRow (name : String) (flux : String) : List (List Char) :=
  ["00 20 25".toList, "+15 40 53".toList, name.toList, [], [], flux.toList]

/-- its source -/
def demoSrc (name : String) (flux : ℚ) : Src (Body ℚ) := ⟨name, ⟨"00:20:25".toList, "+15:40:53".toList, flux, 0, 178 / 1000⟩⟩

def demoLines : List Line := [.comment "4C".toList, .other [[]], .other ["RA".toList, [], [], [], [], []], .row (demoRow " 4C 1 " "  12"),
  .row (demoRow "4C 2" "7 ")]

theorem demo_colons : Coloned "00 20 25".toList "00:20:25".toList ∧ Coloned "+15 40 53".toList "+15:40:53".toList := by
  constructor <;>
  · unfold Coloned
    simp

theorem demo_entries : List.Forall₂ (IsEntry demoFloat .fourC) (rowsOf demoLines) [demoSrc "4C 1" 12, demoSrc "4C 2" 7] := by
  refine .cons ?_ (.cons ?_ .nil)
  · refine ⟨⟨_, rfl, demo_colons.1⟩, ⟨_, rfl, demo_colons.2⟩, fun k hk => ?_, fun h => by simp [nameCol] at h, ⟨"  12".toList, 12, rfl, ?_, ?_, ?_⟩, ?_, ?_, ?_⟩
    · obtain rfl : 2 = k := by simpa [nameCol] using hk
      exact ⟨" 4C 1 ".toList, "4C 1".toList, rfl, ⟨[' '], [' '], by simp, by simp [White], by simp [White], by simp [White], by simp [White]⟩, by simp [demoSrc]⟩
    · simp [demoFloat, isSpace, parseNat, digitsVal, isDigit]
    · simp [inMilli]
    · simp [demoSrc]
    · norm_num [demoSrc, survMHz]
    · simp [demoSrc]
    · simp
  · refine ⟨⟨_, rfl, demo_colons.1⟩, ⟨_, rfl, demo_colons.2⟩, fun k hk => ?_, fun h => by simp [nameCol] at h, ⟨"7 ".toList, 7, rfl, ?_, ?_, ?_⟩, ?_, ?_, ?_⟩
    · obtain rfl : 2 = k := by simpa [nameCol] using hk
      exact ⟨"4C 2".toList, "4C 2".toList, rfl, ⟨[], [], by simp, by simp, by simp, by simp [White], by simp [White]⟩, by simp [demoSrc]⟩
    · simp [demoFloat, isSpace, parseNat, digitsVal, isDigit]
    · simp [inMilli]
    · simp [demoSrc]
    · norm_num [demoSrc, survMHz]
    · simp [demoSrc]
    · simp

theorem demo_ok : ∀ l ∈ demoLines, l.Ok demoFloat .fourC := by
  intro l hl
  simp only [demoLines, List.mem_cons, List.not_mem_nil, or_false] at hl
  rcases hl with rfl | rfl | rfl | rfl | rfl
  · simp [Line.Ok]
  · simp [Line.Ok, Clean]
  · refine ⟨by simp, by simp [Clean], .inr (.inl ⟨'R', _, _, rfl, by unfold Digit; decide⟩)⟩
  · refine ⟨by simp [Clean, demoRow], by simp [demoRow], '0', _, _, rfl, by unfold Digit; decide⟩
  · refine ⟨by simp [Clean, demoRow], by simp [demoRow], '0', _, _, rfl, by unfold Digit; decide⟩

example : vizFile demoFloat .fourC [] (fileText demoLines) = some [("4C 1", demoSrc "4C 1" 12), ("4C 2", demoSrc "4C 2" 7)] :=
  c105_all_partial demo_nl demo_ok demo_entries (by simp [demoSrc])

example : vizFile demoFloat .fourC [] (fileText demoLines ++ (joinWith '\t' [[], ['1'], [], [], []] ++ '\n' :: [])) = none :=
  c105_blank_violated demo_ok (by simp [Clean]) (by simp) rfl [] []

example : vizFile demoFloat .fourC [] (fileText demoLines ++ (joinWith '\t' (demoRow "4C 3" "x") ++ '\n' :: "more".toList)) = none :=
  c105_noflux_violated (cells := demoRow "4C 3" "x") demo_nl (by simp) demo_ok ⟨by simp [Clean, demoRow], by simp [demoRow], '0', _, _, rfl, by unfold Digit; decide⟩
    (c := "x".toList) rfl (by simp [demoFloat, isSpace, parseNat, isDigit]) _ []

/-- two rows with one name -/
example : ∃ cat', vizFile demoFloat .fourC [] (fileText [.row (demoRow "4C 2" "7 "), .row (demoRow "4C 2" "7 ")]) = some cat' ∧ cat'.length < 2 := by
  have h1 : IsEntry demoFloat .fourC (demoRow "4C 2" "7 ") (demoSrc "4C 2" 7) := by
    have := demo_entries
    cases this with
    | cons _ h => cases h with
      | cons h _ => exact h
  have h2 := demo_ok (.row (demoRow "4C 2" "7 ")) (by simp [demoLines])
  exact c105_lost_violated demo_nl (by simp [h2]) (es := [demoSrc "4C 2" 7, demoSrc "4C 2" 7]) (.cons h1 (.cons h1 .nil)) (by simp [demoSrc])

def demoPaper : List Line := [.comment "PAPER".toList, .row [" 1".toList, "1:00".toList, "2:00".toList, "pic ".toList, "450".toList]]

example : ∃ cat', paperFile demoFloat [] (fileText demoPaper) = some cat' ∧
    get "pic" cat' = some ⟨"pic", ⟨"1:00".toList, "2:00".toList, 450, 0, 150 / 1000⟩⟩ := by
  obtain ⟨cat', h1, h2⟩ := c105_paper (F := ℚ) (toFloat := demoFloat) demo_nl (ls := demoPaper) (by
    intro l hl
    simp only [demoPaper, List.mem_cons, List.not_mem_nil, or_false] at hl
    rcases hl with rfl | rfl
    · simp [PaperOk]
    · exact ⟨by simp [Clean], by simp, " 1".toList, _, "1".toList, '1', [], rfl,
        ⟨[' '], [], by simp, by simp [White], by simp, by simp [White], by simp [White]⟩, by simp, by unfold Digit; decide, by simp⟩)
    (es := [⟨"pic", ⟨"1:00".toList, "2:00".toList, 450, 0, 150 / 1000⟩⟩]) (.cons ⟨rfl, rfl, ⟨"pic ".toList, "pic".toList, rfl,
      ⟨[], [' '], by simp, by simp, by simp [White], by simp [White], by simp [White]⟩, by simp⟩, ⟨"450".toList, rfl, by
        simp [demoFloat, isSpace, parseNat, digitsVal, isDigit]⟩, by norm_num, rfl⟩ .nil) []
  exact ⟨cat', h1, by rw [h2]; simp [lastNamed]⟩

def demoMrt : WordLine := ⟨[([], "M1".toList), ([' '], "1:00".toList), ([' '], "-2:00".toList), ([' ', ' '], "33".toList)], []⟩

theorem demo_mrt_ok : demoMrt.Ok := ⟨by simp [demoMrt, White], by simp [demoMrt, White], by simp [demoMrt], by simp [demoMrt]⟩

example : ∃ cat', mrtFile demoFloat [] (titled [[], [], [], []] [demoMrt]) = some cat' ∧
    get "M1" cat' = some ⟨"M1", ⟨"1:00".toList, "-2:00".toList, 33, 0, 150 / 1000⟩⟩ := by
  obtain ⟨cat', h1, h2⟩ := c105_mrt (F := ℚ) (toFloat := demoFloat) (title := [[], [], [], []]) rfl (by simp) (ls := [demoMrt])
    (by simp [demo_mrt_ok]) (es := [⟨"M1", ⟨"1:00".toList, "-2:00".toList, 33, 0, 150 / 1000⟩⟩])
    (.cons ⟨⟨_, _, _, _, _, rfl, by simp, rfl, rfl, by simp [demoFloat, isSpace, parseNat, digitsVal, isDigit]⟩, by norm_num, rfl⟩ .nil) []
  exact ⟨cat', h1, by rw [h2]; simp [lastNamed]⟩

/-- a blank line at the end -/
example : mrtFile demoFloat [] (titled [[], [], [], []] [demoMrt, ⟨[], []⟩]) = none :=
  c105_mrt_violated rfl (by simp) (by
    simp only [List.mem_cons, List.not_mem_nil, or_false, forall_eq_or_imp, forall_eq]
    exact ⟨demo_mrt_ok, ⟨by simp, by simp, by simp, by simp⟩⟩) ⟨⟨[], []⟩, by simp, by simp⟩ []

end Verif.Misc.CatFiles
