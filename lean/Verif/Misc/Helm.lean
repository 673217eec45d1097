import Mathlib.Analysis.SpecialFunctions.Log.Base
import Mathlib.Analysis.SpecialFunctions.Pow.Real
import Verif.Misc.CatFiles
import Verif.Util.Dict
/-!
# The Helmboldt catalog (C108)

`/repo/aipy/_src/helm.py`: two tables of fixed columns, the measurements with the positions and the fitted spectra.

Simplified as in `CatFiles`, with real numbers.  Dictionaries keep the order of their keys.  What the dictionaries of the class hold after
an exception is not modelled.
-/
namespace Verif.Misc.Helm
open Verif.Util Verif.Misc Verif.Misc.CatFiles

/-! ## Model -/

/-- `L[a:b]` -/
def slice (a b : Nat) (L : List Char) : List Char := (L.take b).drop a

/-- a source: `RadioFixedBody` or `HelmboldtFixedBody` with the arguments of its constructor -/
inductive HBody
  | power (ra dec : List Char) (jys index mfreq : ℝ)
  | curved (ra dec : List Char) (jys : ℝ) (index : List ℝ) (mfreq : ℝ)

/-- the position -/
def HBody.at : HBody → List Char × List Char
  | .power ra dec _ _ _ => (ra, dec)
  | .curved ra dec _ _ _ => (ra, dec)

/-- `_jys` -/
def HBody.jys : HBody → ℝ
  | .power _ _ j _ _ => j
  | .curved _ _ j _ _ => j

/-- `mfreq` -/
def HBody.mfreq : HBody → ℝ
  | .power _ _ _ _ m => m
  | .curved _ _ _ _ m => m

/-- `update_jys` of `RadioFixedBody`, amp.py 29-33, and of `HelmboldtFixedBody`, helm.py 17-22, at one frequency -/
noncomputable def flux : HBody → ℝ → ℝ
  | .power _ _ jys index mfreq, f => jys * (f / mfreq) ^ index
  | .curved _ _ jys index mfreq, f =>
    let A := Real.logb 10 jys
    let X := Real.logb 10 (f / mfreq)
    match (index ++ [0, 0, 0]).take 3 with
    | [B, C, D] => (10 : ℝ) ^ (A + B * X + C * Real.exp (D * X))
    | _ => 0

/-- the dictionaries of the class, helm.py 45-65 -/
structure Cls where
  ncomp : List (List Char × Nat)
  metadata : List (List Char × List (ℝ × ℝ × ℝ))
  rms : List (List Char × ℝ)

/-- the dictionary `srcs` of helm.py 67 with what the class has -/
structure Pos where
  srcs : List (List Char × List Char)
  cls : Cls

/-- `int(line[33])` -/
def oneDigit : Option Char → Option Nat
  | some c => if isDigit c then some (c.toNat - 48) else none
  | none => none

/-- helm.py 75 -/
def withNcomp (n : List Char) (L : List Char) (nc : List (List Char × Nat)) : Option (List (List Char × Nat)) :=
  match dget n nc with
  | some _ => some nc
  | none => (oneDigit L[33]?).map fun k => dset n k nc

/-- a line of the first file, helm.py 72-78; `none` is an exception -/
noncomputable def posLine (toFloat : List Char → Option ℝ) (st : Pos) (L : List Char) : Option Pos :=
  let n := slice 0 9 L
  match withNcomp n L st.cls.ncomp with
  | none => none
  | some nc =>
    match toFloat (slice 58 64 L), toFloat (slice 65 73 L), toFloat (slice 74 81 L) with
    | some a, some b, some c =>
      some ⟨dset n (slice 35 57 L) st.srcs,
        { st.cls with ncomp := nc, metadata := dset n (((dget n st.cls.metadata).getD []) ++ [(a / 1000, b, c)]) st.cls.metadata }⟩
    | _, _, _ => none

/-- an entry of `srcs` from helm.py 79 on: right ascension, declination, and what was appended -/
structure Entry where
  ra : List Char
  dec : List Char
  specs : List (List ℝ)

/-- helm.py 80-82 -/
def entry (s : List Char) : Entry := ⟨colons (stripBy isSpace (s.take 10)), colons (stripBy isSpace (s.drop 11)), []⟩

/-- `list(map(float, ...))` -/
def floats (toFloat : List Char → Option ℝ) : List (List Char) → Option (List ℝ)
  | [] => some []
  | w :: ws =>
    match toFloat w with
    | none => none
    | some x => (floats toFloat ws).map (x :: ·)

/-- a line of the second file, helm.py 85-88; a name without a position is a KeyError -/
noncomputable def fitLine (toFloat : List Char → Option ℝ) (st : List (List Char × Entry) × Cls) (L : List Char) :
    Option (List (List Char × Entry) × Cls) :=
  let n := slice 0 9 L
  match dget n st.1 with
  | none => none
  | some e =>
    match floats toFloat (words (slice 13 62 L)) with
    | none => none
    | some spec => some (dset n { e with specs := e.specs ++ [spec] } st.1,
        { st.2 with rms := dset n ((toFloat (slice 63 70 L)).getD (-1)) st.2.rms })

open Classical in
/-- helm.py 94-104 for the numbers of the fit -/
noncomputable def specBody (ra dec : List Char) (spec : List ℝ) : Option HBody :=
  match spec.head? with
  | none => none
  | some s0 =>
    if spec.length < 5 ∨ (spec[3]?) = some (-99 : ℝ) then
      some (.power ra dec s0 ((spec[1]?).getD (-99)) (74 / 1000))
    else some (.curved ra dec ((10 : ℝ) ^ ((spec[3]?).getD (0 : ℝ))) (spec.drop 4) (74 / 1000))

/-- the loop of helm.py 91-106; `ra,dec,spec = srcs[s]` needs exactly one fit -/
noncomputable def bodies : List (List Char × Entry) → Option (List (Src HBody))
  | [] => some []
  | (n, e) :: l =>
    match e.specs with
    | [spec] =>
      match specBody e.ra e.dec spec with
      | none => none
      | some b => (bodies l).map (⟨String.ofList n, b⟩ :: ·)
    | _ => none

/-- `fromfile`, helm.py 66-107 -/
noncomputable def helmFile (toFloat : List Char → Option ℝ) (cls : Cls) (cat : Cat HBody) (pos fit : List Char) : Option (Cls × Cat HBody) :=
  match ((readlines pos).filter fun L => startsWith ['J'] L).foldlM (posLine toFloat) ⟨[], cls⟩ with
  | none => none
  | some p =>
    match ((readlines fit).filter fun L => startsWith ['J'] L).foldlM (fitLine toFloat) (p.srcs.map fun e => (e.1, entry e.2), p.cls) with
    | none => none
    | some q => (bodies q.1).map fun l => (q.2, addSrcs cat l)

/-! ## Specification -/

/-- a row of the table of positions, by its byte-by-byte description -/
structure PosRow where
  name : List Char
  oname : List Char
  num : Char
  ra : List Char
  dec : List Char
  freq : List Char
  flux : List Char
  err : List Char
  tail : List Char

/-- a row of the table of fits, by its byte-by-byte description -/
structure FitRow where
  name : List Char
  num : List Char
  f74 : List Char
  alp : List Char
  fext : List Char
  a : List Char
  b : List Char
  c : List Char
  d : List Char
  rms : List Char
  tail : List Char

def PosRow.text (r : PosRow) : List Char :=
  r.name ++ ' ' :: r.oname ++ ' ' :: r.num :: ' ' :: r.ra ++ ' ' :: r.dec ++ ' ' :: r.freq ++ ' ' :: r.flux ++ ' ' :: r.err ++ r.tail

def FitRow.text (r : FitRow) : List Char :=
  r.name ++ ' ' :: r.num ++ ' ' :: r.f74 ++ ' ' :: r.alp ++ ' ' :: r.fext ++ ' ' :: r.a ++ ' ' :: r.b ++ ' ' :: r.c ++ ' ' :: r.d ++ ' ' :: r.rms ++ r.tail

/-- what a column says: a number, or nothing -/
def Holds (toFloat : List Char → Option ℝ) (col : List Char) : Option ℝ → Prop
  | none => ∀ c ∈ col, White c
  | some x => ∃ a t b, col = a ++ t ++ b ∧ (∀ c ∈ a, White c) ∧ (∀ c ∈ b, White c) ∧ t ≠ [] ∧ (∀ c ∈ t, ¬ White c) ∧ toFloat t = some x

/-- a position in a table: blanks around it, blanks between its parts -/
def Place (col at' : List Char) : Prop := ∃ t, Trimmed col t ∧ Coloned t at'

/-- what a row of the table of positions says -/
structure Measured where
  name : List Char
  ncomp : Nat
  ra : List Char
  dec : List Char
  mhz : ℝ
  jys : ℝ
  err : ℝ

structure PosRow.Says (toFloat : List Char → Option ℝ) (r : PosRow) (m : Measured) : Prop where
  widths : r.name.length = 9 ∧ r.oname.length = 22 ∧ r.ra.length = 10 ∧ r.dec.length = 11 ∧ r.freq.length = 6 ∧ r.flux.length = 8 ∧ r.err.length = 7
  first : ∃ s, r.name = 'J' :: s
  line : '\n' ∉ r.text
  name : r.name = m.name
  ncomp : r.num.toNat = 48 + m.ncomp ∧ m.ncomp < 10
  ra : Place r.ra m.ra
  dec : Place r.dec m.dec
  freq : Holds toFloat r.freq (some m.mhz)
  flux : Holds toFloat r.flux (some m.jys)
  err : Holds toFloat r.err (some m.err)

/-- what a row of the table of fits says -/
structure Fit where
  name : List Char
  f74 : ℝ
  alp : Option ℝ
  fext : Option ℝ
  a : Option ℝ
  b : Option ℝ
  c : Option ℝ
  d : Option ℝ
  rms : Option ℝ

structure FitRow.Says (toFloat : List Char → Option ℝ) (r : FitRow) (q : Fit) : Prop where
  widths : r.name.length = 9 ∧ r.num.length = 2 ∧ r.f74.length = 7 ∧ r.alp.length = 5 ∧ r.fext.length = 6 ∧ r.a.length = 6 ∧ r.b.length = 6 ∧
    r.c.length = 6 ∧ r.d.length = 7 ∧ r.rms.length = 7
  first : ∃ s, r.name = 'J' :: s
  line : '\n' ∉ r.text
  name : r.name = q.name
  f74 : Holds toFloat r.f74 (some q.f74)
  alp : Holds toFloat r.alp q.alp
  fext : Holds toFloat r.fext q.fext
  a : Holds toFloat r.a q.a
  b : Holds toFloat r.b q.b
  c : Holds toFloat r.c q.c
  d : Holds toFloat r.d q.d
  rms : Holds toFloat r.rms q.rms

/-- the fits come in one of four forms: only the flux at 74 MHz; with a power law; with a line through the logarithms; with a curve -/
inductive Fit.Form : Fit → Prop
  | only (n f r) : Fit.Form ⟨n, f, none, none, none, none, none, none, r⟩
  | power (n f al fe r) : Fit.Form ⟨n, f, some al, some fe, none, none, none, none, r⟩
  | line (n f al fe a b r) (h : a ≠ -99) : Fit.Form ⟨n, f, some al, some fe, some a, some b, none, none, r⟩
  | curve (n f al fe a b c d r) (h : a ≠ -99) : Fit.Form ⟨n, f, some al, some fe, some a, some b, some c, some d, r⟩

/-- the spectrum a fit stands for, `f` in GHz and `y` in Jy: equation 1 of Helmboldt et al. (2008), `log y = A + B X + C exp(D X)` with
`X = log(f / 74 MHz)`; else the flux at 74 MHz with the slope of the power law -/
def Spectrum (q : Fit) (f y : ℝ) : Prop :=
  match q.a, q.b with
  | some A, some B => 0 < y ∧ Real.logb 10 y = A + B * Real.logb 10 (1000 * f / 74) +
      q.c.getD 0 * Real.exp (q.d.getD 0 * Real.logb 10 (1000 * f / 74))
  | _, _ => match q.alp with
    | some al => y = q.f74 * (1000 * f / 74) ^ al
    | none => f * 1000 = 74 → y = q.f74

/-- a line of a file -/
inductive HLine (R : Type)
  | other (t : List Char)
  | row (r : R)

/-- the rows of a file -/
def hrows {R : Type} : List (HLine R) → List R
  | [] => []
  | .other _ :: l => hrows l
  | .row r :: l => r :: hrows l

/-- the characters of a file; `text` is how a row is written -/
def htext {R : Type} (text : R → List Char) (ls : List (HLine R)) : List Char :=
  ls.flatMap fun l => match l with
    | .other t => t ++ ['\n']
    | .row r => text r ++ ['\n']

/-- the lines that are no rows do not begin with `J` -/
def Titles {R : Type} (ls : List (HLine R)) : Prop := ∀ t, HLine.other t ∈ ls → '\n' ∉ t ∧ ∀ s, t ≠ 'J' :: s

/-- `float` does not see white space around a number -/
def Blind (toFloat : List Char → Option ℝ) : Prop := (∀ a s b, (∀ c ∈ a, White c) → (∀ c ∈ b, White c) → toFloat (a ++ s ++ b) = toFloat s) ∧ toFloat [] = none

/-! ## Lemmas -/

theorem slice_mid {a b : Nat} {p m s : List Char} (hp : p.length = a) (hm : m.length = b - a) (hab : a ≤ b) : slice a b (p ++ (m ++ s)) = m := by
  unfold slice
  rw [← List.append_assoc, List.take_append_of_le_length (by simp; omega), List.take_of_length_le (by simp; omega), List.drop_append_of_le_length (by omega),
    List.drop_of_length_le (by omega), List.nil_append]

theorem holds_float {toFloat : List Char → Option ℝ} (hb : Blind toFloat) {col : List Char} {v : Option ℝ} (h : Holds toFloat col v) : toFloat col = v := by
  cases v with
  | none =>
    have := hb.1 col [] [] h (by simp)
    rw [hb.2] at this
    simpa using this
  | some x =>
    obtain ⟨a, t, b, rfl, ha, hb', _, _, ht⟩ := h
    rw [hb.1 a t b ha hb', ht]

theorem words_col {toFloat : List Char → Option ℝ} {col : List Char} {v : Option ℝ} (h : Holds toFloat col v) {rest : List Char}
    (hr : ∀ c, rest.head? = some c → White c) :
    floats toFloat (words (col ++ rest)) = (floats toFloat (words rest)).map (v.toList ++ ·) := by
  cases v with
  | none =>
    rw [words_white h]
    cases floats toFloat (words rest) <;> rfl
  | some x =>
    obtain ⟨a, t, b, rfl, ha, hb, hne, hnw, ht⟩ := h
    rw [List.append_assoc, List.append_assoc, words_white ha, words_word hne hnw, words_white hb, floats, ht]
    · cases floats toFloat (words rest) <;> rfl
    · intro c hc
      cases b with
      | nil => exact hr c (by simpa using hc)
      | cons d b =>
        simp at hc
        exact hc ▸ hb d (by simp)

theorem words_sp (l : List Char) : words (' ' :: l) = words l := by rw [words, if_pos (by rfl)]

/-- the numbers of a row of the table of fits -/
def Fit.nums (q : Fit) : List ℝ :=
  q.f74 :: (q.alp.toList ++ (q.fext.toList ++ (q.a.toList ++ (q.b.toList ++ (q.c.toList ++ q.d.toList)))))

theorem fit_slices {toFloat : List Char → Option ℝ} {r : FitRow} {q : Fit} (h : r.Says toFloat q) :
    slice 0 9 (r.text ++ ['\n']) = q.name ∧ floats toFloat (words (slice 13 62 (r.text ++ ['\n']))) = some q.nums ∧
      slice 63 70 (r.text ++ ['\n']) = r.rms := by
  obtain ⟨h1, h2, h3, h4, h5, h6, h7, h8, h9, h10⟩ := h.widths
  refine ⟨?_, ?_, ?_⟩
  · rw [← h.name]
    have := slice_mid (a := 0) (b := 9) (p := []) (m := r.name) (s := ' ' :: r.num ++ ' ' :: r.f74 ++ ' ' :: r.alp ++ ' ' :: r.fext ++ ' ' :: r.a ++
      ' ' :: r.b ++ ' ' :: r.c ++ ' ' :: r.d ++ ' ' :: r.rms ++ r.tail ++ ['\n']) rfl (by omega) (by omega)
    rw [← this]
    unfold FitRow.text
    simp
  · have := slice_mid (a := 13) (b := 62) (p := r.name ++ ' ' :: r.num ++ [' ']) (m := r.f74 ++ ' ' :: (r.alp ++ ' ' :: (r.fext ++ ' ' :: (r.a ++
      ' ' :: (r.b ++ ' ' :: (r.c ++ ' ' :: (r.d ++ []))))))) (s := ' ' :: r.rms ++ r.tail ++ ['\n']) (by simp; omega) (by simp; omega) (by omega)
    have he : r.text ++ ['\n'] = (r.name ++ ' ' :: r.num ++ [' ']) ++ ((r.f74 ++ ' ' :: (r.alp ++ ' ' :: (r.fext ++ ' ' :: (r.a ++
      ' ' :: (r.b ++ ' ' :: (r.c ++ ' ' :: (r.d ++ []))))))) ++ (' ' :: r.rms ++ r.tail ++ ['\n'])) := by
      unfold FitRow.text
      simp
    have hw : ∀ (l : List Char) c, (' ' :: l).head? = some c → White c := by
      intro l c hc
      simp at hc
      rw [← hc]
      simp [White]
    rw [he, this, words_col h.f74 (hw _), words_sp, words_col h.alp (hw _), words_sp, words_col h.fext (hw _), words_sp, words_col h.a (hw _), words_sp,
      words_col h.b (hw _), words_sp, words_col h.c (hw _), words_sp, words_col h.d (by simp)]
    simp [words, floats, Fit.nums]
  · have := slice_mid (a := 63) (b := 70) (p := r.name ++ ' ' :: r.num ++ ' ' :: r.f74 ++ ' ' :: r.alp ++ ' ' :: r.fext ++ ' ' :: r.a ++
      ' ' :: r.b ++ ' ' :: r.c ++ ' ' :: r.d ++ [' ']) (m := r.rms) (s := r.tail ++ ['\n']) (by simp; omega) (by omega) (by omega)
    rw [← this]
    unfold FitRow.text
    simp

theorem pos_slices {toFloat : List Char → Option ℝ} (hb : Blind toFloat) {r : PosRow} {m : Measured} (h : r.Says toFloat m) :
    slice 0 9 (r.text ++ ['\n']) = m.name ∧ (r.text ++ ['\n'])[33]? = some r.num ∧ slice 35 57 (r.text ++ ['\n']) = r.ra ++ ' ' :: r.dec ∧
      toFloat (slice 58 64 (r.text ++ ['\n'])) = some m.mhz ∧ toFloat (slice 65 73 (r.text ++ ['\n'])) = some m.jys ∧
      toFloat (slice 74 81 (r.text ++ ['\n'])) = some m.err := by
  obtain ⟨h1, h2, h3, h4, h5, h6, h7⟩ := h.widths
  refine ⟨?_, ?_, ?_, ?_, ?_, ?_⟩
  · rw [← h.name]
    have := slice_mid (a := 0) (b := 9) (p := []) (m := r.name) (s := ' ' :: r.oname ++ ' ' :: r.num :: ' ' :: r.ra ++ ' ' :: r.dec ++ ' ' :: r.freq ++
      ' ' :: r.flux ++ ' ' :: r.err ++ r.tail ++ ['\n']) rfl (by omega) (by omega)
    rw [← this]
    unfold PosRow.text
    simp
  · have he : r.text ++ ['\n'] = (r.name ++ ' ' :: r.oname ++ [' ']) ++ (r.num :: ' ' :: r.ra ++ ' ' :: r.dec ++ ' ' :: r.freq ++
      ' ' :: r.flux ++ ' ' :: r.err ++ r.tail ++ ['\n']) := by
      unfold PosRow.text
      simp
    rw [he, List.getElem?_append_right (by simp; omega)]
    have : 33 - (r.name ++ ' ' :: r.oname ++ [' ']).length = 0 := by simp; omega
    rw [this]
    simp
  · have := slice_mid (a := 35) (b := 57) (p := r.name ++ ' ' :: r.oname ++ ' ' :: r.num :: [' ']) (m := r.ra ++ ' ' :: r.dec) (s := ' ' :: r.freq ++
      ' ' :: r.flux ++ ' ' :: r.err ++ r.tail ++ ['\n']) (by simp; omega) (by simp; omega) (by omega)
    rw [← this]
    unfold PosRow.text
    simp
  · have := slice_mid (a := 58) (b := 64) (p := r.name ++ ' ' :: r.oname ++ ' ' :: r.num :: ' ' :: r.ra ++ ' ' :: r.dec ++ [' ']) (m := r.freq) (s :=
      ' ' :: r.flux ++ ' ' :: r.err ++ r.tail ++ ['\n']) (by simp; omega) (by omega) (by omega)
    rw [← holds_float hb h.freq, ← this]
    unfold PosRow.text
    simp
  · have := slice_mid (a := 65) (b := 73) (p := r.name ++ ' ' :: r.oname ++ ' ' :: r.num :: ' ' :: r.ra ++ ' ' :: r.dec ++ ' ' :: r.freq ++ [' ']) (m := r.flux)
      (s := ' ' :: r.err ++ r.tail ++ ['\n']) (by simp; omega) (by omega) (by omega)
    rw [← holds_float hb h.flux, ← this]
    unfold PosRow.text
    simp
  · have := slice_mid (a := 74) (b := 81) (p := r.name ++ ' ' :: r.oname ++ ' ' :: r.num :: ' ' :: r.ra ++ ' ' :: r.dec ++ ' ' :: r.freq ++ ' ' :: r.flux ++ [' '])
      (m := r.err) (s := r.tail ++ ['\n']) (by simp; omega) (by omega) (by omega)
    rw [← holds_float hb h.err, ← this]
    unfold PosRow.text
    simp

theorem read_lines {R : Type} {text : R → List Char} : ∀ {ls : List (HLine R)}, Titles ls → (∀ r ∈ hrows ls, '\n' ∉ text r ∧ ∃ s, text r = 'J' :: s) →
    (readlines (htext text ls)).filter (fun L => startsWith ['J'] L) = (hrows ls).map fun r => text r ++ ['\n']
  | [], _, _ => rfl
  | .other t :: ls, ht, hr => by
    obtain ⟨h1, h2⟩ := ht t (by simp)
    have ih := read_lines (fun t' h' => ht t' (by simp [h'])) hr (ls := ls)
    have he : htext text (.other t :: ls) = t ++ '\n' :: htext text ls := by simp [htext]
    have hs : startsWith ['J'] (t ++ ['\n']) = false := by
      cases t with
      | nil => rfl
      | cons c t =>
        have hc : c ≠ 'J' := fun e => h2 t (by rw [e])
        simp [startsWith, List.isPrefixOf, Ne.symm hc]
    rw [he, readlines_line h1, List.filter_cons, if_neg (by rw [hs]; simp), ih]
    rfl
  | .row r :: ls, ht, hr => by
    obtain ⟨h1, s, h2⟩ := hr r (by simp [hrows])
    have ih := read_lines (fun t' h' => ht t' (by simp [h'])) (fun r' h' => hr r' (by simp [hrows, h'])) (ls := ls)
    have he : htext text (.row r :: ls) = text r ++ '\n' :: htext text ls := by simp [htext]
    have hs : startsWith ['J'] (text r ++ ['\n']) = true := by rw [h2]; rfl
    rw [he, readlines_line h1, List.filter_cons, if_pos hs, ih]
    rfl

theorem entry_row {toFloat : List Char → Option ℝ} {r : PosRow} {m : Measured} (h : r.Says toFloat m) : entry (r.ra ++ ' ' :: r.dec) = ⟨m.ra, m.dec, []⟩ := by
  obtain ⟨_, _, h3, _⟩ := h.widths
  obtain ⟨t, a1, a2⟩ := h.ra
  obtain ⟨u, b1, b2⟩ := h.dec
  unfold entry
  have e1 : (r.ra ++ ' ' :: r.dec).take 10 = r.ra := by
    rw [List.take_append_of_le_length (by omega), List.take_of_length_le (by omega)]
  have e2 : (r.ra ++ ' ' :: r.dec).drop 11 = r.dec := by
    rw [List.drop_append]
    rw [List.drop_of_length_le (by omega), h3]
    rfl
  rw [e1, e2, (strip_trim a1).1, (strip_trim b1).1, coloned a2, coloned b2]

theorem dget_map {K V W : Type} [DecidableEq K] (f : V → W) (n : K) : ∀ d : List (K × V), dget n (d.map fun e => (e.1, f e.2)) = (dget n d).map f
  | [] => rfl
  | (k, v) :: d => by
    rw [List.map_cons, dget, dget]
    split
    · rfl
    · exact dget_map f n d

/-- what the rows of the table of positions make of the dictionaries -/
structure PosDone (ms : List Measured) (st st' : Pos) : Prop where
  srcs : ∀ n, (∃ m ∈ ms, m.name = n ∧ (dget n st'.srcs).map entry = some ⟨m.ra, m.dec, []⟩) ∨
    ((∀ m ∈ ms, m.name ≠ n) ∧ dget n st'.srcs = dget n st.srcs)
  nodup : (st.srcs.map Prod.fst).Nodup → (st'.srcs.map Prod.fst).Nodup
  old : ∀ n k, dget n st.cls.ncomp = some k → dget n st'.cls.ncomp = some k
  ncomp : ∀ n, dget n st.cls.ncomp = none → (∃ m ∈ ms, m.name = n ∧ dget n st'.cls.ncomp = some m.ncomp) ∨ ((∀ m ∈ ms, m.name ≠ n) ∧ dget n st'.cls.ncomp = none)
  md : ∀ n, (∃ m ∈ ms, m.name = n) → dget n st'.cls.metadata = some ((dget n st.cls.metadata).getD [] ++
    (ms.filter fun m => decide (m.name = n)).map fun m => (m.mhz / 1000, m.jys, m.err))
  mdNot : ∀ n, (∀ m ∈ ms, m.name ≠ n) → dget n st'.cls.metadata = dget n st.cls.metadata
  rms : st'.cls.rms = st.cls.rms

theorem digit_char {c : Char} {k : Nat} (h : c.toNat = 48 + k ∧ k < 10) : oneDigit (some c) = some k := by
  unfold oneDigit isDigit
  simp only
  rw [if_pos (by simp; omega)]
  congr 1
  omega

theorem pos_step {toFloat : List Char → Option ℝ} (hb : Blind toFloat) {r : PosRow} {m : Measured} (h : r.Says toFloat m) (st : Pos) :
    ∃ st1, posLine toFloat st (r.text ++ ['\n']) = some st1 ∧ PosDone [m] st st1 := by
  obtain ⟨h1, h2, h3, h4, h5, h6⟩ := pos_slices hb h
  have hnc : ∃ nc, withNcomp m.name (r.text ++ ['\n']) st.cls.ncomp = some nc ∧ (∀ n k, dget n st.cls.ncomp = some k → dget n nc = some k) ∧
      (∀ n, dget n st.cls.ncomp = none → (m.name = n ∧ dget n nc = some m.ncomp) ∨ (m.name ≠ n ∧ dget n nc = none)) := by
    unfold withNcomp
    cases hd : dget m.name st.cls.ncomp with
    | some k =>
      refine ⟨_, rfl, fun _ _ hk => hk, fun n hn => .inr ⟨?_, hn⟩⟩
      rintro rfl
      rw [hd] at hn
      cases hn
    | none =>
      simp only
      rw [h2, digit_char h.ncomp]
      refine ⟨_, rfl, ?_, ?_⟩
      · intro n k hk
        have : n ≠ m.name := by
          rintro rfl
          rw [hd] at hk
          cases hk
        rw [dget_dset, if_neg (Ne.symm this), hk]
      · intro n hn
        by_cases e : m.name = n
        · exact .inl ⟨e, by rw [dget_dset, if_pos e]⟩
        · exact .inr ⟨e, by rw [dget_dset, if_neg e, hn]⟩
  obtain ⟨nc, hn1, hn2, hn3⟩ := hnc
  unfold posLine
  rw [h1, h3, h4, h5, h6]
  simp only
  rw [hn1]
  refine ⟨_, rfl, ⟨?_, ?_, hn2, ?_, ?_, ?_, rfl⟩⟩
  · intro n
    by_cases e : m.name = n
    · exact .inl ⟨m, by simp, e, by simp only; rw [dget_dset, if_pos e, Option.map_some, entry_row h]⟩
    · exact .inr ⟨by simpa using e, by simp only; rw [dget_dset, if_neg e]⟩
  · exact nodup_dset _ _ _
  · intro n hn
    rcases hn3 n hn with ⟨a, b⟩ | ⟨a, b⟩
    · exact .inl ⟨m, by simp, a, b⟩
    · exact .inr ⟨by simpa using a, b⟩
  · rintro n ⟨m', hm', rfl⟩
    rw [List.mem_singleton.1 hm']
    simp only
    rw [dget_dset, if_pos rfl]
    simp
  · intro n hn
    simp only
    rw [dget_dset, if_neg (hn m (by simp))]

theorem pos_trans {m : Measured} {ms : List Measured} {a b c : Pos} (h : PosDone [m] a b) (h' : PosDone ms b c) : PosDone (m :: ms) a c := by
  refine ⟨?_, fun hn => h'.nodup (h.nodup hn), fun n k hk => h'.old n k (h.old n k hk), ?_, ?_, ?_, by rw [h'.rms, h.rms]⟩
  · intro n
    rcases h'.srcs n with ⟨x, hx, e1, e2⟩ | ⟨hx, e⟩
    · exact .inl ⟨x, by simp [hx], e1, e2⟩
    · rcases h.srcs n with ⟨x, hx', e1, e2⟩ | ⟨hx', e'⟩
      · exact .inl ⟨x, by simp at hx'; simp [hx'], e1, by rw [e, e2]⟩
      · refine .inr ⟨fun x hx2 => ?_, by rw [e, e']⟩
        rcases List.mem_cons.1 hx2 with rfl | hx2
        · exact hx' _ (by simp)
        · exact hx _ hx2
  · intro n hn
    rcases h.ncomp n hn with ⟨x, hx, e1, e2⟩ | ⟨hx, e⟩
    · exact .inl ⟨x, by simp at hx; simp [hx], e1, h'.old n _ e2⟩
    · rcases h'.ncomp n e with ⟨x, hx', e1, e2⟩ | ⟨hx', e'⟩
      · exact .inl ⟨x, by simp [hx'], e1, e2⟩
      · refine .inr ⟨fun x hx2 => ?_, e'⟩
        rcases List.mem_cons.1 hx2 with rfl | hx2
        · exact hx _ (by simp)
        · exact hx' _ hx2
  · intro n hn
    by_cases e : m.name = n
    · have hb := h.md n ⟨m, by simp, e⟩
      by_cases hms : ∃ x ∈ ms, x.name = n
      · rw [h'.md n hms, hb]
        simp [e]
      · have hms' : ∀ x ∈ ms, x.name ≠ n := fun x hx he => hms ⟨x, hx, he⟩
        rw [h'.mdNot n hms', hb]
        have : ms.filter (fun m => decide (m.name = n)) = [] := List.filter_eq_nil_iff.2 fun x hx => by simpa using hms' x hx
        simp [e, this]
    · obtain ⟨x, hx, he⟩ := hn
      have hx' : x ∈ ms := by
        rcases List.mem_cons.1 hx with rfl | hx
        · exact absurd he e
        · exact hx
      rw [h'.md n ⟨x, hx', he⟩, h.mdNot n (by simpa using e)]
      simp [e]
  · intro n hn
    rw [h'.mdNot n fun x hx => hn x (by simp [hx]), h.mdNot n fun x hx => hn x (by simp at hx; simp [hx])]

theorem pos_fold {toFloat : List Char → Option ℝ} (hb : Blind toFloat) {rs : List PosRow} {ms : List Measured} (h : List.Forall₂ (PosRow.Says toFloat) rs ms) :
    ∀ st : Pos, ∃ st', (rs.map fun r => r.text ++ ['\n']).foldlM (posLine toFloat) st = some st' ∧ PosDone ms st st' := by
  induction h with
  | nil => exact fun st => ⟨st, rfl, ⟨fun n => .inr ⟨by simp, rfl⟩, id, fun _ _ hk => hk, fun n hn => .inr ⟨by simp, hn⟩,
      fun n ⟨m, hm, _⟩ => by simp at hm, fun _ _ => rfl, rfl⟩⟩
  | cons h1 _ ih =>
    intro st
    obtain ⟨s1, e1, p1⟩ := pos_step hb h1 st
    obtain ⟨s2, e2, p2⟩ := ih s1
    refine ⟨s2, ?_, pos_trans p1 p2⟩
    rw [List.map_cons, List.foldlM_cons, e1]
    exact e2

theorem fit_fold {toFloat : List Char → Option ℝ} (hb : Blind toFloat) {rs : List FitRow} {qs : List Fit} (h : List.Forall₂ (FitRow.Says toFloat) rs qs) :
    ∀ st : List (List Char × Entry) × Cls, (∀ q ∈ qs, (dget q.name st.1).isSome) →
    ∃ st', (rs.map fun r => r.text ++ ['\n']).foldlM (fitLine toFloat) st = some st' ∧ st'.1.map Prod.fst = st.1.map Prod.fst ∧
      (∀ n e, dget n st.1 = some e → dget n st'.1 = some { e with specs := e.specs ++ (qs.filter fun q => decide (q.name = n)).map Fit.nums }) ∧
      st'.2.ncomp = st.2.ncomp ∧ st'.2.metadata = st.2.metadata ∧
      (∀ n, (∀ q ∈ qs, q.name ≠ n) → dget n st'.2.rms = dget n st.2.rms) ∧
      ((qs.map Fit.name).Nodup → ∀ q ∈ qs, dget q.name st'.2.rms = some (q.rms.getD (-1))) := by
  induction h with
  | nil => exact fun st _ => ⟨st, rfl, rfl, fun n e he => by simpa using he, rfl, rfl, fun _ _ => rfl, fun _ _ hq => by simp at hq⟩
  | @cons r q rs qs h1 _ ih =>
    intro st hk
    obtain ⟨s1, s2, s3⟩ := fit_slices h1
    obtain ⟨e, he⟩ := Option.isSome_iff_exists.1 (hk q (by simp))
    have hst : fitLine toFloat st (r.text ++ ['\n']) = some (dset q.name { e with specs := e.specs ++ [q.nums] } st.1,
        { st.2 with rms := dset q.name (q.rms.getD (-1)) st.2.rms }) := by
      unfold fitLine
      rw [s1, s2, s3, holds_float hb h1.rms]
      simp only
      rw [he]
    have hkeys : (dset q.name { e with specs := e.specs ++ [q.nums] } st.1).map Prod.fst = st.1.map Prod.fst := by
      rw [keys_dset, if_pos ((dget_isSome _ _).1 (hk q (by simp)))]
    obtain ⟨st', a1, a2, a3, a4, a5, a6, a7⟩ := ih (dset q.name { e with specs := e.specs ++ [q.nums] } st.1,
        { st.2 with rms := dset q.name (q.rms.getD (-1)) st.2.rms }) (by
      intro q' hq'
      rw [dget_isSome, hkeys, ← dget_isSome]
      exact hk q' (by simp [hq']))
    refine ⟨st', ?_, by rw [a2, hkeys], ?_, a4, a5, ?_, ?_⟩
    · rw [List.map_cons, List.foldlM_cons, hst]
      exact a1
    · intro n e' he'
      by_cases hn : q.name = n
      · subst hn
        obtain rfl := Option.some.inj (he.symm.trans he')
        rw [a3 q.name _ (by simp only; rw [dget_dset, if_pos rfl])]
        simp
      · rw [a3 n e' (by simp only; rw [dget_dset, if_neg hn, he'])]
        simp [hn]
    · intro n hn
      rw [a6 n fun q' hq' => hn q' (by simp [hq'])]
      simp only
      rw [dget_dset, if_neg (hn q (by simp))]
    · intro hnd q' hq'
      rw [List.map_cons, List.nodup_cons] at hnd
      rcases List.mem_cons.1 hq' with rfl | hq'
      · rw [a6 _ fun x hx he => hnd.1 (List.mem_map.2 ⟨x, hx, he⟩)]
        simp only
        rw [dget_dset, if_pos rfl]
      · exact a7 hnd.2 q' hq'

/-- the source of a fit -/
theorem spec_ok {q : Fit} (h : q.Form) (ra dec : List Char) : ∃ b, specBody ra dec q.nums = some b ∧ b.at = (ra, dec) ∧ b.mfreq * 1000 = 74 ∧
    ∀ f, 0 < f → Spectrum q f (flux b f) := by
  have hx : ∀ f : ℝ, f / (74 / 1000) = 1000 * f / 74 := fun f => by ring
  cases h with
  | only n f r =>
    refine ⟨_, rfl, rfl, by norm_num [HBody.mfreq], ?_⟩
    intro g _
    simp only [Spectrum]
    intro hg
    have : g / (74 / 1000 : ℝ) = 1 := by rw [hx, mul_comm, hg]; norm_num
    show f * (g / (74 / 1000)) ^ _ = f
    rw [this, Real.one_rpow, mul_one]
  | power n f al fe r =>
    refine ⟨.power ra dec f al (74 / 1000), by simp [specBody, Fit.nums], rfl, by norm_num [HBody.mfreq], ?_⟩
    intro g _
    simp only [Spectrum, flux, hx]
  | line n f al fe a b r ha =>
    refine ⟨.curved ra dec (10 ^ a) [b] (74 / 1000), by simp [specBody, Fit.nums, ha], rfl, by norm_num [HBody.mfreq], ?_⟩
    intro g _
    simp only [Spectrum, flux, hx]
    simp
    positivity
  | curve n f al fe a b c d r ha =>
    refine ⟨.curved ra dec (10 ^ a) [b, c, d] (74 / 1000), by simp [specBody, Fit.nums, ha], rfl, by norm_num [HBody.mfreq], ?_⟩
    intro g _
    simp only [Spectrum, flux, hx]
    simp
    positivity

theorem bodies_ok {P : List Char → HBody → Prop} : ∀ {S : List (List Char × Entry)},
    (∀ n e, (n, e) ∈ S → ∃ spec b, e.specs = [spec] ∧ specBody e.ra e.dec spec = some b ∧ P n b) →
    ∃ l, bodies S = some l ∧ (∀ s ∈ l, ∃ n ∈ S.map Prod.fst, s.name = String.ofList n ∧ P n s.body) ∧
      l.map (·.name) = (S.map Prod.fst).map String.ofList
  | [], _ => ⟨[], rfl, by simp, by simp⟩
  | (n, e) :: S, h => by
    obtain ⟨spec, b, h1, h2, h3⟩ := h n e (by simp)
    obtain ⟨l, a1, a2, a3⟩ := bodies_ok (S := S) fun n' e' h' => h n' e' (by simp [h'])
    refine ⟨⟨String.ofList n, b⟩ :: l, ?_, ?_, ?_⟩
    · rw [bodies, h1]
      simp only
      rw [h2]
      simp only
      rw [a1]
      rfl
    · intro s hs
      rcases List.mem_cons.1 hs with rfl | hs
      · exact ⟨n, by simp, rfl, h3⟩
      · obtain ⟨x, hx, hx2⟩ := a2 s hs
        exact ⟨x, by rw [List.map_cons]; exact List.mem_cons_of_mem _ hx, hx2⟩
    · simp only [List.map_cons]
      rw [a3]

theorem bodies_none : ∀ {S : List (List Char × Entry)} {n : List Char} {e : Entry}, (n, e) ∈ S → e.specs.length ≠ 1 → bodies S = none
  | [], _, _, h, _ => by simp at h
  | (n', e') :: S, n, e, h, hl => by
    rw [bodies]
    rcases List.mem_cons.1 h with h | h
    · obtain ⟨rfl, rfl⟩ := Prod.mk.injEq .. ▸ h
      split
      · next h1 => rw [h1] at hl; simp at hl
      · rfl
    · rw [bodies_none h hl]
      split
      · split <;> rfl
      · rfl

theorem ofList_inj {a b : List Char} (h : String.ofList a = String.ofList b) : a = b := by
  have := congrArg String.toList h
  simpa using this

theorem filter_one : ∀ {qs : List Fit}, (qs.map Fit.name).Nodup → ∀ {q : Fit}, q ∈ qs → (qs.filter fun x => decide (x.name = q.name)) = [q]
  | [], _, _, h => by simp at h
  | x :: qs, hn, q, h => by
    rw [List.map_cons, List.nodup_cons] at hn
    rcases List.mem_cons.1 h with rfl | h
    · have : qs.filter (fun x => decide (x.name = q.name)) = [] :=
        List.filter_eq_nil_iff.2 fun y hy => by simpa using fun e => hn.1 (List.mem_map.2 ⟨y, hy, e⟩)
      simp [this]
    · have hx : x.name ≠ q.name := fun e => hn.1 (List.mem_map.2 ⟨q, h, e.symm⟩)
      rw [List.filter_cons, if_neg (by simpa using hx), filter_one hn.2 h]

/-- two files as the tables describe them -/
structure Files (toFloat : List Char → Option ℝ) (P : List (HLine PosRow)) (Q : List (HLine FitRow)) (ms : List Measured) (qs : List Fit) : Prop where
  blind : Blind toFloat
  titles : Titles P ∧ Titles Q
  pos : List.Forall₂ (PosRow.Says toFloat) (hrows P) ms
  fit : List.Forall₂ (FitRow.Says toFloat) (hrows Q) qs

/-- the rows of a source agree on its position and its number of components -/
def Agree (ms : List Measured) : Prop := ∀ m ∈ ms, ∀ m' ∈ ms, m.name = m'.name → m.ra = m'.ra ∧ m.dec = m'.dec ∧ m.ncomp = m'.ncomp

theorem says_pos {toFloat : List Char → Option ℝ} {rs : List PosRow} {ms : List Measured} (h : List.Forall₂ (PosRow.Says toFloat) rs ms) :
    ∀ r ∈ rs, '\n' ∉ r.text ∧ ∃ s, r.text = 'J' :: s := by
  induction h with
  | nil => simp
  | cons h1 _ ih =>
    intro r hr
    rcases List.mem_cons.1 hr with rfl | hr
    · obtain ⟨s, hs⟩ := h1.first
      exact ⟨h1.line, _, by unfold PosRow.text; rw [hs]; simp; rfl⟩
    · exact ih r hr

theorem says_fit {toFloat : List Char → Option ℝ} {rs : List FitRow} {qs : List Fit} (h : List.Forall₂ (FitRow.Says toFloat) rs qs) :
    ∀ r ∈ rs, '\n' ∉ r.text ∧ ∃ s, r.text = 'J' :: s := by
  induction h with
  | nil => simp
  | cons h1 _ ih =>
    intro r hr
    rcases List.mem_cons.1 hr with rfl | hr
    · obtain ⟨s, hs⟩ := h1.first
      exact ⟨h1.line, _, by unfold FitRow.text; rw [hs]; simp; rfl⟩
    · exact ih r hr

/-- reading the files, up to the sources -/
theorem helm_read {toFloat : List Char → Option ℝ} {P : List (HLine PosRow)} {Q : List (HLine FitRow)} {ms : List Measured} {qs : List Fit}
    (h : Files toFloat P Q ms qs) (hk : ∀ q ∈ qs, ∃ m ∈ ms, m.name = q.name) (cls : Cls) (cat : Cat HBody) :
    ∃ S cls', helmFile toFloat cls cat (htext PosRow.text P) (htext FitRow.text Q) = (bodies S).map (fun l => (cls', addSrcs cat l)) ∧
      (S.map Prod.fst).Nodup ∧ (∀ n, n ∈ S.map Prod.fst ↔ ∃ m ∈ ms, m.name = n) ∧
      (∀ n e, (n, e) ∈ S → ∃ m ∈ ms, m.name = n ∧ e = ⟨m.ra, m.dec, (qs.filter fun q => decide (q.name = n)).map Fit.nums⟩) ∧
      (∀ n, dget n cls.ncomp = none → (∃ m ∈ ms, m.name = n) → ∃ m ∈ ms, m.name = n ∧ dget n cls'.ncomp = some m.ncomp) ∧
      (∀ n, (∃ m ∈ ms, m.name = n) → dget n cls'.metadata = some ((dget n cls.metadata).getD [] ++
        (ms.filter fun m => decide (m.name = n)).map fun m => (m.mhz / 1000, m.jys, m.err))) ∧
      ((qs.map Fit.name).Nodup → ∀ q ∈ qs, dget q.name cls'.rms = some (q.rms.getD (-1))) := by
  obtain ⟨st, e1, p⟩ := pos_fold h.blind h.pos ⟨[], cls⟩
  have hkeys : ∀ n, (dget n (st.srcs.map fun e => (e.1, entry e.2))).isSome ↔ ∃ m ∈ ms, m.name = n := by
    intro n
    rw [dget_map]
    rcases p.srcs n with ⟨m, hm, e1, e2⟩ | ⟨hm, e⟩
    · rw [e2]
      exact ⟨fun _ => ⟨m, hm, e1⟩, fun _ => rfl⟩
    · rw [e]
      constructor
      · intro h'; simp [dget] at h'
      · rintro ⟨m, hm', e⟩; exact absurd e (hm m hm')
  obtain ⟨st', f1, f2, f3, f4, f5, _, f7⟩ := fit_fold h.blind h.fit (st.srcs.map fun e => (e.1, entry e.2), st.cls) fun q hq => (hkeys q.name).2 (hk q hq)
  have hfst : (st.srcs.map fun e => (e.1, entry e.2)).map Prod.fst = st.srcs.map Prod.fst := by rw [List.map_map]; rfl
  simp only at f2 f3 f4 f5
  have hnd : (st'.1.map Prod.fst).Nodup := by rw [f2, hfst]; exact p.nodup (by simp)
  refine ⟨st'.1, st'.2, ?_, hnd, ?_, ?_, ?_, ?_, f7⟩
  · unfold helmFile
    rw [read_lines h.titles.1 (says_pos h.pos), e1]
    simp only
    rw [read_lines h.titles.2 (says_fit h.fit), f1]
  · intro n
    rw [f2, ← hkeys n, dget_isSome]
  · intro n e hne
    have hd := dget_of_mem hnd hne
    have hin : n ∈ (st.srcs.map fun e => (e.1, entry e.2)).map Prod.fst := by rw [← f2]; exact List.mem_map.2 ⟨_, hne, rfl⟩
    obtain ⟨e0, he0⟩ := Option.isSome_iff_exists.1 ((dget_isSome _ _).2 hin)
    have h3 := f3 n e0 he0
    rw [hd] at h3
    rw [dget_map] at he0
    rcases p.srcs n with ⟨m, hm, a1, a2⟩ | ⟨_, a⟩
    · rw [a2] at he0
      obtain rfl := Option.some.inj he0
      exact ⟨m, hm, a1, by simpa using Option.some.inj h3⟩
    · rw [a] at he0
      simp [dget] at he0
  · intro n hn hm
    rcases p.ncomp n hn with ⟨m, hm', a1, a2⟩ | ⟨a, _⟩
    · exact ⟨m, hm', a1, by rw [f4, a2]⟩
    · obtain ⟨m, hm', e⟩ := hm
      exact absurd e (a m hm')
  · intro n hm
    rw [f5, p.md n hm]

theorem helm_core {toFloat : List Char → Option ℝ} {P : List (HLine PosRow)} {Q : List (HLine FitRow)} {ms : List Measured} {qs : List Fit}
    (h : Files toFloat P Q ms qs) (ha : Agree ms) (hk : ∀ n, (∃ q ∈ qs, q.name = n) ↔ ∃ m ∈ ms, m.name = n) (hn : (qs.map Fit.name).Nodup)
    {R : Fit → HBody → List Char → List Char → Prop} (hR : ∀ q ∈ qs, ∀ ra dec, ∃ b, specBody ra dec q.nums = some b ∧ R q b ra dec) (cls : Cls) (cat : Cat HBody) :
    ∃ cls' cat', helmFile toFloat cls cat (htext PosRow.text P) (htext FitRow.text Q) = some (cls', cat') ∧
      (∀ q ∈ qs, ∃ b, get (String.ofList q.name) cat' = some ⟨String.ofList q.name, b⟩ ∧ ∀ m ∈ ms, m.name = q.name → R q b m.ra m.dec) ∧
      (∀ n, (∀ q ∈ qs, String.ofList q.name ≠ n) → get n cat' = get n cat) ∧
      (∀ q ∈ qs, dget q.name cls'.metadata = some ((dget q.name cls.metadata).getD [] ++
        (ms.filter fun m => decide (m.name = q.name)).map fun m => (m.mhz / 1000, m.jys, m.err))) ∧
      (∀ m ∈ ms, dget m.name cls.ncomp = none → dget m.name cls'.ncomp = some m.ncomp) ∧
      (∀ q ∈ qs, dget q.name cls'.rms = some (q.rms.getD (-1))) := by
  obtain ⟨S, cls', e, s1, s2, s3, s4, s5, s6⟩ := helm_read h (fun q hq => (hk q.name).1 ⟨q, hq, rfl⟩) cls cat
  obtain ⟨l, b1, b2, b3⟩ := bodies_ok (S := S) (P := fun n b => ∀ q ∈ qs, q.name = n → ∀ m ∈ ms, m.name = n → R q b m.ra m.dec) (by
    intro n e he
    obtain ⟨m, hm, m1, m2⟩ := s3 n e he
    obtain ⟨q, hq, hq2⟩ := (hk n).2 ⟨m, hm, m1⟩
    obtain ⟨b, r1, r2⟩ := hR q hq m.ra m.dec
    have hf := filter_one hn hq
    rw [hq2] at hf
    rw [hf] at m2
    refine ⟨q.nums, b, by rw [m2]; rfl, by rw [m2]; exact r1, ?_⟩
    intro q' hq' e' m' hm' e2
    obtain rfl : q' = q := List.inj_on_of_nodup_map hn hq' hq (e'.trans hq2.symm)
    obtain ⟨a1, a2, _⟩ := ha m' hm' m hm (e2.trans m1.symm)
    rw [a1, a2]
    exact r2)
  have hln : (l.map (·.name)).Nodup := by
    rw [b3]
    exact s1.map fun a b hab => ofList_inj hab
  refine ⟨cls', addSrcs cat l, by rw [e, b1]; rfl, ?_, ?_, fun q hq => s5 q.name ((hk q.name).1 ⟨q, hq, rfl⟩), ?_, fun q hq => s6 hn q hq⟩
  · intro q hq
    have hin : String.ofList q.name ∈ l.map (·.name) := by
      rw [b3]
      exact List.mem_map.2 ⟨q.name, (s2 q.name).2 ((hk q.name).1 ⟨q, hq, rfl⟩), rfl⟩
    obtain ⟨s, hs, hs2⟩ := List.mem_map.1 hin
    obtain ⟨n, _, hn1, hn2⟩ := b2 s hs
    obtain rfl := ofList_inj (hs2.symm.trans hn1)
    refine ⟨s.body, ?_, fun m hm e => hn2 q hq rfl m hm e⟩
    rw [get_addSrcs, lastNamed_all _ s hs2 l (fun t ht e => List.inj_on_of_nodup_map hln ht hs (e.trans hs2.symm)) hs, ← hs2]
    rfl
  · intro n hno
    rw [get_addSrcs, lastNamed_none]
    · rfl
    · intro t ht e
      obtain ⟨x, hx, hx1, _⟩ := b2 t ht
      obtain ⟨q, hq, hq2⟩ := (hk x).2 ((s2 x).1 hx)
      exact hno q hq (by rw [hq2, ← hx1, e])
  · intro m hm hnone
    obtain ⟨m', hm', e1, e2⟩ := s4 m.name hnone ⟨m, hm, rfl⟩
    rw [e2, (ha m' hm' m hm e1).2.2]

/-! ## C108 -/

/-- **C108**: reading the two files of the Helmboldt catalog gives a source for every fit, at the position of its measurements and with the
spectrum of the fit at every frequency; `get_metadata`, `get_ncomp` and `get_rms` have the measurements in GHz and Jy, the number of components and
the rms, -1 where there is none. -/
theorem c108_catalog_partial {toFloat : List Char → Option ℝ} {P : List (HLine PosRow)} {Q : List (HLine FitRow)} {ms : List Measured} {qs : List Fit}
    (h : Files toFloat P Q ms qs) (ha : Agree ms) (hk : ∀ n, (∃ q ∈ qs, q.name = n) ↔ ∃ m ∈ ms, m.name = n) (hn : (qs.map Fit.name).Nodup)
    (hf : ∀ q ∈ qs, q.Form) (cat : Cat HBody) :
    ∃ cls cat', helmFile toFloat ⟨[], [], []⟩ cat (htext PosRow.text P) (htext FitRow.text Q) = some (cls, cat') ∧
      (∀ q ∈ qs, ∃ b, get (String.ofList q.name) cat' = some ⟨String.ofList q.name, b⟩ ∧ (∀ m ∈ ms, m.name = q.name → b.at = (m.ra, m.dec)) ∧
        ∀ f, 0 < f → Spectrum q f (flux b f)) ∧
      (∀ n, (∀ q ∈ qs, String.ofList q.name ≠ n) → get n cat' = get n cat) ∧
      (∀ q ∈ qs, dget q.name cls.metadata = some ((ms.filter fun m => decide (m.name = q.name)).map fun m => (m.mhz / 1000, m.jys, m.err))) ∧
      (∀ m ∈ ms, dget m.name cls.ncomp = some m.ncomp) ∧ (∀ q ∈ qs, dget q.name cls.rms = some (q.rms.getD (-1))) := by
  obtain ⟨cls', cat', a1, a2, a3, a4, a5, a6⟩ := helm_core h ha hk hn (R := fun q b ra dec => b.at = (ra, dec) ∧ ∀ f, 0 < f → Spectrum q f (flux b f))
    (fun q hq ra dec => by
      obtain ⟨b, h1, h2, _, h3⟩ := spec_ok (hf q hq) ra dec
      exact ⟨b, h1, h2, h3⟩) ⟨[], [], []⟩ cat
  refine ⟨cls', cat', a1, ?_, a3, fun q hq => by rw [a4 q hq]; rfl, fun m hm => a5 m hm rfl, a6⟩
  intro q hq
  obtain ⟨b, h1, h2⟩ := a2 q hq
  obtain ⟨m, hm, hm2⟩ := (hk q.name).1 ⟨q, hq, rfl⟩
  exact ⟨b, h1, fun m hm e => (h2 m hm e).1, (h2 m hm hm2).2⟩

/-- **C108, disagreement**: a second catalog read in the same process gives every measurement twice in `get_metadata`. -/
theorem c108_again_violated {toFloat : List Char → Option ℝ} {P : List (HLine PosRow)} {Q : List (HLine FitRow)} {ms : List Measured} {qs : List Fit}
    (h : Files toFloat P Q ms qs) (ha : Agree ms) (hk : ∀ n, (∃ q ∈ qs, q.name = n) ↔ ∃ m ∈ ms, m.name = n) (hn : (qs.map Fit.name).Nodup)
    (hf : ∀ q ∈ qs, q.Form) : ∃ cls1 cat1 cls2 cat2, helmFile toFloat ⟨[], [], []⟩ [] (htext PosRow.text P) (htext FitRow.text Q) = some (cls1, cat1) ∧
      helmFile toFloat cls1 [] (htext PosRow.text P) (htext FitRow.text Q) = some (cls2, cat2) ∧
      ∀ q ∈ qs, ∃ l, l ≠ [] ∧ dget q.name cls1.metadata = some l ∧ dget q.name cls2.metadata = some (l ++ l) := by
  have hR : ∀ q ∈ qs, ∀ ra dec, ∃ b, specBody ra dec q.nums = some b ∧ True := fun q hq ra dec => by
    obtain ⟨b, h1, _⟩ := spec_ok (hf q hq) ra dec
    exact ⟨b, h1, trivial⟩
  obtain ⟨cls1, cat1, a1, _, _, a4, _⟩ := helm_core h ha hk hn (R := fun _ _ _ _ => True) hR ⟨[], [], []⟩ []
  obtain ⟨cls2, cat2, b1, _, _, b4, _⟩ := helm_core h ha hk hn (R := fun _ _ _ _ => True) hR cls1 []
  refine ⟨cls1, cat1, cls2, cat2, a1, b1, fun q hq => ⟨_, ?_, a4 q hq, ?_⟩⟩
  · obtain ⟨m, hm, e⟩ := (hk q.name).1 ⟨q, hq, rfl⟩
    intro h0
    have hmem : m ∈ ms.filter fun m => decide (m.name = q.name) := List.mem_filter.2 ⟨hm, by simpa using e⟩
    have h1 : (ms.filter fun m => decide (m.name = q.name)) = [] := by simpa [dget] using h0
    rw [h1] at hmem
    simp at hmem
  · rw [b4 q hq, a4 q hq]
    simp [dget]

/-- **C108, disagreement**: a source with measurements and no fit, or with two, makes the whole catalog fail. -/
theorem c108_nofit_violated {toFloat : List Char → Option ℝ} {P : List (HLine PosRow)} {Q : List (HLine FitRow)} {ms : List Measured} {qs : List Fit}
    (h : Files toFloat P Q ms qs) (hk : ∀ q ∈ qs, ∃ m ∈ ms, m.name = q.name) {m : Measured} (hm : m ∈ ms)
    (hq : (qs.filter fun q => decide (q.name = m.name)).length ≠ 1) (cls : Cls) (cat : Cat HBody) :
    helmFile toFloat cls cat (htext PosRow.text P) (htext FitRow.text Q) = none := by
  obtain ⟨S, cls', e, s1, s2, s3, _⟩ := helm_read h hk cls cat
  obtain ⟨⟨n, en⟩, hn, rfl⟩ := List.mem_map.1 ((s2 m.name).2 ⟨m, hm, rfl⟩)
  obtain ⟨_, _, _, m2⟩ := s3 _ _ hn
  rw [e, bodies_none hn]
  · rfl
  · rw [m2]
    simpa using hq

/-- **C108, disagreement**: the columns of the fit are taken in the order of what is there, so that for a source with the parameters A and B and
without a power law above 300 MHz the parameter A is taken for the slope. -/
theorem c108_gap_violated {toFloat : List Char → Option ℝ} {P : List (HLine PosRow)} {Q : List (HLine FitRow)} {ms : List Measured} {qs : List Fit}
    (h : Files toFloat P Q ms qs) (ha : Agree ms) (hk : ∀ n, (∃ q ∈ qs, q.name = n) ↔ ∃ m ∈ ms, m.name = n) (hn : (qs.map Fit.name).Nodup)
    {n : List Char} {f74 A B : ℝ} {rms : Option ℝ} (hg : ⟨n, f74, none, none, some A, some B, none, none, rms⟩ ∈ qs)
    (hf : ∀ q ∈ qs, q.Form ∨ q = ⟨n, f74, none, none, some A, some B, none, none, rms⟩) (cls : Cls) (cat : Cat HBody) :
    ∃ cls' cat' b, helmFile toFloat cls cat (htext PosRow.text P) (htext FitRow.text Q) = some (cls', cat') ∧
      get (String.ofList n) cat' = some ⟨String.ofList n, b⟩ ∧ ∀ f, flux b f = f74 * (1000 * f / 74) ^ A := by
  obtain ⟨cls', cat', a1, a2, _⟩ := helm_core h ha hk hn (R := fun q b _ _ => q = ⟨n, f74, none, none, some A, some B, none, none, rms⟩ →
      ∀ f, flux b f = f74 * (1000 * f / 74) ^ A)
    (fun q hq ra dec => by
      rcases hf q hq with h1 | rfl
      · obtain ⟨b, h2, _⟩ := spec_ok h1 ra dec
        refine ⟨b, h2, ?_⟩
        rintro rfl
        cases h1
      · refine ⟨.power ra dec f74 A (74 / 1000), by simp [specBody, Fit.nums], fun _ f => ?_⟩
        show f74 * (f / (74 / 1000)) ^ A = _
        congr 2
        ring) cls cat
  obtain ⟨b, h1, h2⟩ := a2 _ hg
  obtain ⟨m, hm, hm2⟩ := (hk n).1 ⟨_, hg, rfl⟩
  exact ⟨cls', cat', b, a1, h1, h2 m hm hm2 rfl⟩

/-- **C108, disagreement**: `jys` of a source with a curved spectrum is not its flux at `mfreq`: they differ by the factor `10 ** C`. -/
theorem c108_jys_violated {toFloat : List Char → Option ℝ} {P : List (HLine PosRow)} {Q : List (HLine FitRow)} {ms : List Measured} {qs : List Fit}
    (h : Files toFloat P Q ms qs) (ha : Agree ms) (hk : ∀ n, (∃ q ∈ qs, q.name = n) ↔ ∃ m ∈ ms, m.name = n) (hn : (qs.map Fit.name).Nodup)
    (hf : ∀ q ∈ qs, q.Form) {q : Fit} (hq : q ∈ qs) {C : ℝ} (hc : q.c = some C) (hC : C ≠ 0) (cls : Cls) (cat : Cat HBody) :
    ∃ cls' cat' b, helmFile toFloat cls cat (htext PosRow.text P) (htext FitRow.text Q) = some (cls', cat') ∧
      get (String.ofList q.name) cat' = some ⟨String.ofList q.name, b⟩ ∧ flux b b.mfreq = b.jys * 10 ^ C ∧ flux b b.mfreq ≠ b.jys := by
  obtain ⟨cls', cat', a1, a2, _⟩ := helm_core h ha hk hn (R := fun q b _ _ => ∀ C, q.c = some C → flux b b.mfreq = b.jys * 10 ^ C ∧ 0 < b.jys)
    (fun q hq ra dec => by
      have h1 := hf q hq
      obtain ⟨b, h2, _⟩ := spec_ok h1 ra dec
      cases h1 with
      | curve n f al fe a b c d r h99 =>
        refine ⟨.curved ra dec (10 ^ a) [b, c, d] (74 / 1000), by simp [specBody, Fit.nums, h99], ?_⟩
        intro C hC
        obtain rfl := Option.some.inj hC
        constructor
        · simp only [flux, HBody.mfreq, HBody.jys]
          rw [div_self (by norm_num)]
          simp
          rw [Real.rpow_add (by norm_num)]
        · show (0 : ℝ) < 10 ^ a
          positivity
      | only => exact ⟨b, h2, fun C hC => by cases hC⟩
      | power => exact ⟨b, h2, fun C hC => by cases hC⟩
      | line => exact ⟨b, h2, fun C hC => by cases hC⟩) cls cat
  obtain ⟨b, h1, h2⟩ := a2 q hq
  obtain ⟨m, hm, hm2⟩ := (hk q.name).1 ⟨q, hq, rfl⟩
  obtain ⟨h3, h4⟩ := h2 m hm hm2 C hc
  refine ⟨cls', cat', b, a1, h1, h3, ?_⟩
  rw [h3]
  intro h5
  have h6 : (10 : ℝ) ^ C = 1 := by
    have := mul_left_cancel₀ h4.ne' (h5.trans (mul_one _).symm)
    exact this
  have h7 := Real.logb_rpow (b := 10) (x := C) (by norm_num) (by norm_num)
  rw [h6, Real.logb_one] at h7
  exact hC h7.symm

/-! ## The theorems on concrete files -/

/-- numbers without sign and point -/
noncomputable def demoNum (s : List Char) : Option ℝ := (parseNat (s.filter fun c => !isSpace c)).map fun n => (n : ℝ)

theorem demo_blind : Blind demoNum := by
  have hw : ∀ a : List Char, (∀ c ∈ a, White c) → a.filter (fun c => !isSpace c) = [] := fun a h =>
    List.filter_eq_nil_iff.2 fun c hc => by simpa using (white_iff c).2 (h c hc)
  refine ⟨fun a s b ha hb => ?_, rfl⟩
  unfold demoNum
  rw [List.filter_append, List.filter_append, hw a ha, hw b hb, List.nil_append, List.append_nil]

def demoPosRow (freq flux : String) : PosRow :=
  ⟨"J0000+554".toList, "87GB 235746.2+552220  ".toList, '1', "00 00 20.4".toList, "+55 39 06.1".toList, freq.toList, flux.toList, "      2".toList, []⟩

def demoP : List (HLine PosRow) := [.other "Title: Spectra".toList, .row (demoPosRow "    74" "     15 "), .row (demoPosRow "   325" "      6 ")]

noncomputable def demoMs : List Measured :=
  [⟨"J0000+554".toList, 1, "00:00:20.4".toList, "+55:39:06.1".toList, 74, 15, 2⟩, ⟨"J0000+554".toList, 1, "00:00:20.4".toList, "+55:39:06.1".toList, 325, 6, 2⟩]

def demoFitRow (alp fext a b c d : String) : FitRow :=
  ⟨"J0000+554".toList, " 7".toList, "    15 ".toList, alp.toList, fext.toList, a.toList, b.toList, c.toList, d.toList, "       ".toList, " ".toList⟩

def demoCurve : FitRow := demoFitRow "  1  " " 23   " "  2   " "  3   " "  1   " "  20   "

def demoGap : FitRow := demoFitRow "     " "      " "  2   " "  3   " "      " "       "

theorem demo_holds (a t b col : String) (k : Nat) {x : ℝ} (hx : x = k) (h : (col.toList = a.toList ++ t.toList ++ b.toList ∧ (∀ c ∈ a.toList, White c) ∧
    (∀ c ∈ b.toList, White c) ∧ t.toList ≠ [] ∧ ∀ c ∈ t.toList, ¬ White c)) (hk : parseNat (t.toList.filter fun c => !isSpace c) = some k) :
    Holds demoNum col.toList (some x) :=
  ⟨_, _, _, h.1, h.2.1, h.2.2.1, h.2.2.2.1, h.2.2.2.2, by unfold demoNum; rw [hk, hx]; rfl⟩

theorem demo_blank (k : Nat) : ∀ c ∈ List.replicate k ' ', White c := fun c hc => by
  rw [List.eq_of_mem_replicate hc]
  simp [White]

theorem demo_place : Place "00 00 20.4".toList "00:00:20.4".toList ∧ Place "+55 39 06.1".toList "+55:39:06.1".toList := by
  refine ⟨⟨"00 00 20.4".toList, ⟨[], [], by simp, by simp, by simp, by simp [White], by simp [White]⟩, by simp [Coloned]⟩,
    ⟨"+55 39 06.1".toList, ⟨[], [], by simp, by simp, by simp, by simp [White], by simp [White]⟩, by simp [Coloned]⟩⟩

theorem demo_pos {freq flux : String} {x y : ℝ} (hl : freq.toList.length = 6 ∧ flux.toList.length = 8) (h1 : '\n' ∉ freq.toList ++ flux.toList)
    (hx : Holds demoNum freq.toList (some x)) (hy : Holds demoNum flux.toList (some y)) :
    (demoPosRow freq flux).Says demoNum ⟨"J0000+554".toList, 1, "00:00:20.4".toList, "+55:39:06.1".toList, x, y, 2⟩ := by
  rw [List.mem_append, not_or] at h1
  refine ⟨⟨rfl, rfl, rfl, rfl, hl.1, hl.2, rfl⟩, ⟨_, rfl⟩, ?_, rfl, ⟨rfl, by show 1 < 10; omega⟩, demo_place.1, demo_place.2, hx, hy, ?_⟩
  · have h0 : '\n' ∉ "J0000+554".toList ++ ' ' :: "87GB 235746.2+552220  ".toList ++ ' ' :: '1' :: ' ' :: "00 00 20.4".toList ++ ' ' :: "+55 39 06.1".toList := by
      decide +kernel
    have h2 : '\n' ∉ "      2".toList := by decide +kernel
    unfold PosRow.text demoPosRow
    intro hm
    rcases List.mem_append.1 hm with hm | hm
    · rcases List.mem_append.1 hm with hm | hm
      · rcases List.mem_append.1 hm with hm | hm
        · rcases List.mem_append.1 hm with hm | hm
          · exact h0 hm
          · exact h1.1 ((List.mem_cons.1 hm).resolve_left (by decide))
        · exact h1.2 ((List.mem_cons.1 hm).resolve_left (by decide))
      · exact h2 ((List.mem_cons.1 hm).resolve_left (by decide))
    · simp at hm
  · exact demo_holds "      " "2" "" "      2" 2 (by norm_num) (by simp [White]) (by simp [isSpace, parseNat, digitsVal, isDigit])

theorem demo_f74 : Holds demoNum "    15 ".toList (some 15) :=
  demo_holds "    " "15" " " "    15 " 15 (by norm_num) (by simp [White]) (by simp [isSpace, parseNat, digitsVal, isDigit])

noncomputable def demoCurveFit : Fit := ⟨"J0000+554".toList, 15, some 1, some 23, some 2, some 3, some 1, some 20, none⟩

noncomputable def demoGapFit : Fit := ⟨"J0000+554".toList, 15, none, none, some 2, some 3, none, none, none⟩

theorem demo_curve : demoCurve.Says demoNum demoCurveFit := by
  refine ⟨⟨rfl, rfl, rfl, rfl, rfl, rfl, rfl, rfl, rfl, rfl⟩, ⟨_, rfl⟩, ?_, rfl, demo_f74, ?_, ?_, ?_, ?_, ?_, ?_, ?_⟩
  · decide +kernel
  · exact demo_holds "  " "1" "  " "  1  " 1 (by norm_num) (by simp [White]) (by simp [isSpace, parseNat, digitsVal, isDigit])
  · exact demo_holds " " "23" "   " " 23   " 23 (by norm_num) (by simp [White]) (by simp [isSpace, parseNat, digitsVal, isDigit])
  · exact demo_holds "  " "2" "   " "  2   " 2 (by norm_num) (by simp [White]) (by simp [isSpace, parseNat, digitsVal, isDigit])
  · exact demo_holds "  " "3" "   " "  3   " 3 (by norm_num) (by simp [White]) (by simp [isSpace, parseNat, digitsVal, isDigit])
  · exact demo_holds "  " "1" "   " "  1   " 1 (by norm_num) (by simp [White]) (by simp [isSpace, parseNat, digitsVal, isDigit])
  · exact demo_holds "  " "20" "   " "  20   " 20 (by norm_num) (by simp [White]) (by simp [isSpace, parseNat, digitsVal, isDigit])
  · exact demo_blank 7

theorem demo_gap : demoGap.Says demoNum demoGapFit := by
  refine ⟨⟨rfl, rfl, rfl, rfl, rfl, rfl, rfl, rfl, rfl, rfl⟩, ⟨_, rfl⟩, ?_, rfl, demo_f74, ?_, ?_, ?_, ?_, ?_, ?_, ?_⟩
  · decide +kernel
  · exact demo_blank 5
  · exact demo_blank 6
  · exact demo_holds "  " "2" "   " "  2   " 2 (by norm_num) (by simp [White]) (by simp [isSpace, parseNat, digitsVal, isDigit])
  · exact demo_holds "  " "3" "   " "  3   " 3 (by norm_num) (by simp [White]) (by simp [isSpace, parseNat, digitsVal, isDigit])
  · exact demo_blank 6
  · exact demo_blank 7
  · exact demo_blank 7

theorem demo_rows : List.Forall₂ (PosRow.Says demoNum) (hrows demoP) demoMs := by
  refine .cons (demo_pos ⟨rfl, rfl⟩ (by simp) ?_ ?_) (.cons (demo_pos ⟨rfl, rfl⟩ (by simp) ?_ ?_) .nil)
  · exact demo_holds "    " "74" "" "    74" 74 (by norm_num) (by simp [White]) (by simp [isSpace, parseNat, digitsVal, isDigit])
  · exact demo_holds "     " "15" " " "     15 " 15 (by norm_num) (by simp [White]) (by simp [isSpace, parseNat, digitsVal, isDigit])
  · exact demo_holds "   " "325" "" "   325" 325 (by norm_num) (by simp [White]) (by simp [isSpace, parseNat, digitsVal, isDigit])
  · exact demo_holds "      " "6" " " "      6 " 6 (by norm_num) (by simp [White]) (by simp [isSpace, parseNat, digitsVal, isDigit])

theorem demo_files : Files demoNum demoP [.row demoCurve] demoMs [demoCurveFit] :=
  ⟨demo_blind, ⟨by simp [Titles, demoP], by simp [Titles]⟩, demo_rows, .cons demo_curve .nil⟩

theorem demo_gapfiles : Files demoNum demoP [.row demoGap] demoMs [demoGapFit] :=
  ⟨demo_blind, ⟨by simp [Titles, demoP], by simp [Titles]⟩, demo_rows, .cons demo_gap .nil⟩

theorem demo_agree : Agree demoMs := by simp [Agree, demoMs]

theorem demo_same (q : Fit) (h : q.name = "J0000+554".toList) : ∀ n, (∃ q' ∈ [q], q'.name = n) ↔ ∃ m ∈ demoMs, m.name = n := by
  intro n
  simp [demoMs, h]

theorem demo_form : ∀ q ∈ [demoCurveFit], q.Form := by
  simp only [List.mem_singleton]
  rintro q rfl
  exact .curve _ _ _ _ _ _ _ _ _ (by norm_num)

/-- the source is there, with the curve of its fit -/
example : ∃ cls cat b, helmFile demoNum ⟨[], [], []⟩ [] (htext PosRow.text demoP) (htext FitRow.text [.row demoCurve]) = some (cls, cat) ∧
    get "J0000+554" cat = some ⟨"J0000+554", b⟩ ∧ b.at = ("00:00:20.4".toList, "+55:39:06.1".toList) ∧
    (∀ f, 0 < f → Spectrum demoCurveFit f (flux b f)) ∧
    dget "J0000+554".toList cls.metadata = some [(74 / 1000, 15, 2), (325 / 1000, 6, 2)] ∧ dget "J0000+554".toList cls.ncomp = some 1 := by
  obtain ⟨cls, cat, a1, a2, _, a4, a5, _⟩ := c108_catalog_partial demo_files demo_agree (demo_same _ rfl) (by simp) demo_form []
  obtain ⟨b, b1, b2, b3⟩ := a2 demoCurveFit (by simp)
  have hm : (⟨"J0000+554".toList, 1, "00:00:20.4".toList, "+55:39:06.1".toList, 74, 15, 2⟩ : Measured) ∈ demoMs := by simp [demoMs]
  have hn : demoCurveFit.name = "J0000+554".toList := rfl
  have h4 := a4 demoCurveFit (by simp)
  rw [hn] at h4
  refine ⟨cls, cat, b, a1, b1, b2 _ hm hn.symm, b3, ?_, a5 _ hm⟩
  rw [h4]
  simp [demoMs]

example : ∃ cls1 cat1 cls2 cat2, helmFile demoNum ⟨[], [], []⟩ [] (htext PosRow.text demoP) (htext FitRow.text [.row demoCurve]) = some (cls1, cat1) ∧
    helmFile demoNum cls1 [] (htext PosRow.text demoP) (htext FitRow.text [.row demoCurve]) = some (cls2, cat2) ∧
    ∀ q ∈ [demoCurveFit], ∃ l, l ≠ [] ∧ dget q.name cls1.metadata = some l ∧ dget q.name cls2.metadata = some (l ++ l) :=
  c108_again_violated demo_files demo_agree (demo_same _ rfl) (by simp) demo_form

/-- the measurements without a fit -/
example : helmFile demoNum ⟨[], [], []⟩ [] (htext PosRow.text demoP) (htext FitRow.text []) = none :=
  c108_nofit_violated (m := demoMs.head (by simp [demoMs])) (qs := []) ⟨demo_blind, ⟨by simp [Titles, demoP], by simp [Titles]⟩, demo_rows, .nil⟩ (by simp)
    (List.head_mem _) (by simp) _ _

example : ∃ cls cat b, helmFile demoNum ⟨[], [], []⟩ [] (htext PosRow.text demoP) (htext FitRow.text [.row demoGap]) = some (cls, cat) ∧
    get "J0000+554" cat = some ⟨"J0000+554", b⟩ ∧ ∀ f, flux b f = 15 * (1000 * f / 74) ^ (2 : ℝ) :=
  c108_gap_violated demo_gapfiles demo_agree (demo_same _ rfl) (by simp) (List.mem_singleton.2 rfl) (fun q hq => .inr (List.mem_singleton.1 hq)) _ _

example : ∃ cls cat b, helmFile demoNum ⟨[], [], []⟩ [] (htext PosRow.text demoP) (htext FitRow.text [.row demoCurve]) = some (cls, cat) ∧
    get "J0000+554" cat = some ⟨"J0000+554", b⟩ ∧ flux b b.mfreq = b.jys * 10 ^ (1 : ℝ) ∧ flux b b.mfreq ≠ b.jys :=
  c108_jys_violated demo_files demo_agree (demo_same _ rfl) (by simp) demo_form (q := demoCurveFit) (by simp) rfl (by norm_num) _ _

end Verif.Misc.Helm
