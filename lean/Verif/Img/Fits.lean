import Mathlib.Algebra.Order.Ring.Rat
import Mathlib.Algebra.Order.AbsoluteValue.Basic
import Mathlib.Tactic.NormNum
import Mathlib.Tactic.IntervalCases
import Mathlib.Tactic.Ring
import Mathlib.Tactic.Linarith
import Mathlib.Tactic.FieldSimp
import Verif.Util.Dict
import Verif.Util.Text
/-!
# Images in FITS files (C117)

`to_fits`, `from_fits`, `find_axis`, `/repo/aipy/img.py` 328-439, with a `pyfits` that keeps what it is given: a file is an array and
a header.  A key as `'CTYPE%d' % i` is the pair of `CTYPE` and `i`.  Numbers are exact.  Not modelled: `BSCALE`, `BZERO` and `NAXISn`,
which `pyfits` sets itself on writing, `DATAMAX`, `DATAMIN`, comments and history (C97).
-/
namespace Verif.Img.Fits
open Verif.Util

/-! ## Model -/

/-- an array: shape and values, last index fastest -/
structure Arr (V : Type) where
  shape : List Nat
  data : List V

/-- `squeeze()` -/
def squeeze {V : Type} (a : Arr V) : Arr V := ⟨a.shape.filter (· ≠ 1), a.data⟩

/-- keys of a header -/
inductive Key where
  | k (name : String)
  | ax (name : String) (i : Nat)
deriving DecidableEq

/-- values of a header -/
inductive Val where
  | txt (s : List Char)
  | num (x : ℚ)
deriving DecidableEq

abbrev Header := List (Key × Val)

/-- files by name -/
abbrev FS (V : Type) := List (String × (Arr V × Header))

/-- `str.lower`, `str.upper` (ASCII) -/
def lower (s : List Char) : List Char := s.map Char.toLower
def upper (s : List Char) : List Char := s.map Char.toUpper

/-- the keyword arguments of `to_fits`, img.py 328-333 -/
structure Args where
  axes : List (List Char)
  object : List Char
  telescope : List Char
  instrument : List Char
  observer : List Char
  origin : List Char
  obsDate : List Char
  curDate : List Char
  ra : ℚ
  dec : ℚ
  dRa : ℚ
  dDec : ℚ
  epoch : ℚ
  freq : ℚ
  dFreq : ℚ

/-- img.py 365-369 -/
def valDelta (p : Args) (ax : List Char) : ℚ × ℚ :=
  if startsWith "ra".toList (lower ax) ∨ startsWith "glon".toList (lower ax) then (p.ra, p.dRa)
  else if startsWith "dec".toList (lower ax) ∨ startsWith "glat".toList (lower ax) then (p.dec, p.dDec)
  else if startsWith "freq".toList (lower ax) then (p.freq, p.dFreq)
  else if startsWith "stokes".toList (lower ax) then (1, 1)
  else (0, 0)

/-- `np.ceil(shape[-(i+1)]/2.)`, img.py 373, 375 -/
def refPix (shape : List Nat) (i : Nat) : ℚ := ((shape.getD (shape.length - 1 - i) 0 + 1) / 2 : Nat)

/-- img.py 364-381 for one axis -/
def axisStep (p : Args) (shape : List Nat) (h : Header) (x : List Char × Nat) : Header :=
  let vd := valDelta p x.1
  let h := dset (.ax "CTYPE" (x.2 + 1)) (.txt (upper x.1)) h
  let h := dset (.ax "CRPIX" (x.2 + 1)) (.num (refPix shape x.2)) h
  let h := dset (.ax "CRVAL" (x.2 + 1)) (.num vd.1) h
  let h := dset (.ax "CDELT" (x.2 + 1))
    (.num (if (startsWith "ra".toList (lower x.1) ∨ startsWith "glon".toList (lower x.1)) ∧ 0 < vd.2 then vd.2 * -1 else vd.2)) h
  dset (.ax "CROTA" (x.2 + 1)) (.num 0) h

/-- `to_fits`, img.py 328-394; `none` is an exception -/
def toFits {V : Type} (fs : FS V) (filename : String) (a : Arr V) (_clobber : Bool) (p : Args) : Option (FS V) :=
  let a := squeeze a
  if a.shape.length ≠ p.axes.length then none
  else
    let h : Header := [(.k "TRANSPOS", .num 0), (.k "OBJECT", .txt p.object), (.k "TELESCOP", .txt p.telescope), (.k "INSTRUME", .txt p.instrument),
      (.k "OBSERVER", .txt p.observer), (.k "DATE-OBS", .txt p.obsDate), (.k "EQUINOX", .num p.epoch), (.k "EPOCH", .num p.epoch)]
    let h := p.axes.zipIdx.foldl (axisStep p a.shape) h
    let h := dset (.k "ORIGIN") (.txt p.origin) h
    let h := dset (.k "DATE") (.txt p.curDate) h
    some (dset filename (a, h) fs)

/-- the dictionary `from_fits` returns, and its entry `axes` -/
structure Kwds where
  d : List (String × Val)
  axes : List (List Char)

/-- img.py 411-414 -/
def hitems : List (String × String) :=
  [("OBJECT", "object"), ("TELESCOP", "telescope"), ("INSTRUME", "instrument"), ("OBSERVER", "observer"), ("DATE-OBS", "obs_date"),
   ("EQUINOX", "epoch"), ("ORIGIN", "origin"), ("DATE", "cur_date")]

/-- img.py 415-417 -/
def readItem (h : Header) (d : List (String × Val)) (x : String × String) : List (String × Val) :=
  match dget (.k x.1) h with
  | some v => dset x.2 v d
  | none => d

/-- img.py 425-429 -/
def putAxis (ax : List Char) (val delta : Val) (d : List (String × Val)) : List (String × Val) :=
  if startsWith "ra".toList ax then dset "d_ra" delta (dset "ra" val d)
  else if startsWith "dec".toList ax then dset "d_dec" delta (dset "dec" val d)
  else if startsWith "freq".toList ax then dset "d_freq" delta (dset "freq" val d)
  else d

/-- img.py 419-430 for one axis; a `CTYPE` that is not a text raises, which is not caught -/
def readAxis (h : Header) (kw : Kwds) (i : Nat) : Kwds :=
  match dget (.ax "CTYPE" (i + 1)) h with
  | some (.txt s) =>
    match dget (.ax "CRVAL" (i + 1)) h, dget (.ax "CDELT" (i + 1)) h with
    | some val, some delta => ⟨putAxis (lower s) val delta kw.d, kw.axes ++ [lower s]⟩
    | _, _ => ⟨kw.d, kw.axes ++ [lower s]⟩
  | _ => kw

/-- `from_fits`, img.py 396-432; `none` is an exception (no such file) -/
def fromFits {V : Type} (transpose : Arr V → Arr V) (fs : FS V) (filename : String) : Option (Arr V × Kwds) :=
  match dget filename fs with
  | none => none
  | some (a, h) =>
    let data := match dget (.k "TRANSPOS") h with
      | some v => if v = .num 0 then a else transpose a
      | none => a
    let d := hitems.foldl (readItem h) []
    some (data, (List.range a.shape.length).foldl (readAxis h) ⟨d, []⟩)

/-- what `find_axis` does -/
inductive Found where
  | number (n : Nat)
  | nothing
  | raises
deriving DecidableEq

/-- `int(k[1][5])`, img.py 439 -/
def sixth (s : List Char) : Found :=
  match s[5]? with
  | some c => if isDigit c then .number (c.toNat - 48) else .raises
  | none => .raises

/-- `find_axis`, img.py 434-439, on the items of a header -/
def findAxis (name : List Char) : Header → Found
  | [] => .nothing
  | (.ax s _, .txt v) :: h => if s = "CTYPE" ∧ startsWith name (lower v) then sixth v else findAxis name h
  | _ :: h => findAxis name h

/-! ## Specification -/

/-- the name of the axis begins with `p`, in letters of any case -/
def Begins (p : String) (ax : List Char) : Prop := ∃ rest, ax.map Char.toLower = p.toList ++ rest

/-- where a FITS reader puts pixel `x` (from zero) of axis `i` (from one) -/
def world (h : Header) (i x : Nat) : Option ℚ :=
  match dget (.ax "CRVAL" i) h, dget (.ax "CRPIX" i) h, dget (.ax "CDELT" i) h with
  | some (.num v), some (.num c), some (.num d) => some (v + ((x : ℚ) + 1 - c) * d)
  | _, _, _ => none

/-! ## Lemmas -/

theorem lower_upper_char (c : Char) : (c.toUpper).toLower = c.toLower := by
  by_cases h : 'a'.val ≤ c.val ∧ c.val ≤ 'z'.val
  · have h1 : 97 ≤ c.toNat := by have := UInt32.le_iff_toNat_le.1 h.1; simpa using this
    have h2 : c.toNat ≤ 122 := by have := UInt32.le_iff_toNat_le.1 h.2; simpa using this
    have e : c = Char.ofNat c.toNat := (Char.ofNat_toNat c).symm
    generalize c.toNat = n at e h1 h2
    subst e
    interval_cases n <;> decide
  · have : c.toUpper = c := by unfold Char.toUpper; rw [dif_neg h]
    rw [this]

theorem lower_upper (s : List Char) : lower (upper s) = lower s := by
  unfold lower upper
  rw [List.map_map]
  exact List.map_congr_left fun c _ => lower_upper_char c

theorem starts_iff (p : String) (ax : List Char) : startsWith p.toList (lower ax) = true ↔ Begins p ax := by
  unfold startsWith Begins lower
  rw [List.isPrefixOf_iff_prefix]
  constructor
  · rintro ⟨r, h⟩; exact ⟨r, h.symm⟩
  · rintro ⟨r, h⟩; exact ⟨r, h.symm⟩

theorem begins_first {p : String} {ax : List Char} (h : Begins p ax) {c : Char} {r : List Char} (hp : p.toList = c :: r) :
    (lower ax).head? = some c := by
  obtain ⟨rest, e⟩ := h
  unfold lower
  rw [e, hp]; rfl

/-- names of axes with different beginnings -/
theorem begins_ne {p q : String} {ax : List Char} {c d : Char} {r s : List Char} (hp : p.toList = c :: r) (hq : q.toList = d :: s) (hcd : c ≠ d)
    (h : Begins p ax) : startsWith q.toList (lower ax) = false := by
  cases hh : startsWith q.toList (lower ax) with
  | false => rfl
  | true =>
    have h2 := begins_first ((starts_iff q ax).1 hh) hq
    rw [begins_first h hp] at h2
    exact absurd (Option.some.inj h2) hcd

theorem val_ra {p : Args} {ax : List Char} (h : Begins "ra" ax) : valDelta p ax = (p.ra, p.dRa) := by
  unfold valDelta; rw [if_pos (.inl ((starts_iff _ _).2 h))]

theorem val_dec {p : Args} {ax : List Char} (h : Begins "dec" ax) : valDelta p ax = (p.dec, p.dDec) := by
  unfold valDelta
  rw [if_neg (by
    rw [begins_ne (q := "ra") (c := 'd') (d := 'r') rfl rfl (by decide) h, begins_ne (q := "glon") (c := 'd') (d := 'g') rfl rfl (by decide) h]; simp),
    if_pos (.inl ((starts_iff _ _).2 h))]

theorem val_freq {p : Args} {ax : List Char} (h : Begins "freq" ax) : valDelta p ax = (p.freq, p.dFreq) := by
  unfold valDelta
  rw [if_neg (by
    rw [begins_ne (q := "ra") (c := 'f') (d := 'r') rfl rfl (by decide) h, begins_ne (q := "glon") (c := 'f') (d := 'g') rfl rfl (by decide) h]; simp),
    if_neg (by
    rw [begins_ne (q := "dec") (c := 'f') (d := 'd') rfl rfl (by decide) h, begins_ne (q := "glat") (c := 'f') (d := 'g') rfl rfl (by decide) h]; simp),
    if_pos ((starts_iff _ _).2 h)]

/-- the step of an axis, as written to the header -/
def cdelt (p : Args) (ax : List Char) : ℚ :=
  if (startsWith "ra".toList (lower ax) ∨ startsWith "glon".toList (lower ax)) ∧ 0 < (valDelta p ax).2 then (valDelta p ax).2 * -1 else (valDelta p ax).2

theorem axisStep_k (p : Args) (shape : List Nat) (h : Header) (x : List Char × Nat) (s : String) : dget (.k s) (axisStep p shape h x) = dget (.k s) h := by
  unfold axisStep
  simp only
  rw [dget_dset_ne (by simp), dget_dset_ne (by simp), dget_dset_ne (by simp), dget_dset_ne (by simp), dget_dset_ne (by simp)]

theorem axisStep_other (p : Args) (shape : List Nat) (h : Header) (x : List Char × Nat) (s : String) {j : Nat} (hj : j ≠ x.2 + 1) :
    dget (.ax s j) (axisStep p shape h x) = dget (.ax s j) h := by
  unfold axisStep
  simp only
  have : ∀ t : String, Key.ax t (x.2 + 1) ≠ Key.ax s j := by intro t e; injection e with _ e; exact hj e.symm
  rw [dget_dset_ne (this _), dget_dset_ne (this _), dget_dset_ne (this _), dget_dset_ne (this _), dget_dset_ne (this _)]

theorem axisStep_self (p : Args) (shape : List Nat) (h : Header) (ax : List Char) (i : Nat) :
    dget (.ax "CTYPE" (i + 1)) (axisStep p shape h (ax, i)) = some (.txt (upper ax)) ∧
    dget (.ax "CRPIX" (i + 1)) (axisStep p shape h (ax, i)) = some (.num (refPix shape i)) ∧
    dget (.ax "CRVAL" (i + 1)) (axisStep p shape h (ax, i)) = some (.num (valDelta p ax).1) ∧
    dget (.ax "CDELT" (i + 1)) (axisStep p shape h (ax, i)) = some (.num (cdelt p ax)) := by
  unfold axisStep cdelt
  simp [dget_dset]

theorem axes_k (p : Args) (shape : List Nat) (s : String) : ∀ (l : List (List Char × Nat)) (h : Header), dget (.k s) (l.foldl (axisStep p shape) h) = dget (.k s) h
  | [], _ => rfl
  | x :: l, h => by rw [List.foldl_cons, axes_k p shape s l, axisStep_k]

theorem axes_other (p : Args) (shape : List Nat) (s : String) {j : Nat} : ∀ (l : List (List Char × Nat)) (h : Header), (∀ x ∈ l, j ≠ x.2 + 1) →
    dget (.ax s j) (l.foldl (axisStep p shape) h) = dget (.ax s j) h
  | [], _, _ => rfl
  | x :: l, h, hl => by
    rw [List.foldl_cons, axes_other p shape s l _ fun y hy => hl y (by simp [hy]), axisStep_other _ _ _ _ _ (hl x (by simp))]

/-- the cards of axis `i` after the loop -/
structure Cards (p : Args) (shape : List Nat) (h : Header) (i : Nat) (ax : List Char) : Prop where
  ctype : dget (.ax "CTYPE" (i + 1)) h = some (.txt (upper ax))
  crpix : dget (.ax "CRPIX" (i + 1)) h = some (.num (refPix shape i))
  crval : dget (.ax "CRVAL" (i + 1)) h = some (.num (valDelta p ax).1)
  cdelt : dget (.ax "CDELT" (i + 1)) h = some (.num (cdelt p ax))

theorem axes_at (p : Args) (shape : List Nat) : ∀ (axes : List (List Char)) (n : Nat) (h : Header) (i : Nat) (ax : List Char), axes[i]? = some ax →
    Cards p shape ((axes.zipIdx n).foldl (axisStep p shape) h) (n + i) ax := by
  intro axes
  induction axes with
  | nil => intro n h i ax hi; simp at hi
  | cons a axes ih =>
    intro n h i ax hi
    rw [List.zipIdx_cons, List.foldl_cons]
    cases i with
    | zero =>
      have : a = ax := by simpa using hi
      subst this
      have hne : ∀ x ∈ axes.zipIdx (n + 1), n + 1 ≠ x.2 + 1 := by
        intro x hx
        have := List.le_snd_of_mem_zipIdx hx
        omega
      obtain ⟨h1, h2, h3, h4⟩ := axisStep_self p shape h a n
      refine ⟨?_, ?_, ?_, ?_⟩
      · rw [Nat.add_zero, axes_other _ _ _ _ _ hne, h1]
      · rw [Nat.add_zero, axes_other _ _ _ _ _ hne, h2]; rfl
      · rw [Nat.add_zero, axes_other _ _ _ _ _ hne, h3]
      · rw [Nat.add_zero, axes_other _ _ _ _ _ hne, h4]
    | succ i =>
      have := ih (n + 1) (axisStep p shape h (a, n)) i ax (by simpa using hi)
      have e : n + 1 + i = n + (i + 1) := by omega
      rw [e] at this
      exact this

/-- the header `to_fits` writes -/
structure Written (p : Args) (shape : List Nat) (h : Header) : Prop where
  axes : ∀ i ax, p.axes[i]? = some ax → Cards p shape h i ax
  transpos : dget (.k "TRANSPOS") h = some (.num 0)
  object : dget (.k "OBJECT") h = some (.txt p.object)
  telescope : dget (.k "TELESCOP") h = some (.txt p.telescope)
  instrument : dget (.k "INSTRUME") h = some (.txt p.instrument)
  observer : dget (.k "OBSERVER") h = some (.txt p.observer)
  obsDate : dget (.k "DATE-OBS") h = some (.txt p.obsDate)
  epoch : dget (.k "EQUINOX") h = some (.num p.epoch)
  origin : dget (.k "ORIGIN") h = some (.txt p.origin)
  curDate : dget (.k "DATE") h = some (.txt p.curDate)

theorem toFits_written {V : Type} (fs : FS V) (name : String) (a : Arr V) (cl : Bool) (p : Args) (hl : (squeeze a).shape.length = p.axes.length) :
    ∃ h, toFits fs name a cl p = some (dset name (squeeze a, h) fs) ∧ Written p (squeeze a).shape h := by
  unfold toFits
  simp only
  rw [if_neg (by rw [hl]; simp)]
  refine ⟨_, rfl, ⟨?_, ?_, ?_, ?_, ?_, ?_, ?_, ?_, ?_, ?_⟩⟩
  · intro i ax hi
    have hc := axes_at p (squeeze a).shape p.axes 0 [(.k "TRANSPOS", .num 0), (.k "OBJECT", .txt p.object), (.k "TELESCOP", .txt p.telescope),
      (.k "INSTRUME", .txt p.instrument), (.k "OBSERVER", .txt p.observer), (.k "DATE-OBS", .txt p.obsDate), (.k "EQUINOX", .num p.epoch),
      (.k "EPOCH", .num p.epoch)] i ax hi
    rw [Nat.zero_add] at hc
    constructor
    · rw [dget_dset_ne (by simp), dget_dset_ne (by simp)]; exact hc.ctype
    · rw [dget_dset_ne (by simp), dget_dset_ne (by simp)]; exact hc.crpix
    · rw [dget_dset_ne (by simp), dget_dset_ne (by simp)]; exact hc.crval
    · rw [dget_dset_ne (by simp), dget_dset_ne (by simp)]; exact hc.cdelt
  all_goals simp [dget_dset, axes_k, dget]

/-- `readAxis` on a written header -/
def seen (p : Args) (kw : Kwds) (ax : List Char) : Kwds := ⟨putAxis (lower ax) (.num (valDelta p ax).1) (.num (cdelt p ax)) kw.d, kw.axes ++ [lower ax]⟩

theorem readAxis_written {p : Args} {shape : List Nat} {h : Header} {i : Nat} {ax : List Char} (hc : Cards p shape h i ax) (kw : Kwds) :
    readAxis h kw i = seen p kw ax := by
  unfold readAxis seen
  rw [hc.ctype, hc.crval, hc.cdelt]
  simp only [lower_upper]

theorem read_written {p : Args} {shape : List Nat} {h : Header} (hw : Written p shape h) (kw : Kwds) :
    (List.range p.axes.length).foldl (readAxis h) kw = p.axes.foldl (seen p) kw := by
  have key : ∀ n ≤ p.axes.length, (List.range n).foldl (readAxis h) kw = (p.axes.take n).foldl (seen p) kw := by
    intro n
    induction n with
    | zero => intro _; simp
    | succ n ih =>
      intro hn
      have hlt : n < p.axes.length := by omega
      rw [List.range_succ, List.foldl_append, ih (by omega), List.take_add_one, List.getElem?_eq_getElem hlt, List.foldl_append]
      simp only [List.foldl_cons, List.foldl_nil, Option.toList_some]
      exact readAxis_written (hw.axes n _ (List.getElem?_eq_getElem hlt)) _
  rw [key _ (le_refl _), List.take_length]

theorem seen_axes (p : Args) : ∀ (l : List (List Char)) (kw : Kwds), (l.foldl (seen p) kw).axes = kw.axes ++ l.map lower
  | [], kw => by simp
  | a :: l, kw => by rw [List.foldl_cons, seen_axes p l]; simp [seen]

/-- an entry that no axis touches -/
theorem seen_keep (p : Args) {s : String} (hs : ∀ ax val delta d, dget s (putAxis ax val delta d) = dget s d) :
    ∀ (l : List (List Char)) (kw : Kwds), dget s (l.foldl (seen p) kw).d = dget s kw.d
  | [], kw => rfl
  | a :: l, kw => by rw [List.foldl_cons, seen_keep p hs l]; exact hs _ _ _ _

theorem put_other {s : String} (h : s ∉ ["ra", "d_ra", "dec", "d_dec", "freq", "d_freq"]) (ax : List Char) (val delta : Val) (d : List (String × Val)) :
    dget s (putAxis ax val delta d) = dget s d := by
  simp only [List.mem_cons, List.not_mem_nil, or_false, not_or] at h
  obtain ⟨h1, h2, h3, h4, h5, h6⟩ := h
  unfold putAxis
  split
  · rw [dget_dset_ne (Ne.symm h2), dget_dset_ne (Ne.symm h1)]
  split
  · rw [dget_dset_ne (Ne.symm h4), dget_dset_ne (Ne.symm h3)]
  split
  · rw [dget_dset_ne (Ne.symm h6), dget_dset_ne (Ne.symm h5)]
  · rfl

/-- an entry that the axes of one kind set, all to the same value -/
theorem seen_set (p : Args) {s : String} {v : Val} {q : List Char → Prop} [DecidablePred q]
    (hs : ∀ ax d, dget s (putAxis (lower ax) (.num (valDelta p ax).1) (.num (cdelt p ax)) d) = if q ax then some v else dget s d) :
    ∀ (l : List (List Char)) (kw : Kwds), dget s (l.foldl (seen p) kw).d = if ∃ ax ∈ l, q ax then some v else dget s kw.d := by
  intro l
  induction l with
  | nil => intro kw; simp
  | cons a l ih =>
    intro kw
    rw [List.foldl_cons, ih]
    have e : dget s (seen p kw a).d = if q a then some v else dget s kw.d := hs a kw.d
    rw [e]
    by_cases h1 : ∃ ax ∈ l, q ax
    · obtain ⟨ax, hm, hq⟩ := h1
      rw [if_pos ⟨ax, hm, hq⟩, if_pos ⟨ax, by simp [hm], hq⟩]
    · rw [if_neg h1]
      by_cases h2 : q a
      · rw [if_pos h2, if_pos ⟨a, by simp, h2⟩]
      · rw [if_neg h2, if_neg]
        rintro ⟨ax, hm, hq⟩
        rcases List.mem_cons.1 hm with rfl | hm
        · exact h2 hq
        · exact h1 ⟨ax, hm, hq⟩

theorem cdelt_ra {p : Args} {ax : List Char} (h : Begins "ra" ax) : cdelt p ax = -|p.dRa| := by
  unfold cdelt
  rw [val_ra h]
  by_cases hp : 0 < p.dRa
  · rw [if_pos ⟨.inl ((starts_iff _ _).2 h), hp⟩, abs_of_pos hp]; ring
  · rw [if_neg (fun hh => hp hh.2), abs_of_nonpos (not_lt.1 hp)]; ring

theorem cdelt_dec {p : Args} {ax : List Char} (h : Begins "dec" ax) : cdelt p ax = p.dDec := by
  unfold cdelt
  rw [val_dec h, if_neg]
  rw [begins_ne (q := "ra") (c := 'd') (d := 'r') rfl rfl (by decide) h, begins_ne (q := "glon") (c := 'd') (d := 'g') rfl rfl (by decide) h]; simp

theorem cdelt_freq {p : Args} {ax : List Char} (h : Begins "freq" ax) : cdelt p ax = p.dFreq := by
  unfold cdelt
  rw [val_freq h, if_neg]
  rw [begins_ne (q := "ra") (c := 'f') (d := 'r') rfl rfl (by decide) h, begins_ne (q := "glon") (c := 'f') (d := 'g') rfl rfl (by decide) h]; simp

section
open Classical

theorem put_kind (p : Args) (ax : List Char) (d : List (String × Val)) :
    let d' := putAxis (lower ax) (.num (valDelta p ax).1) (.num (cdelt p ax)) d
    (dget "ra" d' = if Begins "ra" ax then some (.num p.ra) else dget "ra" d) ∧
    (dget "d_ra" d' = if Begins "ra" ax then some (.num (-|p.dRa|)) else dget "d_ra" d) ∧
    (dget "dec" d' = if Begins "dec" ax then some (.num p.dec) else dget "dec" d) ∧
    (dget "d_dec" d' = if Begins "dec" ax then some (.num p.dDec) else dget "d_dec" d) ∧
    (dget "freq" d' = if Begins "freq" ax then some (.num p.freq) else dget "freq" d) ∧
    (dget "d_freq" d' = if Begins "freq" ax then some (.num p.dFreq) else dget "d_freq" d) := by
  intro d'
  simp only [d', putAxis, starts_iff]
  by_cases h1 : Begins "ra" ax
  · have h2 : ¬ Begins "dec" ax := by rw [← starts_iff, begins_ne (p := "ra") (c := 'r') (d := 'd') rfl rfl (by decide) h1]; simp
    have h3 : ¬ Begins "freq" ax := by rw [← starts_iff, begins_ne (p := "ra") (c := 'r') (d := 'f') rfl rfl (by decide) h1]; simp
    simp [h1, h2, h3, dget_dset, val_ra h1, cdelt_ra h1]
  by_cases h2 : Begins "dec" ax
  · have h3 : ¬ Begins "freq" ax := by rw [← starts_iff, begins_ne (p := "dec") (c := 'd') (d := 'f') rfl rfl (by decide) h2]; simp
    simp [h1, h2, h3, dget_dset, val_dec h2, cdelt_dec h2]
  by_cases h3 : Begins "freq" ax
  · simp [h1, h2, h3, dget_dset, val_freq h3, cdelt_freq h3]
  · simp [h1, h2, h3]

/-! ## C117 -/

/-- C117: what `from_fits` reads from a file of `to_fits` are the data and the keywords given, the names of the axes in small letters and
the step in right ascension negative. -/
theorem c117_roundtrip_partial {V : Type} (tr : Arr V → Arr V) (fs : FS V) (name : String) (a : Arr V) (cl : Bool) (p : Args)
    (hs : ∀ n ∈ a.shape, n ≠ 1) (hl : a.shape.length = p.axes.length) :
    ∃ fs', toFits fs name a cl p = some fs' ∧ (∀ other, other ≠ name → dget other fs' = dget other fs) ∧
      ∃ kw, fromFits tr fs' name = some (a, kw) ∧ kw.axes = p.axes.map (fun ax => ax.map Char.toLower) ∧
        dget "object" kw.d = some (.txt p.object) ∧ dget "telescope" kw.d = some (.txt p.telescope) ∧
        dget "instrument" kw.d = some (.txt p.instrument) ∧ dget "observer" kw.d = some (.txt p.observer) ∧
        dget "obs_date" kw.d = some (.txt p.obsDate) ∧ dget "epoch" kw.d = some (.num p.epoch) ∧
        dget "origin" kw.d = some (.txt p.origin) ∧ dget "cur_date" kw.d = some (.txt p.curDate) ∧
        (dget "ra" kw.d = if ∃ ax ∈ p.axes, Begins "ra" ax then some (.num p.ra) else none) ∧
        (dget "d_ra" kw.d = if ∃ ax ∈ p.axes, Begins "ra" ax then some (.num (-|p.dRa|)) else none) ∧
        (dget "dec" kw.d = if ∃ ax ∈ p.axes, Begins "dec" ax then some (.num p.dec) else none) ∧
        (dget "d_dec" kw.d = if ∃ ax ∈ p.axes, Begins "dec" ax then some (.num p.dDec) else none) ∧
        (dget "freq" kw.d = if ∃ ax ∈ p.axes, Begins "freq" ax then some (.num p.freq) else none) ∧
        (dget "d_freq" kw.d = if ∃ ax ∈ p.axes, Begins "freq" ax then some (.num p.dFreq) else none) := by
  have hsq : squeeze a = a := by
    unfold squeeze
    have : a.shape.filter (· ≠ 1) = a.shape := List.filter_eq_self.2 fun n hn => by simpa using hs n hn
    rw [this]
  obtain ⟨h, e, hw⟩ := toFits_written fs name a cl p (by rw [hsq]; exact hl)
  rw [hsq] at e hw
  refine ⟨_, e, fun other ho => dget_dset_ne (Ne.symm ho) _ _, ?_⟩
  have hd : ∃ d0, hitems.foldl (readItem h) [] = d0 ∧ dget "object" d0 = some (.txt p.object) ∧ dget "telescope" d0 = some (.txt p.telescope) ∧
      dget "instrument" d0 = some (.txt p.instrument) ∧ dget "observer" d0 = some (.txt p.observer) ∧
      dget "obs_date" d0 = some (.txt p.obsDate) ∧ dget "epoch" d0 = some (.num p.epoch) ∧ dget "origin" d0 = some (.txt p.origin) ∧
      dget "cur_date" d0 = some (.txt p.curDate) ∧ dget "ra" d0 = none ∧ dget "d_ra" d0 = none ∧ dget "dec" d0 = none ∧ dget "d_dec" d0 = none ∧
      dget "freq" d0 = none ∧ dget "d_freq" d0 = none := by
    refine ⟨_, rfl, ?_⟩
    simp only [hitems, List.foldl_cons, List.foldl_nil, readItem, hw.object, hw.telescope, hw.instrument, hw.observer, hw.obsDate, hw.epoch, hw.origin,
      hw.curDate]
    simp [dget_dset, dget]
  obtain ⟨d0, hd0, o1, o2, o3, o4, o5, o6, o7, o8, n1, n2, n3, n4, n5, n6⟩ := hd
  have hread : fromFits tr (dset name (a, h) fs) name = some (a, p.axes.foldl (seen p) ⟨d0, []⟩) := by
    unfold fromFits
    rw [dget_dset_self]
    simp only [hw.transpos, if_true, hd0, hl, read_written hw]
  refine ⟨_, hread, ?_, ?_, ?_, ?_, ?_, ?_, ?_, ?_, ?_, ?_, ?_, ?_, ?_, ?_, ?_⟩
  · rw [seen_axes]; rfl
  · rw [seen_keep p (put_other (by decide))]; exact o1
  · rw [seen_keep p (put_other (by decide))]; exact o2
  · rw [seen_keep p (put_other (by decide))]; exact o3
  · rw [seen_keep p (put_other (by decide))]; exact o4
  · rw [seen_keep p (put_other (by decide))]; exact o5
  · rw [seen_keep p (put_other (by decide))]; exact o6
  · rw [seen_keep p (put_other (by decide))]; exact o7
  · rw [seen_keep p (put_other (by decide))]; exact o8
  · rw [seen_set p (fun ax d => (put_kind p ax d).1), n1]
  · rw [seen_set p (fun ax d => (put_kind p ax d).2.1), n2]
  · rw [seen_set p (fun ax d => (put_kind p ax d).2.2.1), n3]
  · rw [seen_set p (fun ax d => (put_kind p ax d).2.2.2.1), n4]
  · rw [seen_set p (fun ax d => (put_kind p ax d).2.2.2.2.1), n5]
  · rw [seen_set p (fun ax d => (put_kind p ax d).2.2.2.2.2), n6]
end

/-- C117: a file that is there is replaced although `clobber` is false. -/
theorem c117_clobber_violated {V : Type} (fs : FS V) (name : String) (old a : Arr V) (hold : Header) (p : Args) (hl : (squeeze a).shape.length = p.axes.length) :
    ∃ fs' h, dget name (dset name (old, hold) fs) = some (old, hold) ∧ toFits (dset name (old, hold) fs) name a false p = some fs' ∧
      dget name fs' = some (squeeze a, h) := by
  obtain ⟨h, e, _⟩ := toFits_written (dset name (old, hold) fs) name a false p hl
  exact ⟨_, h, dget_dset_self _ _ _, e, dget_dset_self _ _ _⟩

/-- C117: an array with a dimension of length one raises, although an axis is named for each of its dimensions. -/
theorem c117_squeeze_violated {V : Type} (fs : FS V) (name : String) (a : Arr V) (cl : Bool) (p : Args) (hl : a.shape.length = p.axes.length) (h1 : 1 ∈ a.shape) :
    toFits fs name a cl p = none := by
  unfold toFits
  simp only
  rw [if_pos]
  intro h
  rw [← hl] at h
  unfold squeeze at h
  have := List.length_filter_eq_length_iff.1 h 1 h1
  simp at this

/-- C117: the frequency given for the first entry of an axis of `n` is read as that of entry `⌈n/2⌉`. -/
theorem c117_freq_violated {V : Type} (fs : FS V) (name : String) (a : Arr V) (cl : Bool) (p : Args) (hl : (squeeze a).shape.length = p.axes.length)
    {i : Nat} {ax : List Char} (hi : p.axes[i]? = some ax) (hb : Begins "freq" ax) {n : Nat}
    (hn : (squeeze a).shape[(squeeze a).shape.length - 1 - i]? = some n) (h3 : 3 ≤ n) (hd : p.dFreq ≠ 0) :
    ∃ fs' h w, toFits fs name a cl p = some fs' ∧ dget name fs' = some (squeeze a, h) ∧ world h (i + 1) ((n + 1) / 2 - 1) = some p.freq ∧
      world h (i + 1) 0 = some w ∧ w ≠ p.freq := by
  obtain ⟨h, e, hw⟩ := toFits_written fs name a cl p hl
  have hc := hw.axes i ax hi
  have hr : refPix (squeeze a).shape i = (((n + 1) / 2 : Nat) : ℚ) := by
    unfold refPix; rw [List.getD_eq_getElem?_getD, hn]; rfl
  refine ⟨_, h, p.freq + (((0 : Nat) : ℚ) + 1 - (((n + 1) / 2 : Nat) : ℚ)) * p.dFreq, e, dget_dset_self _ _ _, ?_, ?_, ?_⟩
  · unfold world
    rw [hc.crval, hc.crpix, hc.cdelt, hr, val_freq hb, cdelt_freq hb]
    simp only [Option.some.injEq]
    have : ((((n + 1) / 2 - 1 : Nat) : ℚ)) = (((n + 1) / 2 : Nat) : ℚ) - 1 := by rw [Nat.cast_sub (by omega)]; simp
    rw [this]; ring
  · unfold world
    rw [hc.crval, hc.crpix, hc.cdelt, hr, val_freq hb, cdelt_freq hb]
  · intro hw0
    have h2 : (2 : ℚ) ≤ (((n + 1) / 2 : Nat) : ℚ) := by exact_mod_cast (by omega : 2 ≤ (n + 1) / 2)
    have h4 : (((0 : Nat) : ℚ) + 1 - (((n + 1) / 2 : Nat) : ℚ)) * p.dFreq = 0 := by linarith
    rcases mul_eq_zero.1 h4 with h4 | h4
    · have : ((0 : Nat) : ℚ) = 0 := by simp
      linarith
    · exact hd h4

/-- C117: the right ascension and declination given are those of pixel `⌈n/2⌉ - 1`, which for even `n` is not the pixel `n/2` at which
`Img` has the centre of an image. -/
theorem c117_center_violated {V : Type} (fs : FS V) (name : String) (a : Arr V) (cl : Bool) (p : Args) (hl : (squeeze a).shape.length = p.axes.length)
    {i : Nat} {ax : List Char} (hi : p.axes[i]? = some ax) (hb : Begins "ra" ax) {m : Nat} (hm : 0 < m)
    (hn : (squeeze a).shape[(squeeze a).shape.length - 1 - i]? = some (2 * m)) :
    ∃ fs' h, toFits fs name a cl p = some fs' ∧ dget name fs' = some (squeeze a, h) ∧ world h (i + 1) (m - 1) = some p.ra ∧
      world h (i + 1) m = some (p.ra - |p.dRa|) := by
  obtain ⟨h, e, hw⟩ := toFits_written fs name a cl p hl
  have hc := hw.axes i ax hi
  have hr : refPix (squeeze a).shape i = (m : ℚ) := by
    unfold refPix; rw [List.getD_eq_getElem?_getD, hn]
    congr 1
    show (2 * m + 1) / 2 = m
    omega
  refine ⟨_, h, e, dget_dset_self _ _ _, ?_, ?_⟩
  · unfold world
    rw [hc.crval, hc.crpix, hc.cdelt, hr, val_ra hb, cdelt_ra hb]
    simp only [Option.some.injEq]
    rw [Nat.cast_sub (by omega)]; push_cast; ring
  · unfold world
    rw [hc.crval, hc.crpix, hc.cdelt, hr, val_ra hb, cdelt_ra hb]
    simp only [Option.some.injEq]
    ring

/-- C117: the coordinates of an image in galactic coordinates are not read back. -/
theorem c117_galactic_violated {V : Type} (tr : Arr V → Arr V) (fs : FS V) (name : String) (a : Arr V) (cl : Bool) (p : Args)
    (hs : ∀ n ∈ a.shape, n ≠ 1) (hl : a.shape.length = p.axes.length) (hg : ∀ ax ∈ p.axes, Begins "glon" ax ∨ Begins "glat" ax) :
    ∃ fs' kw, toFits fs name a cl p = some fs' ∧ fromFits tr fs' name = some (a, kw) ∧ dget "ra" kw.d = none ∧ dget "d_ra" kw.d = none ∧
      dget "dec" kw.d = none ∧ dget "d_dec" kw.d = none := by
  obtain ⟨fs', e, _, kw, er, _, _, _, _, _, _, _, _, _, h1, h2, h3, h4, _⟩ := c117_roundtrip_partial tr fs name a cl p hs hl
  have hra : ¬ ∃ ax ∈ p.axes, Begins "ra" ax := by
    rintro ⟨ax, hm, hb⟩
    rcases hg ax hm with h | h
    · have := begins_ne (p := "glon") (q := "ra") (c := 'g') (d := 'r') rfl rfl (by decide) h
      rw [(starts_iff _ _).2 hb] at this; cases this
    · have := begins_ne (p := "glat") (q := "ra") (c := 'g') (d := 'r') rfl rfl (by decide) h
      rw [(starts_iff _ _).2 hb] at this; cases this
  have hdec : ¬ ∃ ax ∈ p.axes, Begins "dec" ax := by
    rintro ⟨ax, hm, hb⟩
    rcases hg ax hm with h | h
    · have := begins_ne (p := "glon") (q := "dec") (c := 'g') (d := 'd') rfl rfl (by decide) h
      rw [(starts_iff _ _).2 hb] at this; cases this
    · have := begins_ne (p := "glat") (q := "dec") (c := 'g') (d := 'd') rfl rfl (by decide) h
      rw [(starts_iff _ _).2 hb] at this; cases this
  refine ⟨fs', kw, e, er, ?_, ?_, ?_, ?_⟩
  · rw [h1, if_neg hra]
  · rw [h2, if_neg hra]
  · rw [h3, if_neg hdec]
  · rw [h4, if_neg hdec]

/-- C117: `find_axis` never gives the number of an axis whose name has no digit as its sixth character: it raises, or finds nothing. -/
theorem c117_find_axis_violated (name : List Char) (h : Header)
    (hd : ∀ i v, (Key.ax "CTYPE" i, Val.txt v) ∈ h → ∀ c, v[5]? = some c → isDigit c = false) :
    findAxis name h = .raises ∨ (findAxis name h = .nothing ∧ ∀ i v, (Key.ax "CTYPE" i, Val.txt v) ∈ h → startsWith name (lower v) = false) := by
  induction h with
  | nil => right; exact ⟨rfl, by simp⟩
  | cons x h ih =>
    have ih := ih fun i v hm => hd i v (by simp [hm])
    obtain ⟨k, v⟩ := x
    have skip : (∀ i w, (k, v) ≠ (Key.ax "CTYPE" i, Val.txt w) ∨ startsWith name (lower w) = false) → findAxis name ((k, v) :: h) = findAxis name h →
        (findAxis name ((k, v) :: h) = .raises ∨ (findAxis name ((k, v) :: h) = .nothing ∧
          ∀ i w, (Key.ax "CTYPE" i, Val.txt w) ∈ (k, v) :: h → startsWith name (lower w) = false)) := by
      intro h1 h2
      rw [h2]
      rcases ih with ih | ⟨ih, ih2⟩
      · exact .inl ih
      · refine .inr ⟨ih, ?_⟩
        intro i w hm
        rcases List.mem_cons.1 hm with hm | hm
        · rcases h1 i w with h1 | h1
          · exact absurd hm.symm h1
          · exact h1
        · exact ih2 i w hm
    cases k with
    | k s => exact skip (fun i w => .inl (by simp)) rfl
    | ax s i =>
      cases v with
      | num q => exact skip (fun i w => .inl (by simp)) rfl
      | txt v =>
        have e : findAxis name ((Key.ax s i, Val.txt v) :: h) = if s = "CTYPE" ∧ startsWith name (lower v) then sixth v else findAxis name h := rfl
        by_cases hc : s = "CTYPE" ∧ startsWith name (lower v) = true
        · left
          rw [e, if_pos hc]
          obtain ⟨rfl, _⟩ := hc
          unfold sixth
          cases h5 : v[5]? with
          | none => rfl
          | some c => simp [hd i v (by simp) c h5]
        · refine skip ?_ (by rw [e, if_neg hc])
          intro j w
          by_cases hw : (Key.ax s i, Val.txt v) = (Key.ax "CTYPE" j, Val.txt w)
          · right
            simp only [Prod.mk.injEq, Key.ax.injEq, Val.txt.injEq] at hw
            obtain ⟨⟨hs, _⟩, rfl⟩ := hw
            by_contra hh
            exact hc ⟨hs, by simpa using hh⟩
          · exact .inl hw

/-! ## Cases -/

def demo : Args := ⟨["ra--sin".toList, "dec--sin".toList, "FREQ".toList], "cyg".toList, [], [], [], "AIPY".toList, [], [], 10, 20, 1, 1, 2000, 150, 2⟩

/-- four frequencies of two by two pixels -/
def demoArr : Arr ℚ := ⟨[4, 2, 2], List.replicate 16 0⟩

example := c117_roundtrip_partial id [] "x.fits" demoArr false demo (by decide) rfl

example : (fromFits id ((toFits [] "x.fits" demoArr false demo).getD []) "x.fits").map (fun r => (dget "d_ra" r.2.d, dget "freq" r.2.d)) =
    some (some (.num (-1)), some (.num 150)) := by decide +kernel

example := c117_clobber_violated [] "x.fits" ⟨[], [1]⟩ demoArr [] demo rfl

example := c117_squeeze_violated [] "x.fits" (⟨[1, 2, 2], [0, 0, 0, 0]⟩ : Arr ℚ) true demo rfl (by simp)

example := c117_freq_violated [] "x.fits" demoArr false demo rfl (i := 2) (ax := "FREQ".toList) rfl ⟨[], by decide⟩ (n := 4) rfl (by decide) (by simp [demo])

example := c117_center_violated [] "x.fits" demoArr false demo rfl (i := 0) (ax := "ra--sin".toList) rfl ⟨"--sin".toList, by decide⟩ (m := 1) (by decide) rfl

example := c117_galactic_violated id [] "x.fits" (⟨[2, 2], [0, 0, 0, 0]⟩ : Arr ℚ) false { demo with axes := ["glon".toList, "glat".toList] } (by decide) rfl (by
  intro ax h
  simp only [List.mem_cons, List.not_mem_nil, or_false] at h
  rcases h with rfl | rfl
  · exact .inl ⟨[], by decide⟩
  · exact .inr ⟨[], by decide⟩)

example : findAxis "ra".toList [(.ax "CTYPE" 1, .txt "RA---SIN".toList)] = .raises := by decide +kernel

end Verif.Img.Fits
