import Mathlib.Algebra.BigOperators.Intervals
import Mathlib.Algebra.BigOperators.Ring.Finset
import Mathlib.Algebra.Field.Basic
import Mathlib.Algebra.CharZero.Defs
import Mathlib.Algebra.Field.Rat
import Mathlib.Data.Rat.Cast.CharZero
import Mathlib.Tactic.Ring
import Mathlib.Tactic.FieldSimp
import Mathlib.Tactic.NormNum
import Verif.Util.CopyLoop
/-!
# Applying the bandpass (C112)

`/repo/scripts/apply_bp.py`.  A data set is its bandpass (if it has one), the numbers of channels and antennas, its other items and
variables by name, and its records; a record is its antennas, data, flags, and `pre`, everything else.  How data sets are read and
written, and what `pipe` does, is C47-C51.  Numbers are exact elements of a field.  The two polynomials fitted to measurements
(125, 126) are given as what `np.polyfit` returns.  Not modelled: history; data not as long as the number of channels, which is an
error here.
-/
namespace Verif.Misc.ApplyBp
open Verif.Util

/-! ## Model -/

/-- a record -/
structure Rec (P F : Type) where
  pre : P
  i : Nat
  j : Nat
  d : List F
  f : List Bool
  deriving DecidableEq

/-- a data set -/
structure DSet (P V F : Type) where
  bandpass : Option (List F)
  nchan : Nat
  nants : Nat
  others : List (List Char × V)
  recs : List (Rec P F)
  deriving DecidableEq

section
variable {P V F : Type} [Field F]

/-- `np.polyval(c, x)` -/
def polyval (c : List F) (x : F) : F := c.foldl (fun y p => y * x + p) 0

/-- apply_bp.py 127, 128 -/
def normal (c : List F) : List F := c.map (· * (10 / polyval c 10))

/-- apply_bp.py 129 -/
def nullPoly : List F := [0, 0, 0, 0, 0, 1, 0]

/-- apply_bp.py 132 -/
def combPoly (digi full : List F) : List F :=
  (List.zipWith (· + ·) (List.zipWith (· + ·) nullPoly (normal full)) (normal digi)).map (· / 3)

/-- apply_bp.py 133-136: the polynomial of the option; any other name is a KeyError -/
def cpoly (digi full : List F) (name : List Char) : Option (List F) :=
  if name = ['n', 'u', 'l', 'l'] then some nullPoly
  else if name = ['d', 'i', 'g', 'i'] then some (normal digi)
  else if name = ['f', 'u', 'l', 'l'] then some (normal full)
  else if name = ['c', 'o', 'm', 'b'] then some (combPoly digi full)
  else none

/-- apply_bp.py 141, 142, besides `bandpass` -/
def ignored : List (List Char) :=
  [['f', 'r', 'e', 'q', 's'], ['n', 'g', 'a', 'i', 'n', 's'], ['n', 's', 'p', 'e', 'c', 't', '0'], ['n', 'c', 'h', 'a', 'n', '0'], ['n', 't', 'a', 'u'],
    ['n', 'f', 'e', 'e', 'd', 's'], ['n', 's', 'o', 'l', 's'], ['h', 'e', 'a', 'd', 'e', 'r'], ['v', 'a', 'r', 't', 'a', 'b', 'l', 'e']]

/-- apply_bp.py 155-163: the bandpass as one list; without one, and when it does not have the shape, ones -/
def bpOf (x : DSet P V F) : List F :=
  match x.bandpass with
  | some b => if b.length = x.nants * x.nchan then b else List.replicate (x.nants * x.nchan) 1
  | none => List.replicate (x.nants * x.nchan) 1

/-- `bp[i,:]` -/
def row (bp : List F) (nants nchan i : Nat) : Option (List F) :=
  if i < nants then some ((bp.drop (i * nchan)).take nchan) else none

/-- `f`, apply_bp.py 164-168 -/
def mfunc (c : List F) (bp : List F) (nants nchan : Nat) (scale : F) (r : Rec P F) : Option (Rec P F) :=
  let d := if r.i = r.j then r.d.map (polyval c) else r.d
  (row bp nants nchan r.i).bind fun bi =>
    (row bp nants nchan r.j).bind fun bj =>
      if d.length = nchan then
        some { r with d := List.zipWith (· * ·) d ((List.zipWith (· * ·) bi bj).map (· * scale)) }
      else none

/-- all records -/
def pipe (g : Rec P F → Option (Rec P F)) : List (Rec P F) → Option (List (Rec P F))
  | [] => some []
  | r :: rs => (g r).bind fun r' => (pipe g rs).map fun rs' => r' :: rs'

/-- apply_bp.py 150-171: the copy of a data set -/
def applyFile (c : List F) (scale : F) (x : DSet P V F) : Option (DSet P V F) :=
  (pipe (mfunc c (bpOf x) x.nants x.nchan scale) x.recs).map fun rs =>
    ⟨none, x.nchan, x.nants, x.others.filter (fun e => decide (e.1 ∉ ignored)), rs⟩

/-- apply_bp.py 136-171 -/
def run (digi full : List F) (name : List Char) (scale : F) (args : List (List Char)) (files : List (List Char × DSet P V F)) :
    Option (List (List Char × DSet P V F)) :=
  (cpoly digi full name).bind fun c => copyLoop ['b'] (applyFile c scale) args files

/-! ## Specification -/

/-- a polynomial, highest coefficient first -/
def value (c : List F) (x : F) : F := ∑ k ∈ Finset.range c.length, c.getD k 0 * x ^ (c.length - 1 - k)

/-- a polynomial scaled to have 10 at 10 -/
def scaled (c : List F) (x : F) : F := 10 * value c x / value c 10

/-- the ways to linearise -/
inductive Lin
  | null
  | digi
  | full
  | comb

def Lin.text : Lin → List Char
  | .null => ['n', 'u', 'l', 'l']
  | .digi => ['d', 'i', 'g', 'i']
  | .full => ['f', 'u', 'l', 'l']
  | .comb => ['c', 'o', 'm', 'b']

/-- what a value becomes -/
def Lin.fn (digi full : List F) : Lin → F → F
  | .null, x => x
  | .digi, x => scaled digi x
  | .full, x => scaled full x
  | .comb, x => (x + scaled full x + scaled digi x) / 3

/-- the bandpass of an antenna, if the data set has one -/
def gain (x : DSet P V F) (i c : Nat) : F := ((x.bandpass.bind fun b => if b.length = x.nants * x.nchan then b[i * x.nchan + c]? else none)).getD 1

/-- the record of the copy -/
structure Applied (L : F → F) (scale : F) (x : DSet P V F) (r r' : Rec P F) : Prop where
  pre : r'.pre = r.pre
  i : r'.i = r.i
  j : r'.j = r.j
  f : r'.f = r.f
  len : r'.d.length = x.nchan
  data : ∀ c < x.nchan, r'.d.getD c 0 = (if r.i = r.j then L (r.d.getD c 0) else r.d.getD c 0) * (gain x r.i c * gain x r.j c) * scale

/-- the copy -/
structure IsOut (L : F → F) (scale : F) (x y : DSet P V F) : Prop where
  bandpass : y.bandpass = none
  nchan : y.nchan = x.nchan
  nants : y.nants = x.nants
  gone : ∀ k ∈ ["freqs", "ngains", "nspect0", "nchan0", "ntau", "nfeeds", "nsols", "header", "vartable"], dget k.toList y.others = none
  kept : ∀ k : String, k ∉ ["freqs", "ngains", "nspect0", "nchan0", "ntau", "nfeeds", "nsols", "header", "vartable"] →
    dget k.toList y.others = dget k.toList x.others
  recs : List.Forall₂ (Applied L scale x) x.recs y.recs

/-- the antennas exist, and data are as long as the number of channels -/
def SetOk (x : DSet P V F) : Prop := ∀ r ∈ x.recs, r.i < x.nants ∧ r.j < x.nants ∧ r.d.length = x.nchan

/-! ## Lemmas -/

set_option linter.unusedSectionVars false

theorem polyval_append (c : List F) (a x : F) : polyval (c ++ [a]) x = polyval c x * x + a := by
  simp [polyval, List.foldl_append]

theorem polyval_value (c : List F) (x : F) : polyval c x = value c x := by
  induction c using List.reverseRecOn with
  | nil => simp [polyval, value]
  | append_singleton c a ih =>
    rw [polyval_append, ih]
    unfold value
    rw [List.length_append, List.length_singleton, Finset.sum_range_succ, Finset.sum_mul]
    congr 1
    · apply Finset.sum_congr rfl
      intro k hk
      have hk := Finset.mem_range.1 hk
      have e : c.length + 1 - 1 - k = (c.length - 1 - k) + 1 := by omega
      rw [e, pow_succ]
      have : (c ++ [a]).getD k 0 = c.getD k 0 := by simp [List.getD_eq_getElem?_getD, List.getElem?_append_left hk]
      rw [this]; ring
    · simp [List.getD_eq_getElem?_getD]

theorem polyval_scale (c : List F) (s x : F) : polyval (c.map (· * s)) x = polyval c x * s := by
  induction c using List.reverseRecOn with
  | nil => simp [polyval]
  | append_singleton c a ih =>
    rw [List.map_append, List.map_singleton, polyval_append, polyval_append, ih]; ring

theorem polyval_add : ∀ {n : Nat} {a b : List F} (_ : a.length = n) (_ : b.length = n) (x : F),
    polyval (List.zipWith (· + ·) a b) x = polyval a x + polyval b x := by
  intro n
  induction n with
  | zero =>
    intro a b ha hb x
    rw [List.length_eq_zero_iff.1 ha, List.length_eq_zero_iff.1 hb]; simp [polyval]
  | succ n ih =>
    intro a b ha hb x
    have hane : a ≠ [] := by intro h; rw [h] at ha; cases ha
    have hbne : b ≠ [] := by intro h; rw [h] at hb; cases hb
    have ea := (List.dropLast_append_getLast hane).symm
    have eb := (List.dropLast_append_getLast hbne).symm
    have la : a.dropLast.length = n := by rw [List.length_dropLast, ha]; rfl
    have lb : b.dropLast.length = n := by rw [List.length_dropLast, hb]; rfl
    rw [ea, eb, List.zipWith_append (by rw [la, lb])]
    simp only [List.zipWith_cons_cons, List.zipWith_nil_right]
    rw [polyval_append, polyval_append, polyval_append, ih la lb]; ring

theorem normal_value (c : List F) (x : F) : polyval (normal c) x = scaled c x := by
  unfold normal scaled
  rw [polyval_scale, polyval_value, polyval_value]; ring

theorem null_value (x : F) : polyval (nullPoly : List F) x = x := by simp [polyval, nullPoly]

theorem comb_value {digi full : List F} (hd : digi.length = 7) (hf : full.length = 7) (x : F) :
    polyval (combPoly digi full) x = (x + scaled full x + scaled digi x) / 3 := by
  have l1 : (normal full).length = 7 := by simp [normal, hf]
  have l2 : (normal digi).length = 7 := by simp [normal, hd]
  have e : combPoly digi full =
      (List.zipWith (· + ·) (List.zipWith (· + ·) nullPoly (normal full)) (normal digi)).map (· * (3 : F)⁻¹) := by
    unfold combPoly; simp only [div_eq_mul_inv]
  rw [e, polyval_scale, polyval_add (n := 7) (by simp [l1, nullPoly]) l2, polyval_add (n := 7) rfl l1, null_value, normal_value,
    normal_value, div_eq_mul_inv]

theorem cpoly_spec {digi full : List F} (hd : digi.length = 7) (hf : full.length = 7) (l : Lin) :
    ∃ c, cpoly digi full l.text = some c ∧ ∀ x, polyval c x = l.fn digi full x := by
  cases l
  · exact ⟨nullPoly, rfl, null_value⟩
  · exact ⟨normal digi, by simp [cpoly, Lin.text], normal_value digi⟩
  · exact ⟨normal full, by simp [cpoly, Lin.text], normal_value full⟩
  · exact ⟨combPoly digi full, by simp [cpoly, Lin.text], comb_value hd hf⟩

theorem bp_len (x : DSet P V F) : (bpOf x).length = x.nants * x.nchan := by
  unfold bpOf
  cases x.bandpass with
  | none => simp
  | some b => simp only; split <;> simp [*]

theorem idx_lt {n m i c : Nat} (hi : i < n) (hc : c < m) : i * m + c < n * m := by
  have : (i + 1) * m ≤ n * m := Nat.mul_le_mul_right _ hi
  rw [Nat.add_mul] at this; omega

theorem bp_get (x : DSet P V F) {i c : Nat} (hi : i < x.nants) (hc : c < x.nchan) : (bpOf x)[i * x.nchan + c]? = some (gain x i c) := by
  have hlt := idx_lt hi hc
  unfold bpOf gain
  cases x.bandpass with
  | none => simp [hlt]
  | some b =>
    simp only [Option.bind_some]
    split
    · rename_i h
      rw [List.getElem?_eq_getElem (by omega)]; rfl
    · simp [hlt]

theorem row_get (x : DSet P V F) {i : Nat} (hi : i < x.nants) :
    ∃ b, row (bpOf x) x.nants x.nchan i = some b ∧ b.length = x.nchan ∧ ∀ c < x.nchan, b[c]? = some (gain x i c) := by
  refine ⟨_, if_pos hi, ?_, ?_⟩
  · rw [List.length_take, List.length_drop, bp_len]
    have : (i + 1) * x.nchan ≤ x.nants * x.nchan := Nat.mul_le_mul_right _ hi
    rw [Nat.add_mul] at this; omega
  · intro c hc
    rw [List.getElem?_take_of_lt hc, List.getElem?_drop]
    exact bp_get x hi hc

theorem mfunc_spec {c : List F} {L : F → F} (hL : ∀ x, polyval c x = L x) (scale : F) (x : DSet P V F) {r : Rec P F} (hi : r.i < x.nants)
    (hj : r.j < x.nants) (hd : r.d.length = x.nchan) :
    ∃ r', mfunc c (bpOf x) x.nants x.nchan scale r = some r' ∧ Applied L scale x r r' := by
  obtain ⟨bi, ei, li, gi⟩ := row_get x hi
  obtain ⟨bj, ej, lj, gj⟩ := row_get x hj
  let d := if r.i = r.j then r.d.map (polyval c) else r.d
  have ld : d.length = x.nchan := by
    show (if r.i = r.j then r.d.map (polyval c) else r.d).length = _
    split <;> simp [hd]
  have gd : ∀ k < x.nchan, d[k]? = some (if r.i = r.j then L (r.d.getD k 0) else r.d.getD k 0) := by
    intro k hk
    have hk' : k < r.d.length := by omega
    show (if r.i = r.j then r.d.map (polyval c) else r.d)[k]? = _
    split <;> simp [List.getD_eq_getElem?_getD, List.getElem?_eq_getElem hk', hL]
  refine ⟨{ r with d := List.zipWith (· * ·) d ((List.zipWith (· * ·) bi bj).map (· * scale)) }, ?_, rfl, rfl, rfl, rfl, ?_, ?_⟩
  · unfold mfunc
    simp only [ei, ej, Option.bind_some]
    exact if_pos ld
  · simp [ld, li, lj]
  · intro k hk
    simp only [List.getD_eq_getElem?_getD (α := F), List.getElem?_zipWith, gd k hk, List.getElem?_map, gi k hk, gj k hk, Option.map_some]
    simp only [Option.getD_some]
    ring

theorem pipe_spec {g : Rec P F → Option (Rec P F)} {Q : Rec P F → Rec P F → Prop} : ∀ (rs : List (Rec P F)),
    (∀ r ∈ rs, ∃ r', g r = some r' ∧ Q r r') → ∃ os, pipe g rs = some os ∧ List.Forall₂ Q rs os := by
  intro rs
  induction rs with
  | nil => intro _; exact ⟨[], rfl, .nil⟩
  | cons r rs ih =>
    intro h
    obtain ⟨r', e, hq⟩ := h r (by simp)
    obtain ⟨os, e2, ho⟩ := ih fun r hr => h r (by simp [hr])
    exact ⟨r' :: os, by simp [pipe, e, e2], .cons hq ho⟩

theorem forall₂_right {A : Type} {Q : A → A → Prop} {as bs : List A} (h : List.Forall₂ Q as bs) : ∀ b ∈ bs, ∃ a ∈ as, Q a b := by
  induction h with
  | nil => intro b hb; cases hb
  | cons h _ ih =>
    intro b hb
    rcases List.mem_cons.1 hb with rfl | hb
    · exact ⟨_, by simp, h⟩
    · obtain ⟨a, ha, hq⟩ := ih b hb
      exact ⟨a, by simp [ha], hq⟩

theorem dget_filter (k : List Char) (p : List Char → Bool) (l : List (List Char × V)) :
    dget k (l.filter fun e => p e.1) = if p k = true then dget k l else none := by
  induction l with
  | nil => simp [dget]
  | cons e l ih =>
    obtain ⟨n, v⟩ := e
    by_cases hp : p n = true
    · rw [List.filter_cons_of_pos (p := fun e : List Char × V => p e.1) hp]
      by_cases hk : n = k
      · subst hk; simp [dget, hp]
      · simp only [dget, if_neg hk, ih]
    · rw [List.filter_cons_of_neg (p := fun e : List Char × V => p e.1) hp, ih]
      by_cases hk : n = k
      · subst hk; simp [hp]
      · simp only [dget, if_neg hk]

theorem ignored_eq : ignored = ["freqs", "ngains", "nspect0", "nchan0", "ntau", "nfeeds", "nsols", "header", "vartable"].map String.toList := rfl

theorem file_spec {c : List F} {L : F → F} (hL : ∀ x, polyval c x = L x) (scale : F) {x : DSet P V F} (hx : SetOk x) :
    ∃ y, applyFile c scale x = some y ∧ IsOut L scale x y := by
  obtain ⟨os, e, ho⟩ := pipe_spec (g := mfunc c (bpOf x) x.nants x.nchan scale) (Q := Applied L scale x) x.recs
    fun r hr => mfunc_spec hL scale x (hx r hr).1 (hx r hr).2.1 (hx r hr).2.2
  refine ⟨⟨none, x.nchan, x.nants, x.others.filter (fun e => decide (e.1 ∉ ignored)), os⟩, by unfold applyFile; rw [e]; rfl, rfl, rfl, rfl, ?_,
    ?_, ho⟩
  · intro k hk
    have : k.toList ∈ ignored := by rw [ignored_eq]; exact List.mem_map_of_mem hk
    show dget k.toList (x.others.filter fun e => decide (e.1 ∉ ignored)) = none
    rw [dget_filter k.toList (fun n => decide (n ∉ ignored)), if_neg (by simp [this])]
  · intro k hk
    have : k.toList ∉ ignored := by
      rw [ignored_eq]; intro h
      obtain ⟨n, hn, e⟩ := List.mem_map.1 h
      exact hk (String.toList_inj.1 e ▸ hn)
    show dget k.toList (x.others.filter fun e => decide (e.1 ∉ ignored)) = _
    rw [dget_filter k.toList (fun n => decide (n ∉ ignored)), if_pos (by simp [this])]

/-! ## C112 -/

/-- C112: every file has its copy, without bandpass, with the records multiplied by the bandpasses of their antennas and the scale,
autocorrelations linearised before. -/
theorem c112_apply {digi full : List F} (hd : digi.length = 7) (hf : full.length = 7) (l : Lin) (scale : F) {args : List (List Char)}
    {files : List (List Char × DSet P V F)} {D : List Char → DSet P V F} (hin : ∀ fn ∈ args, dget fn files = some (D fn) ∧ SetOk (D fn))
    (hout : ∀ fn ∈ args, dget (fn ++ ['b']) files = none) :
    ∃ files', run digi full l.text scale args files = some files' ∧
      (∀ fn ∈ args, ∃ y, dget (fn ++ ['b']) files' = some y ∧ IsOut (l.fn digi full) scale (D fn) y) ∧
      ∀ k, (∀ fn ∈ args, k ≠ fn ++ ['b']) → dget k files' = dget k files := by
  obtain ⟨c, hc, hL⟩ := cpoly_spec hd hf l
  have h : ∀ fn, ∃ y, fn ∈ args → applyFile c scale (D fn) = some y ∧ IsOut (l.fn digi full) scale (D fn) y := by
    intro fn
    by_cases hfn : fn ∈ args
    · obtain ⟨y, h⟩ := file_spec hL scale (hin fn hfn).2
      exact ⟨y, fun _ => h⟩
    · exact ⟨D fn, fun h => absurd h hfn⟩
  choose T hT using h
  obtain ⟨files', e, h1, h2⟩ := copyLoop_spec (g := applyFile c scale) (S := D) (T := T)
    (fun fn hfn => ⟨(hin fn hfn).1, (hT fn hfn).1⟩) hout
  exact ⟨files', by unfold run; rw [hc]; exact e, fun fn hfn => ⟨T fn, h1 fn hfn, (hT fn hfn).2⟩, h2⟩

/-- C112: every linearisation leaves the value 10. -/
theorem c112_ten [CharZero F] {digi full : List F} (hd : value digi 10 ≠ 0) (hf : value full 10 ≠ 0) (l : Lin) : l.fn digi full 10 = 10 := by
  have e : ∀ {c : List F}, value c 10 ≠ 0 → scaled c 10 = 10 := fun h => by unfold scaled; exact mul_div_cancel_right₀ _ h
  cases l <;> simp only [Lin.fn, e hd, e hf]
  norm_num

/-- C112: a name that is none of the four raises before any file is written. -/
theorem c112_names (digi full : List F) {name : List Char} (h : ∀ l : Lin, name ≠ l.text) (scale : F) (args : List (List Char))
    (files : List (List Char × DSet P V F)) : run digi full name scale args files = none := by
  have : cpoly digi full name = none := by
    unfold cpoly
    have h1 := h .null; have h2 := h .digi; have h3 := h .full; have h4 := h .comb
    simp only [Lin.text] at h1 h2 h3 h4
    rw [if_neg h1, if_neg h2, if_neg h3, if_neg h4]
  unfold run; rw [this]; rfl

/-- C112: applied to a file and then to its copy, the bandpass is in the second copy once (and the scale twice). -/
theorem c112_once {digi full : List F} (hd : digi.length = 7) (hf : full.length = 7) (scale : F) {fn : List Char}
    {files : List (List Char × DSet P V F)} {x : DSet P V F} (hx : dget fn files = some x) (hok : SetOk x)
    (h1 : dget (fn ++ ['b']) files = none) (h2 : dget (fn ++ ['b', 'b']) files = none) :
    ∃ f1 f2 y, run digi full Lin.null.text scale [fn] files = some f1 ∧ run digi full Lin.null.text scale [fn ++ ['b']] f1 = some f2 ∧
      dget (fn ++ ['b', 'b']) f2 = some y ∧ List.Forall₂ (Applied id (scale * scale) x) x.recs y.recs := by
  obtain ⟨f1, e1, a1, a2⟩ := c112_apply (D := fun _ => x) hd hf .null scale (args := [fn]) (files := files)
    (by intro g hg; obtain rfl := List.mem_singleton.1 hg; exact ⟨hx, hok⟩) (by intro g hg; obtain rfl := List.mem_singleton.1 hg; exact h1)
  obtain ⟨z, ez, hz⟩ := a1 fn (by simp)
  have hzok : SetOk z := by
    intro r hr
    obtain ⟨q, hq, ha⟩ := forall₂_right hz.recs r hr
    have := hok q hq
    exact ⟨by rw [ha.i, hz.nants]; exact this.1, by rw [ha.j, hz.nants]; exact this.2.1, by rw [ha.len, hz.nchan]⟩
  have hne : fn ++ ['b', 'b'] = (fn ++ ['b']) ++ ['b'] := by simp
  obtain ⟨f2, e2, b1, _⟩ := c112_apply (D := fun _ => z) hd hf .null scale (args := [fn ++ ['b']]) (files := f1)
    (by intro g hg; obtain rfl := List.mem_singleton.1 hg; exact ⟨ez, hzok⟩)
    (by
      intro g hg; obtain rfl := List.mem_singleton.1 hg
      rw [a2 _ (by intro g hg; obtain rfl := List.mem_singleton.1 hg; simp), ← hne]; exact h2)
  obtain ⟨y, ey, hy⟩ := b1 _ (List.mem_singleton.2 rfl)
  refine ⟨f1, f2, y, e1, e2, by rw [hne]; exact ey, ?_⟩
  have g1 : ∀ i c, gain z i c = 1 := by intro i c; unfold gain; rw [hz.bandpass]; rfl
  have key : ∀ {as bs cs : List (Rec P F)}, List.Forall₂ (Applied (Lin.null.fn digi full) scale x) as bs →
      List.Forall₂ (Applied (Lin.null.fn digi full) scale z) bs cs → List.Forall₂ (Applied id (scale * scale) x) as cs := by
    intro as bs cs h
    induction h generalizing cs with
    | nil => intro h; cases h; exact .nil
    | cons h hs ih =>
      intro hh
      cases hh with
      | cons h' hs' =>
        refine .cons ⟨h'.pre.trans h.pre, h'.i.trans h.i, h'.j.trans h.j, h'.f.trans h.f, h'.len.trans hz.nchan, ?_⟩ (ih hs')
        intro c hc
        rw [h'.data c (by rw [hz.nchan]; exact hc), g1, g1, h.i, h.j, h.data c hc]
        simp only [Lin.fn, ite_self, id]
        ring
  exact key hz.recs hy.recs

end

/-! ## A case -/

/-- two antennas of two channels -/
def demo (bp : Option (List ℚ)) : DSet Nat Nat ℚ :=
  ⟨bp, 2, 2, [("nsols".toList, 1), ("nchan".toList, 2)], [⟨0, 0, 1, [1, 2], [false, true]⟩, ⟨1, 1, 1, [10, 1], [false, false]⟩]⟩

theorem demo_ok (bp : Option (List ℚ)) : SetOk (demo bp) := by
  intro r hr
  simp only [demo, List.mem_cons, List.not_mem_nil, or_false] at hr
  rcases hr with rfl | rfl <;> exact ⟨by simp [demo], by simp [demo], rfl⟩

example := c112_apply (digi := [0, 0, 0, 0, 1, 0, 0]) (full := [0, 0, 0, 0, 0, 2, 1]) rfl rfl .comb 3 (args := [['a']])
  (files := [(['a'], demo (some [1, 2, 3, 4]))]) (D := fun _ => demo (some [1, 2, 3, 4]))
  (by intro fn hf; obtain rfl := List.mem_singleton.1 hf; exact ⟨rfl, demo_ok _⟩) (by intro fn hf; obtain rfl := List.mem_singleton.1 hf; rfl)

example : (run [0, 0, 0, 0, 1, 0, 0] [0, 0, 0, 0, 0, 2, 0] ['d', 'i', 'g', 'i'] 3 [['a']] [(['a'], demo (some [1, 2, 3, 4]))]).map (fun f => f.map (·.2.recs)) =
    some [(demo none).recs, [⟨0, 0, 1, [9, 48], [false, true]⟩, ⟨1, 1, 1, [270, 24 / 5], [false, false]⟩]] := by decide +kernel

example : Lin.comb.fn [0, 0, 0, 0, 1, 0, 0] [0, 0, 0, 0, 0, 2, 1] 10 = (10 : ℚ) := c112_ten (by decide +kernel) (by decide +kernel) .comb

example : run [] [] ['c'] (1 : ℚ) [['a']] [(['a'], demo none)] = none := c112_names _ _ (by intro l; cases l <;> decide) _ _ _

example := c112_once (digi := [0, 0, 0, 0, 1, 0, 0]) (full := [0, 0, 0, 0, 0, 2, 1]) rfl rfl 3 (fn := ['a'])
  (files := [(['a'], demo (some [1, 2, 3, 4]))]) rfl (demo_ok _) rfl rfl

end Verif.Misc.ApplyBp
