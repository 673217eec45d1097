import Mathlib.Algebra.Field.Basic
import Mathlib.Algebra.CharZero.Defs
import Mathlib.Algebra.BigOperators.Group.Finset.Basic
import Mathlib.Algebra.BigOperators.Field
import Mathlib.Data.Nat.Cast.Basic
import Mathlib.Tactic.Ring
import Mathlib.Tactic.FieldSimp
import Mathlib.Tactic.NormNum
import Mathlib.Tactic.IntervalCases
import Mathlib.Algebra.Order.Ring.Rat
import Verif.Codes.Model
import Verif.Codes.Props
import Verif.Util.Dict
/-!
# Removing crosstalk (C109, C110)

`/repo/scripts/xtalk3.py` 36-108.  A data set is the list of its records; how records are read and written is C47-C51, C70, C79.
Numbers are exact elements of a field `F` and `np.abs` is a function `ab : F → F`.  `'%f' % jd` is a function `key` of the time.
The keys `str(blp)` of the npz files are the numbers themselves.  Not modelled: what is printed, channel ranges with negative
numbers, arrays of one channel against arrays of many (numpy repeats the one), and what a run that raises while it copies a data
set leaves of that copy.
-/
namespace Verif.Misc.Xtalk
open Verif.Util Verif.Codes

/-! ## Model -/

/-- a record of a data set: time, antennas, polarisation, data and flags -/
structure Rec (T F : Type) where
  t : T
  i : Int
  j : Int
  pol : Int
  d : List F
  f : List Bool
  deriving DecidableEq

/-- a npz file: its arrays by name -/
abbrev Npz (F : Type) := List (Int × List F)

/-- the data sets and the npz files of the directory -/
structure World (T F : Type) where
  uvs : List (List Char × List (Rec T F))
  npz : List (List Char × Npz F)

/-- what the options ask for: neither, `-o`, `-i` -/
inductive Mode
  | plain
  | out
  | inn
  deriving DecidableEq

section
variable {T F : Type} [Field F] [DecidableEq F]

/-- xtalk3.py 44, 80, 96 -/
def rawName (k : List Char) : List Char := k ++ ".xtalk.npz".toList

/-- xtalk3.py 61, 79 -/
def repName (k : List Char) : List Char := k ++ ".xtalk.rep.npz".toList

/-- xtalk3.py 89, 102 -/
def blOf (r : Rec T F) : Int := ijp2blp r.i r.j r.pol

/-- `a + b` of two arrays; `none` is the ValueError for different shapes -/
def addL {A : Type} [Add A] (a b : List A) : Option (List A) :=
  if a.length = b.length then some (List.zipWith (· + ·) a b) else none

/-- `np.where(f, 0, d)`, xtalk3.py 91 -/
def where0 (f : List Bool) (d : List F) : List F := List.zipWith (fun b x => if b then 0 else x) f d

/-- `np.logical_not(f)` as numbers, xtalk3.py 92 -/
def notf (f : List Bool) : List Nat := f.map fun b => if b then 0 else 1

/-- xtalk3.py 89-92, one record -/
def addRec (acc : List (Int × (List F × List Nat))) (r : Rec T F) : Option (List (Int × (List F × List Nat))) :=
  match dget (blOf r) acc with
  | none => some (dset (blOf r) (where0 r.f r.d, notf r.f) acc)
  | some gc => (addL gc.1 (where0 r.f r.d)).bind fun g => (addL gc.2 (notf r.f)).bind fun c => some (dset (blOf r) (g, c) acc)

/-- xtalk3.py 88-92 -/
def addRecs : List (Rec T F) → List (Int × (List F × List Nat)) → Option (List (Int × (List F × List Nat)))
  | [], acc => some acc
  | r :: rs, acc => (addRec acc r).bind fun a => addRecs rs a

/-- `guess[bl] / np.clip(cnt[bl], 1, np.inf)`, xtalk3.py 94 -/
def meanL (gc : List F × List Nat) : List F := List.zipWith (fun (x : F) (c : Nat) => x / ((max c 1 : Nat) : F)) gc.1 gc.2

/-- xtalk3.py 87-94; in python 3 a dict has no `has_key` -/
def estimate (py3 : Bool) (recs : List (Rec T F)) : Option (Npz F) :=
  if py3 && !recs.isEmpty then none else (addRecs recs []).map fun acc => acc.map fun p => (p.1, meanL p.2)

/-- xtalk3.py 100-104 -/
def mfunc (x : Npz F) (r : Rec T F) : Option (Rec T F) :=
  match dget (blOf r) x with
  | none => some r
  | some s => if r.d.length = s.length then some { r with d := List.zipWith (· - ·) r.d s } else none

/-- xtalk3.py 105-108: every record of the data set, with the autocorrelations -/
def copyFile (x : Npz F) (recs : List (Rec T F)) : Option (List (Rec T F)) := recs.mapM (mfunc x)

/-- `uv.select('auto', 0, 0, include=False)`, xtalk3.py 75 -/
def crosses (recs : List (Rec T F)) : List (Rec T F) := recs.filter fun r => r.i ≠ r.j

/-- xtalk3.py 79-85; `none` when neither file exists -/
def findNpz (key : T → List Char) (w : World T F) (t : T) : Option (Npz F) :=
  match dget (repName (key t)) w.npz with
  | some x => some x
  | none => dget (rawName (key t)) w.npz

/-- xtalk3.py 105-108: the copy is put into the directory -/
def putCopy (w : World T F) (fn : List Char) (x : Npz F) (recs : List (Rec T F)) : Option (World T F) :=
  (copyFile x recs).map fun o => { w with uvs := dset (fn ++ ['x']) o w.uvs }

/-- xtalk3.py 74-108 for a data set whose records are `recs`; `r0` is the first that is no autocorrelation -/
def doFile (key : T → List Char) (py3 : Bool) (m : Mode) (w : World T F) (fn : List Char) (recs : List (Rec T F)) (r0 : Rec T F) :
    Option (World T F) :=
  match m with
  | .inn =>
    match findNpz key w r0.t with
    | none => some w
    | some x => putCopy w fn x recs
  | .out => (estimate py3 (crosses recs)).map fun x => { w with npz := dset (rawName (key r0.t)) x w.npz }
  | .plain => (estimate py3 (crosses recs)).bind fun x => putCopy w fn x recs

/-- xtalk3.py 70-108, one file; `none` is an exception -/
def stepFile (key : T → List Char) (py3 : Bool) (m : Mode) (w : World T F) (fn : List Char) : Option (World T F) :=
  if m ≠ .out ∧ (dget (fn ++ ['x']) w.uvs).isSome then some w
  else
    match dget fn w.uvs with
    | none => none
    | some recs =>
      match (crosses recs).head? with
      | none => none
      | some r0 => doFile key py3 m w fn recs r0

/-- xtalk3.py 69-108: the directory at the end, and whether the end was reached -/
def runFiles (key : T → List Char) (py3 : Bool) (m : Mode) : List (List Char) → World T F → World T F × Bool
  | [], w => (w, true)
  | fn :: fs, w =>
    match stepFile key py3 m w fn with
    | none => (w, false)
    | some w1 => runFiles key py3 m fs w1

/-- `np.average(adat[chans[0]:chans[1]])` of the array masked where it is zero, xtalk3.py 53-55.  Simplified: `none` when all of it
is masked, where numpy gives `masked` and what follows is not modelled. -/
def gainOf (ab : F → F) (c0 c1 : Nat) (dat : List F) : Option F :=
  let l := (((dat.map ab).drop c0).take (c1 - c0)).filter fun a => a ≠ 0
  if l = [] then none else some (l.sum / (l.length : F))

/-- what reprocessing keeps, xtalk3.py 40 -/
structure Rep (F : Type) where
  gain : List (Int × List F)
  xsum : List (Int × List F)
  cnt : List (Int × List Nat)

/-- `np.logical_not(adat.mask)` as numbers, xtalk3.py 58 -/
def unmasked (ab : F → F) (dat : List F) : List Nat := dat.map fun x => if ab x = 0 then 0 else 1

/-- `d.get(k, 0) + v` put back at `k`, xtalk3.py 57-58 -/
def addAt {A : Type} [Add A] (k : Int) (v : List A) (d : List (Int × List A)) : Option (List (Int × List A)) :=
  match dget k d with
  | none => some (dset k v d)
  | some s => (addL s v).map fun u => dset k u d

/-- xtalk3.py 52-58, one array of one file -/
def addArr (ab : F → F) (c0 c1 : Nat) (s : Rep F) (e : Int × List F) : Option (Rep F) :=
  (gainOf ab c0 c1 e.2).bind fun g =>
    (addAt e.1 (e.2.map (· / g)) s.xsum).bind fun xs =>
      (addAt e.1 (unmasked ab e.2) s.cnt).bind fun cn =>
        some ⟨dset e.1 ((dget e.1 s.gain).getD [] ++ [g]) s.gain, xs, cn⟩

/-- xtalk3.py 51-58 -/
def addArrs (ab : F → F) (c0 c1 : Nat) : Npz F → Rep F → Option (Rep F)
  | [], s => some s
  | e :: es, s => (addArr ab c0 c1 s e).bind fun s1 => addArrs ab c0 c1 es s1

/-- xtalk3.py 41-58: the times, and what was kept; in python 3 a dict has no `has_key` -/
def gatherReps (ab : F → F) (key : T → List Char) (py3 : Bool) (c0 c1 : Nat) (w : World T F) :
    List (List Char) → List T × Rep F → Option (List T × Rep F)
  | [], s => some s
  | fn :: fs, s =>
    match (dget fn w.uvs).bind List.head? with
    | none => none
    | some r =>
      match dget (rawName (key r.t)) w.npz with
      | none => gatherReps ab key py3 c0 c1 w fs (s.1 ++ [r.t], s.2)
      | some x => if py3 && !x.isEmpty then none
        else (addArrs ab c0 c1 x s.2).bind fun s2 => gatherReps ab key py3 c0 c1 w fs (s.1 ++ [r.t], s2)

/-- xtalk3.py 59: `xsum[bl] /= np.where(cnt[bl] == 0, 1, cnt[bl])` -/
def shapes (s : Rep F) : Option (List (Int × List F)) :=
  s.xsum.mapM fun p => (dget p.1 s.cnt).map fun c =>
    (p.1, List.zipWith (fun (x : F) (n : Nat) => x / (if n = 0 then 1 else (n : F))) p.2 c)

/-- xtalk3.py 62-63; `none` is the IndexError -/
def repTable (gain : List (Int × List F)) (sh : List (Int × List F)) (c : Nat) : Option (Npz F) :=
  sh.mapM fun p => ((dget p.1 gain).getD [])[c]? |>.map fun g => (p.1, p.2.map (g * ·))

/-- xtalk3.py 60-65 -/
def writeReps (key : T → List Char) (gain sh : List (Int × List F)) : Nat → List T → World T F → World T F × Bool
  | _, [], w => (w, true)
  | c, t :: ts, w =>
    match repTable gain sh c with
    | none => (w, false)
    | some x => writeReps key gain sh (c + 1) ts { w with npz := dset (repName (key t)) x w.npz }

/-- xtalk3.py 38-66 -/
def reprocess (ab : F → F) (key : T → List Char) (py3 : Bool) (c0 c1 : Nat) (args : List (List Char)) (w : World T F) :
    World T F × Bool :=
  match gatherReps ab key py3 c0 c1 w args ([], ⟨[], [], []⟩) with
  | none => (w, false)
  | some s =>
    match shapes s.2 with
    | none => (w, false)
    | some sh => writeReps key s.2.gain sh 0 s.1 w

/-! ## Specification -/

/-- two records of one baseline and polarisation -/
def SameBl (r s : Rec T F) : Prop := ((r.i = s.i ∧ r.j = s.j) ∨ (r.i = s.j ∧ r.j = s.i)) ∧ r.pol = s.pol

instance (r s : Rec T F) : Decidable (SameBl r s) := by unfold SameBl; infer_instance

/-- the data of channel `c` of the records of the baseline and polarisation of `r` that are not flagged there -/
def goodAt (recs : List (Rec T F)) (r : Rec T F) (c : Nat) : List F :=
  (recs.filter fun s => SameBl s r ∧ s.f[c]? = some false).map fun s => s.d.getD c 0

/-- their mean, zero when there are none -/
def meanAt (recs : List (Rec T F)) (r : Rec T F) (c : Nat) : F := (goodAt recs r c).sum / ((goodAt recs r c).length : F)

/-- antenna and polarisation numbers that fit the code, and `n` channels -/
structure RecOk (n : Nat) (r : Rec T F) : Prop where
  ai : ValidAnt r.i
  aj : ValidAnt r.j
  pol : -9 ≤ r.pol ∧ r.pol ≤ 6
  len : r.d.length = n
  flen : r.f.length = n

/-- `outs` is `recs` with `x r c` taken from channel `c` of every record `r` -/
def Removed (n : Nat) (x : Rec T F → Nat → F) (recs outs : List (Rec T F)) : Prop :=
  List.Forall₂ (fun r o => o.t = r.t ∧ o.i = r.i ∧ o.j = r.j ∧ o.pol = r.pol ∧ o.f = r.f ∧ o.d.length = n ∧
    ∀ c < n, o.d.getD c 0 = r.d.getD c 0 - x r c) recs outs

/-- nothing for an autocorrelation, else the mean -/
def xtalkOf (recs : List (Rec T F)) (r : Rec T F) (c : Nat) : F := if r.i = r.j then 0 else meanAt recs r c

/-! ## Lemmas -/

set_option linter.unusedSectionVars false

theorem blOf_iff {n : Nat} {r s : Rec T F} (hr : RecOk n r) (hs : RecOk n s) : blOf r = blOf s ↔ SameBl r s := by
  constructor
  · intro h
    have e := congrArg blp2ijp h
    unfold blOf at e
    rw [c04_blp_roundtrip _ _ _ hr.ai hr.aj hr.pol.1 hr.pol.2, c04_blp_roundtrip _ _ _ hs.ai hs.aj hs.pol.1 hs.pol.2] at e
    simp only [Prod.mk.injEq] at e
    obtain ⟨e1, e2, e3⟩ := e
    refine ⟨?_, e3⟩
    omega
  · rintro ⟨h | h, hp⟩
    · unfold blOf; rw [h.1, h.2, hp]
    · unfold blOf ijp2blp; rw [h.1, h.2, hp, c01_symmetric]

theorem addL_some {A : Type} [Add A] {a b : List A} {n : Nat} (ha : a.length = n) (hb : b.length = n) :
    addL a b = some (List.zipWith (· + ·) a b) := by
  unfold addL; rw [if_pos (by omega)]

theorem getD_zipWith {A B C : Type} (g : A → B → C) {a : List A} {b : List B} {n c : Nat} (ha : a.length = n) (hb : b.length = n) (hc : c < n)
    (x : A) (y : B) (z : C) : (List.zipWith g a b).getD c z = g (a.getD c x) (b.getD c y) := by
  have h1 : c < a.length := by omega
  have h2 : c < b.length := by omega
  simp [List.getD_eq_getElem?_getD, List.getElem?_zipWith, List.getElem?_eq_getElem h1, List.getElem?_eq_getElem h2]

/-- the sum and the number of what is not flagged in channel `c` -/
def sumAt (L : List (Rec T F)) (c : Nat) : F := (L.map fun r => (where0 r.f r.d).getD c 0).sum

/-- see `sumAt` -/
def cntAt (L : List (Rec T F)) (c : Nat) : Nat := (L.map fun r => (notf r.f).getD c 0).sum

/-- what was gathered from the records `L` -/
def Inv (n : Nat) (L : List (Rec T F)) (acc : List (Int × (List F × List Nat))) : Prop :=
  ∀ k, match dget k acc with
    | none => ∀ r ∈ L, blOf r ≠ k
    | some gc => (∃ r ∈ L, blOf r = k) ∧ gc.1.length = n ∧ gc.2.length = n ∧
      ∀ c < n, gc.1.getD c 0 = sumAt (L.filter fun r => blOf r = k) c ∧ gc.2.getD c 0 = cntAt (L.filter fun r => blOf r = k) c

theorem where0_len {n : Nat} {r : Rec T F} (hr : RecOk n r) : (where0 r.f r.d).length = n := by
  simp [where0, hr.len, hr.flen]

theorem notf_len {n : Nat} {r : Rec T F} (hr : RecOk n r) : (notf r.f).length = n := by
  simp [notf, hr.flen]

theorem inv_step {n : Nat} {L : List (Rec T F)} {acc : List (Int × (List F × List Nat))} (h : Inv n L acc) {r : Rec T F}
    (hr : RecOk n r) : ∃ acc', addRec acc r = some acc' ∧ Inv n (L ++ [r]) acc' := by
  have hk := h (blOf r)
  have other : ∀ (v : List F × List Nat) (k : Int), blOf r ≠ k →
      match dget k (dset (blOf r) v acc) with
      | none => ∀ r' ∈ L ++ [r], blOf r' ≠ k
      | some gc => (∃ r' ∈ L ++ [r], blOf r' = k) ∧ gc.1.length = n ∧ gc.2.length = n ∧
        ∀ c < n, gc.1.getD c 0 = sumAt ((L ++ [r]).filter fun r => blOf r = k) c ∧
          gc.2.getD c 0 = cntAt ((L ++ [r]).filter fun r => blOf r = k) c := by
    intro v k hne
    rw [dget_dset_ne hne]
    have := h k
    have hf : ((L ++ [r]).filter fun r => blOf r = k) = L.filter fun r => blOf r = k := by
      rw [List.filter_append]; simp [hne]
    rw [hf]
    cases e : dget k acc with
    | none =>
      rw [e] at this
      intro r' hr'
      rcases List.mem_append.1 hr' with h1 | h1
      · exact this r' h1
      · rw [List.mem_singleton.1 h1]; exact hne
    | some gc =>
      rw [e] at this
      obtain ⟨⟨r1, h1, h2⟩, h3⟩ := this
      exact ⟨⟨r1, List.mem_append_left _ h1, h2⟩, h3⟩
  cases e : dget (blOf r) acc with
  | none =>
    rw [e] at hk
    refine ⟨dset (blOf r) (where0 r.f r.d, notf r.f) acc, by unfold addRec; rw [e], ?_⟩
    intro k
    by_cases hkk : blOf r = k
    · subst hkk
      rw [dget_dset_self]
      have hf : (L.filter fun r' => blOf r' = blOf r) = [] := by
        rw [List.filter_eq_nil_iff]; intro r' hr'; simpa using hk r' hr'
      refine ⟨⟨r, by simp, rfl⟩, where0_len hr, notf_len hr, ?_⟩
      intro c _
      rw [List.filter_append, hf]
      simp [sumAt, cntAt]
    · exact other _ k hkk
  | some gc =>
    rw [e] at hk
    obtain ⟨_, l1, l2, hs⟩ := hk
    refine ⟨dset (blOf r) (List.zipWith (· + ·) gc.1 (where0 r.f r.d), List.zipWith (· + ·) gc.2 (notf r.f)) acc, ?_, ?_⟩
    · unfold addRec; rw [e]
      simp only [addL_some l1 (where0_len hr), addL_some l2 (notf_len hr), Option.bind_some]
    · intro k
      by_cases hkk : blOf r = k
      · subst hkk
        rw [dget_dset_self]
        refine ⟨⟨r, by simp, rfl⟩, by simp [l1, where0_len hr], by simp [l2, notf_len hr], ?_⟩
        intro c hc
        have := hs c hc
        rw [List.filter_append]
        simp only
        rw [getD_zipWith _ l1 (where0_len hr) hc 0 0, getD_zipWith _ l2 (notf_len hr) hc 0 0, this.1, this.2]
        simp [sumAt, cntAt]
      · exact other _ k hkk

theorem inv_run {n : Nat} (rs : List (Rec T F)) : ∀ (L : List (Rec T F)) (acc : List (Int × (List F × List Nat))), Inv n L acc →
    (∀ r ∈ rs, RecOk n r) → ∃ acc', addRecs rs acc = some acc' ∧ Inv n (L ++ rs) acc' := by
  induction rs with
  | nil => intro L acc h _; exact ⟨acc, rfl, by simpa using h⟩
  | cons r rs ih =>
    intro L acc h hr
    obtain ⟨a1, e1, h1⟩ := inv_step h (hr r (by simp))
    obtain ⟨a2, e2, h2⟩ := ih _ _ h1 fun r' hr' => hr r' (by simp [hr'])
    refine ⟨a2, ?_, by simpa using h2⟩
    have e : addRecs (r :: rs) acc = (addRec acc r).bind fun a => addRecs rs a := rfl
    rw [e, e1]; exact e2

theorem dget_map {A B : Type} (g : A → B) (k : Int) (d : List (Int × A)) :
    dget k (d.map fun p => (p.1, g p.2)) = (dget k d).map g := by
  induction d with
  | nil => rfl
  | cons p d ih =>
    obtain ⟨k', v⟩ := p
    simp only [List.map_cons, dget]
    split
    · rfl
    · exact ih

theorem sumAt_cons (r : Rec T F) (L : List (Rec T F)) (c : Nat) : sumAt (r :: L) c = (where0 r.f r.d).getD c 0 + sumAt L c := by
  simp [sumAt]

theorem cntAt_cons (r : Rec T F) (L : List (Rec T F)) (c : Nat) : cntAt (r :: L) c = (notf r.f).getD c 0 + cntAt L c := by
  simp [cntAt]

theorem good_of {n : Nat} (r : Rec T F) (hr : RecOk n r) (L : List (Rec T F)) (hL : ∀ s ∈ L, RecOk n s) {c : Nat} (hc : c < n) :
    sumAt (L.filter fun s => blOf s = blOf r) c = (goodAt L r c).sum ∧
      cntAt (L.filter fun s => blOf s = blOf r) c = (goodAt L r c).length := by
  induction L with
  | nil => simp [sumAt, cntAt, goodAt]
  | cons s L ih =>
    have hs := hL s (by simp)
    obtain ⟨i1, i2⟩ := ih fun s' h => hL s' (by simp [h])
    have hb := blOf_iff hs hr
    have w : (where0 s.f s.d).getD c 0 = if s.f.getD c true then 0 else s.d.getD c 0 :=
      getD_zipWith _ hs.flen hs.len hc true 0 0
    have h1 : c < s.f.length := by rw [hs.flen]; exact hc
    have nf : (notf s.f).getD c 0 = if s.f.getD c true then 0 else 1 := by
      simp [notf, List.getD_eq_getElem?_getD, List.getElem?_eq_getElem h1]
    have gd : s.f.getD c true = s.f[c] := by simp [List.getD_eq_getElem?_getD, List.getElem?_eq_getElem h1]
    by_cases hsb : SameBl s r
    · have hbl : blOf s = blOf r := hb.2 hsb
      rw [List.filter_cons_of_pos (by simpa using hbl), sumAt_cons, cntAt_cons, w, nf, gd, i1, i2]
      cases hf : s.f[c] with
      | true =>
        have hg : goodAt (s :: L) r c = goodAt L r c := by
          unfold goodAt
          rw [List.filter_cons_of_neg]
          simp [List.getElem?_eq_getElem h1, hf]
        rw [hg]; simp
      | false =>
        have hg : goodAt (s :: L) r c = s.d.getD c 0 :: goodAt L r c := by
          unfold goodAt
          rw [List.filter_cons_of_pos (by simp [List.getElem?_eq_getElem h1, hf, hsb]), List.map_cons]
        rw [hg]; simp [Nat.add_comm]
    · have hbl : ¬ blOf s = blOf r := fun h => hsb (hb.1 h)
      have hg : goodAt (s :: L) r c = goodAt L r c := by
        unfold goodAt
        rw [List.filter_cons_of_neg]
        simp [hsb]
      rw [List.filter_cons_of_neg (by simpa using hbl), hg]
      exact ⟨i1, i2⟩

/-- the table found for the records: for each of their baselines the means, nothing for others -/
theorem estimate_spec {n : Nat} {recs : List (Rec T F)} (hok : ∀ r ∈ recs, RecOk n r) :
    ∃ x, estimate false recs = some x ∧ (∀ k, (∀ r ∈ recs, blOf r ≠ k) → dget k x = none) ∧
      ∀ r ∈ recs, ∃ s, dget (blOf r) x = some s ∧ s.length = n ∧ ∀ c < n, s.getD c 0 = meanAt recs r c := by
  obtain ⟨acc, e, hi⟩ := inv_run (n := n) recs [] [] (by intro k; simp [dget]) hok
  rw [List.nil_append] at hi
  refine ⟨acc.map fun p => (p.1, meanL p.2), by unfold estimate; rw [e]; simp, ?_, ?_⟩
  · intro k hk
    rw [dget_map]
    have := hi k
    cases ek : dget k acc with
    | none => rfl
    | some gc => rw [ek] at this; obtain ⟨⟨r, h1, h2⟩, _⟩ := this; exact absurd h2 (hk r h1)
  · intro r hr
    rw [dget_map]
    have := hi (blOf r)
    cases ek : dget (blOf r) acc with
    | none => rw [ek] at this; exact absurd rfl (this r hr)
    | some gc =>
      rw [ek] at this
      obtain ⟨_, l1, l2, hs⟩ := this
      refine ⟨_, rfl, by simp [meanL, l1, l2], ?_⟩
      intro c hc
      obtain ⟨g1, g2⟩ := good_of r (hok r hr) recs hok hc
      unfold meanL meanAt
      rw [getD_zipWith _ l1 l2 hc 0 0, (hs c hc).1, (hs c hc).2, g1, g2]
      cases hl : goodAt recs r c with
      | nil => simp
      | cons a l => simp

theorem copy_spec {n : Nat} {x : Npz F} {v : Rec T F → Nat → F} : ∀ {recs : List (Rec T F)}, (∀ r ∈ recs, RecOk n r) →
    (∀ r ∈ recs, (dget (blOf r) x = none ∧ ∀ c < n, v r c = 0) ∨
      ∃ s, dget (blOf r) x = some s ∧ s.length = n ∧ ∀ c < n, s.getD c 0 = v r c) →
    ∃ outs, copyFile x recs = some outs ∧ Removed n v recs outs := by
  intro recs
  induction recs with
  | nil => intro _ _; exact ⟨[], rfl, .nil⟩
  | cons r rs ih =>
    intro hok h
    obtain ⟨outs, e, ho⟩ := ih (fun r' hr' => hok r' (by simp [hr'])) fun r' hr' => h r' (by simp [hr'])
    have hr := hok r (by simp)
    have key : ∃ o, mfunc x r = some o ∧ (o.t = r.t ∧ o.i = r.i ∧ o.j = r.j ∧ o.pol = r.pol ∧ o.f = r.f ∧ o.d.length = n ∧
        ∀ c < n, o.d.getD c 0 = r.d.getD c 0 - v r c) := by
      rcases h r (by simp) with ⟨h1, h2⟩ | ⟨s, h1, h2, h3⟩
      · refine ⟨r, by unfold mfunc; rw [h1], rfl, rfl, rfl, rfl, rfl, hr.len, ?_⟩
        intro c hc; rw [h2 c hc, sub_zero]
      · refine ⟨{ r with d := List.zipWith (· - ·) r.d s }, ?_, rfl, rfl, rfl, rfl, rfl, by simp [hr.len, h2], ?_⟩
        · unfold mfunc; rw [h1]; simp [hr.len, h2]
        · intro c hc
          simp only
          rw [getD_zipWith _ hr.len h2 hc 0 0, h3 c hc]
    obtain ⟨o, e1, h1⟩ := key
    refine ⟨o :: outs, ?_, .cons h1 ho⟩
    have e2 : rs.mapM (mfunc x) = some outs := e
    simp [copyFile, List.mapM_cons, e1, e2]

theorem goodAt_crosses (recs : List (Rec T F)) {r : Rec T F} (h : r.i ≠ r.j) (c : Nat) : goodAt (crosses recs) r c = goodAt recs r c := by
  unfold goodAt crosses
  rw [List.filter_filter]
  congr 1
  apply List.filter_congr
  intro s _
  by_cases hs : SameBl s r
  · have : s.i ≠ s.j := by rcases hs.1 with h1 | h1 <;> omega
    simp [this]
  · simp [hs]

theorem meanAt_crosses (recs : List (Rec T F)) {r : Rec T F} (h : r.i ≠ r.j) (c : Nat) : meanAt (crosses recs) r c = meanAt recs r c := by
  unfold meanAt; rw [goodAt_crosses recs h]

theorem plain_copy {n : Nat} {recs : List (Rec T F)} (hok : ∀ r ∈ recs, RecOk n r) :
    ∃ x outs, estimate false (crosses recs) = some x ∧ copyFile x recs = some outs ∧ Removed n (xtalkOf recs) recs outs := by
  have hok' : ∀ r ∈ crosses recs, RecOk n r := fun r hr => hok r (List.mem_filter.1 hr).1
  obtain ⟨x, e, h1, h2⟩ := estimate_spec hok'
  obtain ⟨outs, e2, h3⟩ := copy_spec (x := x) (v := xtalkOf recs) hok (by
    intro r hr
    by_cases hc : r.i = r.j
    · left
      refine ⟨h1 _ ?_, fun c _ => by unfold xtalkOf; rw [if_pos hc]⟩
      intro s hs hb
      have hs' := List.mem_filter.1 hs
      have := (blOf_iff (hok s hs'.1) (hok r hr)).1 hb
      have h3 : s.i ≠ s.j := by simpa using hs'.2
      rcases this.1 with h4 | h4 <;> omega
    · right
      have hm : r ∈ crosses recs := List.mem_filter.2 ⟨hr, by simpa using hc⟩
      obtain ⟨s, a1, a2, a3⟩ := h2 r hm
      refine ⟨s, a1, a2, fun c hcn => ?_⟩
      unfold xtalkOf
      rw [if_neg hc, a3 c hcn, meanAt_crosses recs hc])
  exact ⟨x, outs, e, e2, h3⟩

theorem app_x_ne {a b : List Char} (h : a ++ ['x'] = b ++ ['x']) : a = b := List.append_cancel_right h

/-- the loop over the files, when each of them is copied or left out -/
theorem loop_copy {key : T → List Char} {py3 : Bool} {m : Mode} (hm : m ≠ .out) (R : List Char → List (Rec T F))
    (O : List Char → Option (List (Rec T F))) (npz0 : List (List Char × Npz F)) : ∀ (args : List (List Char)) (w : World T F),
    w.npz = npz0 → (∀ fn ∈ args, dget fn w.uvs = some (R fn)) → (∀ fn ∈ args, crosses (R fn) ≠ []) →
    (∀ fn ∈ args, ∀ fn' ∈ args, fn ++ ['x'] ≠ fn') →
    (∀ fn ∈ args, dget (fn ++ ['x']) w.uvs = none ∨ dget (fn ++ ['x']) w.uvs = O fn) →
    (∀ fn ∈ args, ∀ w1 : World T F, w1.npz = npz0 → ∀ r0, (crosses (R fn)).head? = some r0 → doFile key py3 m w1 fn (R fn) r0 =
      some (match O fn with | none => w1 | some o => { w1 with uvs := dset (fn ++ ['x']) o w1.uvs })) →
    ∃ w', runFiles key py3 m args w = (w', true) ∧ w'.npz = npz0 ∧ (∀ fn ∈ args, dget (fn ++ ['x']) w'.uvs = O fn) ∧
      ∀ g, (∀ fn ∈ args, g ≠ fn ++ ['x']) → dget g w'.uvs = dget g w.uvs := by
  intro args
  induction args with
  | nil => intro w h _ _ _ _ _; exact ⟨w, rfl, h, by simp, fun _ _ => rfl⟩
  | cons fn fs ih =>
    intro w hn hR hne hsep hO hstep
    have rest : ∀ w1 : World T F, w1.npz = npz0 → (∀ g, g ≠ fn ++ ['x'] → dget g w1.uvs = dget g w.uvs) →
        dget (fn ++ ['x']) w1.uvs = O fn → stepFile key py3 m w fn = some w1 →
        ∃ w', runFiles key py3 m (fn :: fs) w = (w', true) ∧ w'.npz = npz0 ∧ (∀ fn' ∈ fn :: fs, dget (fn' ++ ['x']) w'.uvs = O fn') ∧
          ∀ g, (∀ fn' ∈ fn :: fs, g ≠ fn' ++ ['x']) → dget g w'.uvs = dget g w.uvs := by
      intro w1 h1 h2 h3 h4
      obtain ⟨w', e, a1, a2, a3⟩ := ih w1 h1
        (fun f' hf' => by rw [h2 f' (fun h => hsep fn (by simp) f' (by simp [hf']) h.symm)]; exact hR f' (by simp [hf']))
        (fun f' hf' => hne f' (by simp [hf'])) (fun a ha b hb => hsep a (by simp [ha]) b (by simp [hb]))
        (fun f' hf' => by
          by_cases hff : f' = fn
          · subst hff; right; exact h3
          · rw [h2 _ fun h => hff (app_x_ne h)]; exact hO f' (by simp [hf']))
        (fun f' hf' => hstep f' (by simp [hf']))
      refine ⟨w', ?_, a1, ?_, ?_⟩
      · simp only [runFiles, h4]; exact e
      · intro f' hf'
        by_cases hin : f' ∈ fs
        · exact a2 f' hin
        · have : f' = fn := by simpa [hin] using hf'
          subst this
          rw [a3 _ fun g hg h => hin (by rw [app_x_ne h]; exact hg)]; exact h3
      · intro g hg
        rw [a3 g fun f' hf' => hg f' (by simp [hf']), h2 g (hg fn (by simp))]
    by_cases hex : (dget (fn ++ ['x']) w.uvs).isSome
    · refine rest w hn (fun _ _ => rfl) ?_ ?_
      · rcases hO fn (by simp) with h | h
        · rw [h] at hex; cases hex
        · exact h
      · unfold stepFile; rw [if_pos ⟨hm, hex⟩]
    · have hnone : dget (fn ++ ['x']) w.uvs = none := by simpa using hex
      obtain ⟨r0, hr0⟩ : ∃ r0, (crosses (R fn)).head? = some r0 := by
        cases e : crosses (R fn) with
        | nil => exact absurd e (hne fn (by simp))
        | cons a l => exact ⟨a, rfl⟩
      have hd := hstep fn (by simp) w hn r0 hr0
      have hs : stepFile key py3 m w fn =
          some (match O fn with | none => w | some o => { w with uvs := dset (fn ++ ['x']) o w.uvs }) := by
        unfold stepFile
        rw [if_neg (fun h => hex h.2), hR fn (by simp)]
        simp only [hr0]
        exact hd
      cases ho : O fn with
      | none =>
        rw [ho] at hs
        refine rest w hn (fun _ _ => rfl) (by rw [hnone, ho]) hs
      | some o =>
        rw [ho] at hs
        refine rest { w with uvs := dset (fn ++ ['x']) o w.uvs } hn ?_ ?_ hs
        · intro g hg; exact dget_dset_ne (Ne.symm hg) _ _
        · rw [ho]; exact dget_dset_self _ _ _

theorem forall₂_mem_right {A B : Type} {P : A → B → Prop} {l : List A} {m : List B} (h : List.Forall₂ P l m) {b : B} (hb : b ∈ m) :
    ∃ a ∈ l, P a b := by
  induction h with
  | nil => cases hb
  | cons hp _ ih =>
    rcases List.mem_cons.1 hb with e | e
    · subst e; exact ⟨_, by simp, hp⟩
    · obtain ⟨a, h1, h2⟩ := ih e; exact ⟨a, by simp [h1], h2⟩

/-- what is left in a channel after a number was taken from every record of a baseline -/
theorem good_removed {n : Nat} {v : Rec T F → Nat → F} {recs outs : List (Rec T F)} (h : Removed n v recs outs) {r o : Rec T F}
    (hi : o.i = r.i) (hj : o.j = r.j) (hp : o.pol = r.pol) {c : Nat} (hc : c < n) {a : F}
    (hv : ∀ s ∈ recs, SameBl s r → v s c = a) : goodAt outs o c = (goodAt recs r c).map (· - a) := by
  unfold Removed at h
  induction h with
  | nil => rfl
  | @cons s o' l l' hp' _ ih =>
    obtain ⟨_, h2, h3, h4, h5, _, h7⟩ := hp'
    have ih' := ih fun s hs => hv s (by simp [hs])
    have hiff : SameBl o' o ↔ SameBl s r := by unfold SameBl; rw [h2, h3, h4, hi, hj, hp]
    by_cases hg : SameBl s r ∧ s.f[c]? = some false
    · have hg' : SameBl o' o ∧ o'.f[c]? = some false := ⟨hiff.2 hg.1, by rw [h5]; exact hg.2⟩
      unfold goodAt at ih' ⊢
      rw [List.filter_cons_of_pos (by simpa using hg'), List.filter_cons_of_pos (by simpa using hg), List.map_cons, List.map_cons,
        List.map_cons, ih', h7 c hc, hv s (by simp) hg.1]
    · have hg' : ¬ (SameBl o' o ∧ o'.f[c]? = some false) := by rw [hiff, h5]; exact hg
      unfold goodAt at ih' ⊢
      rw [List.filter_cons_of_neg (by simpa using hg'), List.filter_cons_of_neg (by simpa using hg), ih']

theorem goodAt_same {recs : List (Rec T F)} {r s : Rec T F} (h : SameBl s r) (c : Nat) : goodAt recs s c = goodAt recs r c := by
  unfold goodAt
  congr 1
  apply List.filter_congr
  intro q _
  have : SameBl q s ↔ SameBl q r := by
    unfold SameBl at *
    constructor <;> intro hq <;> refine ⟨?_, ?_⟩ <;> omega
  simp [this]

theorem sum_map_sub (l : List F) (a : F) : (l.map (· - a)).sum = l.sum - l.length * a := by
  induction l with
  | nil => simp
  | cons x l ih => simp only [List.map_cons, List.sum_cons, ih, List.length_cons, Nat.cast_add, Nat.cast_one]; ring

theorem removed_zero [CharZero F] {n : Nat} {recs outs : List (Rec T F)} (h : Removed n (xtalkOf recs) recs outs) {o : Rec T F}
    (ho : o ∈ outs) (hx : o.i ≠ o.j) {c : Nat} (hc : c < n) : (goodAt outs o c).sum = 0 := by
  obtain ⟨r, _, _, h2, h3, h4, _⟩ := forall₂_mem_right h ho
  have hr : r.i ≠ r.j := by rw [← h2, ← h3]; exact hx
  rw [good_removed h h2 h3 h4 hc (a := meanAt recs r c), sum_map_sub]
  · unfold meanAt
    cases hl : goodAt recs r c with
    | nil => simp
    | cons a l =>
      have : (((a :: l).length : Nat) : F) ≠ 0 := by simp; exact Nat.cast_add_one_ne_zero _
      rw [mul_div_cancel₀ _ this, sub_self]
  · intro s _ hs
    have : s.i ≠ s.j := by rcases hs.1 with h1 | h1 <;> omega
    unfold xtalkOf
    rw [if_neg this]
    unfold meanAt
    rw [goodAt_same hs]

theorem forall₂_get {A B : Type} {P : A → B → Prop} {l : List A} {m : List B} (h : List.Forall₂ P l m) : ∀ {k : Nat} {b : B},
    m[k]? = some b → ∃ a, l[k]? = some a ∧ P a b := by
  induction h with
  | nil => intro k b hb; simp at hb
  | @cons a b' l m hp _ ih =>
    intro k b hb
    cases k with
    | zero => simp at hb; subst hb; exact ⟨a, by simp, hp⟩
    | succ k =>
      obtain ⟨a', h1, h2⟩ := ih (k := k) (b := b) (by simpa using hb)
      exact ⟨a', by simpa using h1, h2⟩

theorem removed_const [CharZero F] {n : Nat} {recs recs2 outs outs2 : List (Rec T F)} {h : Rec T F → Nat → F}
    (h1 : Removed n (xtalkOf recs) recs outs) (h2 : Removed n (xtalkOf recs2) recs2 outs2)
    (h12 : Removed n (fun r c => -h r c) recs recs2) (hauto : ∀ r c, r.i = r.j → h r c = 0)
    (hsame : ∀ r s c, SameBl s r → h s c = h r c) {k : Nat} {o o2 : Rec T F} (hk : outs[k]? = some o) (hk2 : outs2[k]? = some o2)
    {c : Nat} (hc : c < n) (hg : o.i = o.j ∨ goodAt outs o c ≠ []) : o2.d.getD c 0 = o.d.getD c 0 := by
  obtain ⟨r, er, a1, a2, a3, a4, a5, a6, a7⟩ := forall₂_get h1 hk
  obtain ⟨r2, er2, b1, b2, b3, b4, b5, b6, b7⟩ := forall₂_get h2 hk2
  obtain ⟨r', er', c1, c2, c3, c4, c5, c6, c7⟩ := forall₂_get h12 er2
  obtain rfl : r = r' := Option.some.inj (er.symm.trans er')
  have c7 : ∀ c < n, r2.d.getD c 0 = r.d.getD c 0 - -h r c := c7
  rw [a7 c hc, b7 c hc, c7 c hc]
  by_cases hx : r.i = r.j
  · have hx2 : r2.i = r2.j := by rw [c2, c3]; exact hx
    unfold xtalkOf
    rw [if_pos hx, if_pos hx2, hauto r c hx]; ring
  · have hx2 : ¬ r2.i = r2.j := by rw [c2, c3]; exact hx
    have hgo : goodAt outs o c ≠ [] := hg.resolve_left (by rw [a2, a3]; exact hx)
    have e1 : goodAt recs2 r2 c = (goodAt recs r c).map (· - -h r c) :=
      good_removed h12 c2 c3 c4 hc (fun s _ hs => by simp only [hsame r s c hs])
    have e2 : goodAt outs o c = (goodAt recs r c).map (· - meanAt recs r c) := by
      refine good_removed h1 a2 a3 a4 hc fun s _ hs => ?_
      have : ¬ s.i = s.j := by rcases hs.1 with h1 | h1 <;> omega
      unfold xtalkOf
      rw [if_neg this]
      unfold meanAt
      rw [goodAt_same hs]
    have hl : goodAt recs r c ≠ [] := by
      intro h0; rw [e2, h0] at hgo; exact hgo rfl
    have hlen : ((goodAt recs r c).length : F) ≠ 0 := by
      simpa using hl
    unfold xtalkOf meanAt
    rw [if_neg hx, if_neg hx2, e1, sum_map_sub, List.length_map]
    field_simp
    ring

/-- the data sets named are there, with `nch fn` channels and a record that is no autocorrelation -/
structure There (nch : List Char → Nat) (R : List Char → List (Rec T F)) (args : List (List Char)) (w : World T F) : Prop where
  there : ∀ fn ∈ args, dget fn w.uvs = some (R fn)
  ok : ∀ fn ∈ args, ∀ r ∈ R fn, RecOk (nch fn) r
  cross : ∀ fn ∈ args, ∃ r ∈ R fn, r.i ≠ r.j

/-- and their copies are not there -/
structure Ready (nch : List Char → Nat) (R : List Char → List (Rec T F)) (args : List (List Char)) (w : World T F) : Prop
    extends There nch R args w where
  new : ∀ fn ∈ args, dget (fn ++ ['x']) w.uvs = none

theorem Ready.sep {nch : List Char → Nat} {R : List Char → List (Rec T F)} {args : List (List Char)} {w : World T F}
    (h : Ready nch R args w) : ∀ fn ∈ args, ∀ fn' ∈ args, fn ++ ['x'] ≠ fn' := by
  intro fn hf fn' hf' e
  have := h.there fn' hf'
  rw [← e, h.new fn hf] at this
  cases this

theorem There.crosses_ne {nch : List Char → Nat} {R : List Char → List (Rec T F)} {args : List (List Char)} {w : World T F}
    (h : There nch R args w) : ∀ fn ∈ args, crosses (R fn) ≠ [] := by
  intro fn hf e
  obtain ⟨r, hr, hx⟩ := h.cross fn hf
  have : r ∈ crosses (R fn) := List.mem_filter.2 ⟨hr, by simpa using hx⟩
  rw [e] at this
  cases this

/-! ## C109 -/

/-- C109 (python 2, neither `-i` nor `-o`): every data set is copied; an autocorrelation keeps its data, every other record loses, in
each channel, the mean over the data set of what is not flagged in that channel of the records of its baseline and polarisation.
All else about the records is kept, and no other file is touched. -/
theorem c109_mean_partial (key : T → List Char) {nch : List Char → Nat} {R : List Char → List (Rec T F)} {args : List (List Char)}
    {w : World T F} (h : Ready nch R args w) :
    ∃ w', runFiles key false .plain args w = (w', true) ∧ w'.npz = w.npz ∧
      (∀ fn ∈ args, ∃ outs, dget (fn ++ ['x']) w'.uvs = some outs ∧ Removed (nch fn) (xtalkOf (R fn)) (R fn) outs) ∧
      ∀ g, (∀ fn ∈ args, g ≠ fn ++ ['x']) → dget g w'.uvs = dget g w.uvs := by
  have hp : ∀ fn ∈ args, ∃ o, ∃ x, estimate false (crosses (R fn)) = some x ∧ copyFile x (R fn) = some o ∧
      Removed (nch fn) (xtalkOf (R fn)) (R fn) o := by
    intro fn hf
    obtain ⟨x, o, a1, a2, a3⟩ := plain_copy (h.ok fn hf)
    exact ⟨o, x, a1, a2, a3⟩
  classical
  let O : List Char → Option (List (Rec T F)) := fun fn => if hf : fn ∈ args then some (hp fn hf).choose else none
  obtain ⟨w', e, a1, a2, a3⟩ := loop_copy (key := key) (py3 := false) (m := .plain) (by decide) R O w.npz args w rfl h.there h.crosses_ne
    h.sep (fun fn hf => .inl (h.new fn hf)) (by
      intro fn hf w1 _ r0 _
      obtain ⟨x, b1, b2, b3⟩ := (hp fn hf).choose_spec
      have ho : O fn = some (hp fn hf).choose := dif_pos hf
      rw [ho]
      simp only [doFile, b1, Option.bind_some, putCopy, b2, Option.map_some])
  refine ⟨w', e, a1, ?_, a3⟩
  intro fn hf
  obtain ⟨x, b1, b2, b3⟩ := (hp fn hf).choose_spec
  exact ⟨_, (a2 fn hf).trans (dif_pos hf), b3⟩

/-- C109: in the copies the data of a baseline that are not flagged add up to zero in every channel. -/
theorem c109_zero_partial [CharZero F] (key : T → List Char) {nch : List Char → Nat} {R : List Char → List (Rec T F)}
    {args : List (List Char)} {w : World T F} (h : Ready nch R args w) :
    ∃ w', runFiles key false .plain args w = (w', true) ∧
      ∀ fn ∈ args, ∃ outs, dget (fn ++ ['x']) w'.uvs = some outs ∧ outs.length = (R fn).length ∧
        ∀ o ∈ outs, o.i ≠ o.j → ∀ c < nch fn, (goodAt outs o c).sum = 0 := by
  obtain ⟨w', e, _, h2, _⟩ := c109_mean_partial key h
  refine ⟨w', e, fun fn hf => ?_⟩
  obtain ⟨outs, e1, h3⟩ := h2 fn hf
  exact ⟨outs, e1, h3.length_eq.symm, fun o ho hx c hc => removed_zero h3 ho hx hc⟩

/-- C109: numbers added to the data, the same for all records of a baseline and polarisation, leave the copies as they were in every
channel with data not flagged. -/
theorem c109_static_partial [CharZero F] (key : T → List Char) {nch : List Char → Nat} {R R2 : List Char → List (Rec T F)}
    {args : List (List Char)} {w w2 : World T F} (h : Ready nch R args w) (h2 : Ready nch R2 args w2)
    {x : List Char → Rec T F → Nat → F} (hauto : ∀ fn r c, r.i = r.j → x fn r c = 0) (hsame : ∀ fn r s c, SameBl s r → x fn s c = x fn r c)
    (hadd : ∀ fn ∈ args, Removed (nch fn) (fun r c => -x fn r c) (R fn) (R2 fn)) :
    ∃ w' w2', runFiles key false .plain args w = (w', true) ∧ runFiles key false .plain args w2 = (w2', true) ∧
      ∀ fn ∈ args, ∃ outs outs2, dget (fn ++ ['x']) w'.uvs = some outs ∧ dget (fn ++ ['x']) w2'.uvs = some outs2 ∧
        outs.length = outs2.length ∧
        ∀ (k : Nat) (o o2 : Rec T F), outs[k]? = some o → outs2[k]? = some o2 → ∀ c < nch fn, (o.i = o.j ∨ goodAt outs o c ≠ []) →
          o2.d.getD c 0 = o.d.getD c 0 := by
  obtain ⟨w', e, _, a, _⟩ := c109_mean_partial key h
  obtain ⟨w2', e2, _, a2, _⟩ := c109_mean_partial key h2
  refine ⟨w', w2', e, e2, fun fn hf => ?_⟩
  obtain ⟨outs, e1, h3⟩ := a fn hf
  obtain ⟨outs2, e3, h4⟩ := a2 fn hf
  refine ⟨outs, outs2, e1, e3, ?_, fun k o o2 hk hk2 c hc hg => ?_⟩
  · rw [← h3.length_eq, ← h4.length_eq]; exact (hadd fn hf).length_eq
  · exact removed_const h3 h4 (hadd fn hf) (hauto fn) (hsame fn) hk hk2 hc hg

/-- C109 in python 3: `has_key` raises at the first data set; nothing is written, with or without `-o`. -/
theorem c109_python3_violated (key : T → List Char) {nch : List Char → Nat} {R : List Char → List (Rec T F)} {args : List (List Char)}
    {w : World T F} (h : Ready nch R args w) (hne : args ≠ []) {m : Mode} (hm : m ≠ .inn) :
    runFiles key true m args w = (w, false) := by
  cases args with
  | nil => exact absurd rfl hne
  | cons fn fs =>
    have hc := h.crosses_ne fn (by simp)
    have hn := h.new fn (by simp)
    have he : estimate true (crosses (R fn)) = none := by
      unfold estimate
      cases hh : crosses (R fn) with
      | nil => exact absurd hh hc
      | cons a l => simp
    have hs : stepFile key true m w fn = none := by
      unfold stepFile
      rw [if_neg (by rw [hn]; simp), h.there fn (by simp)]
      obtain ⟨r0, hr0⟩ : ∃ r0, (crosses (R fn)).head? = some r0 := by
        cases e : crosses (R fn) with
        | nil => exact absurd e hc
        | cons a l => exact ⟨a, rfl⟩
      simp only [hr0]
      unfold doFile
      cases m with
      | plain => simp only [he]; rfl
      | out => simp only [he]; rfl
      | inn => exact absurd rfl hm
    simp only [runFiles, hs]

end

/-! ## A case -/

/-- two records of one baseline, one of them flagged in the second channel, and an autocorrelation -/
def demoRecs : List (Rec Nat ℚ) :=
  [⟨7, 0, 0, -5, [5, 5], [false, false]⟩, ⟨7, 0, 1, -5, [1, 2], [false, false]⟩, ⟨8, 0, 1, -5, [3, 9], [false, true]⟩]

/-- see `demoRecs` -/
def demoWorld : World Nat ℚ := ⟨[(['d'], demoRecs)], []⟩

theorem demo_ready : Ready (fun _ => 2) (fun _ => demoRecs) [['d']] demoWorld := by
  refine ⟨⟨?_, ?_, ?_⟩, ?_⟩
  · intro fn hf; obtain rfl := List.mem_singleton.1 hf; rfl
  · intro fn _ r hr
    simp only [demoRecs, List.mem_cons, List.not_mem_nil, or_false] at hr
    rcases hr with rfl | rfl | rfl <;> constructor <;> first | rfl | decide
  · intro fn _; exact ⟨⟨7, 0, 1, -5, [1, 2], [false, false]⟩, by simp [demoRecs], by decide⟩
  · intro fn hf; obtain rfl := List.mem_singleton.1 hf; rfl

example : ∃ w', runFiles (fun t => List.replicate t 'a') false .plain [['d']] demoWorld = (w', true) ∧
    ∀ fn ∈ [['d']], ∃ outs, dget (fn ++ ['x']) w'.uvs = some outs ∧ outs.length = demoRecs.length ∧
      ∀ o ∈ outs, o.i ≠ o.j → ∀ c < 2, (goodAt outs o c).sum = 0 := c109_zero_partial _ demo_ready

example : (runFiles (fun t => List.replicate t 'a') false .plain [['d']] demoWorld).1.uvs = [(['d'], demoRecs), (['d', 'x'],
    [⟨7, 0, 0, -5, [5, 5], [false, false]⟩, ⟨7, 0, 1, -5, [-1, 0], [false, false]⟩, ⟨8, 0, 1, -5, [1, 7], [false, true]⟩])] := by
  decide +kernel

example : runFiles (fun t => List.replicate t 'a') true .out [['d']] demoWorld = (demoWorld, false) :=
  c109_python3_violated _ demo_ready (by decide) (by decide)

/-- the records of `demoRecs` with 4 and 6 added to those of the baseline -/
def demoRecs2 : List (Rec Nat ℚ) :=
  [⟨7, 0, 0, -5, [5, 5], [false, false]⟩, ⟨7, 0, 1, -5, [5, 8], [false, false]⟩, ⟨8, 0, 1, -5, [7, 15], [false, true]⟩]

/-- see `demoRecs2` -/
def demoWorld2 : World Nat ℚ := ⟨[(['d'], demoRecs2)], []⟩

theorem demo_ready2 : Ready (fun _ => 2) (fun _ => demoRecs2) [['d']] demoWorld2 := by
  refine ⟨⟨?_, ?_, ?_⟩, ?_⟩
  · intro fn hf; obtain rfl := List.mem_singleton.1 hf; rfl
  · intro fn _ r hr
    simp only [demoRecs2, List.mem_cons, List.not_mem_nil, or_false] at hr
    rcases hr with rfl | rfl | rfl <;> constructor <;> first | rfl | decide
  · intro fn _; exact ⟨⟨7, 0, 1, -5, [5, 8], [false, false]⟩, by simp [demoRecs2], by decide⟩
  · intro fn hf; obtain rfl := List.mem_singleton.1 hf; rfl

example := c109_static_partial (fun t => List.replicate t 'a') demo_ready demo_ready2
  (x := fun _ r c => if r.i = r.j then 0 else if c = 0 then 4 else 6) (fun _ r c h => by simp [h])
  (fun _ r s c h => by
    have : s.i = s.j ↔ r.i = r.j := by rcases h.1 with h | h <;> omega
    simp only [this])
  (by
    intro fn _
    unfold Removed demoRecs demoRecs2
    refine .cons ⟨rfl, rfl, rfl, rfl, rfl, rfl, ?_⟩ (.cons ⟨rfl, rfl, rfl, rfl, rfl, rfl, ?_⟩ (.cons ⟨rfl, rfl, rfl, rfl, rfl, rfl, ?_⟩ .nil))
    all_goals
      intro c hc
      interval_cases c <;> norm_num)

end Verif.Misc.Xtalk
