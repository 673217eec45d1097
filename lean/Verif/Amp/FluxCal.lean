import Mathlib.Algebra.Field.Basic
import Mathlib.Algebra.Field.Rat
import Mathlib.Algebra.GroupWithZero.Basic
import Verif.Util.CopyLoop
/-!
# Flux calibration (C114)

`/repo/scripts/flux_cal.py`, in python 2 (in python 3 `cal.get_aa` raises, C113, and so does `cat.values()[0]`).  The array is given by
what it answers: the passband and the beam response of a baseline (C17, C84), the spectrum of the source at a time (C74), whether the
source is up; what is carried between records is modelled: the time, the cache of the array (`sim_cache`, amp.py 314-350, emptied by
`set_jultime`, 292-295) and `src_spec`.  A catalog of one source is asked for.  Numbers are exact elements of a field.  Records have
the number of channels of the first file.  Not modelled: history; numbers of the polarisation.
-/
namespace Verif.Amp.FluxCal
open Verif.Util

/-! ## Model -/

/-- a record; `pre` is everything else -/
structure Rec (P T F : Type) where
  pre : P
  t : T
  i : Nat
  j : Nat
  pol : Char × Char
  d : List F
  f : List Bool
  deriving DecidableEq

/-- the options; `src` says whether a source is given -/
structure Opts where
  passband : Bool
  beam : Bool
  srcflux : Bool
  src : Bool

/-- what the array and the source answer for each channel -/
structure Arr (T F : Type) where
  pb : Nat → Nat → Char × Char → Nat → F
  bm : T → Nat → Nat → Char × Char → Nat → F
  jys : T → Nat → F
  up : T → Bool

/-- `aa._cache`: `None`, `{}`, or filled at a time -/
inductive Cache (T : Type)
  | unset
  | empty
  | filled (t : T)

/-- `curtime`, `aa._cache`, `src_spec` (with `None` before the first record) -/
structure St (T F : Type) where
  curtime : Option T
  cache : Cache T
  spec : Option (Nat → F)

section
variable {P T F : Type} [DecidableEq T] [Field F] [DecidableEq F]

/-- flux_cal.py 43, 45 -/
def init (o : Opts) : St T F := ⟨none, .unset, if o.srcflux then none else some fun _ => 1⟩

/-- flux_cal.py 51-58 -/
def setTime (a : Arr T F) (o : Opts) (t : T) (s : St T F) : St T F :=
  if s.curtime = some t then s
  else if o.srcflux then ⟨some t, if a.up t then .filled t else .empty, some (a.jys t)⟩
  else ⟨some t, .unset, s.spec⟩

/-- `aa.bm_response(i, j)`, amp.py 299-312: with `None` or `{}` for a cache it raises -/
def bmResponse (a : Arr T F) (c : Cache T) (i j : Nat) (pol : Char × Char) : Option (Nat → F) :=
  match c with
  | .unset => none
  | .empty => none
  | .filled t => some (a.bm t i j pol)

/-- flux_cal.py 59-64, without the division -/
def gainOf (a : Arr T F) (o : Opts) (s : St T F) (i j : Nat) (pol : Char × Char) : Option (Nat → F) :=
  (if o.beam then bmResponse a s.cache i j pol else some fun _ => 1).bind fun b =>
    s.spec.map fun sp => fun c => (if o.passband then a.pb i j pol c else 1) * b c * sp c

/-- `mfunc`, flux_cal.py 46-66 -/
def mfunc (a : Arr T F) (o : Opts) (s : St T F) (r : Rec P T F) : Option (Rec P T F × St T F) :=
  let s1 := setTime a o r.t s
  (gainOf a o s1 r.i r.j r.pol).map fun g =>
    ({ r with d := r.d.mapIdx fun (c : Nat) (x : F) => x / (if g c = (0 : F) then (1 : F) else g c) }, s1)

/-- `uvo.pipe(uvi, mfunc=mfunc, raw=True)` -/
def pipe (a : Arr T F) (o : Opts) : St T F → List (Rec P T F) → Option (List (Rec P T F) × St T F)
  | s, [] => some ([], s)
  | s, r :: rs => (mfunc a o s r).bind fun x => (pipe a o x.2 rs).map fun y => (x.1 :: y.1, y.2)

/-- flux_cal.py 68-71 -/
def ext (o : Opts) : List Char := ['.'] ++ (if o.passband then ['p'] else []) ++ (if o.beam then ['b'] else []) ++ if o.srcflux then ['f'] else []

/-- flux_cal.py 28-83; the array is made for the frequencies of the first file -/
def run (a : Arr T F) (o : Opts) (args : List (List Char)) (files : List (List Char × List (Rec P T F))) : Option (List (List Char × List (Rec P T F))) :=
  if o.src = false ∧ (o.beam = true ∨ o.srcflux = true) then none
  else match args with
    | [] => none
    | f0 :: fs => (dget f0 files).bind fun _ => (copyLoopS (ext o) (pipe a o) (f0 :: fs) (init o) files).map (·.1)

/-! ## Specification -/

/-- what the data of a record should be divided by -/
def divisor (a : Arr T F) (o : Opts) (r : Rec P T F) (c : Nat) : F :=
  (if o.passband = true then a.pb r.i r.j r.pol c else 1) * (if o.beam = true then a.bm r.t r.i r.j r.pol c else 1) *
    (if o.srcflux = true then a.jys r.t c else 1)

/-- the record of the copy: a channel with a response of zero keeps its value -/
structure Divided (a : Arr T F) (o : Opts) (r r' : Rec P T F) : Prop where
  pre : r'.pre = r.pre
  t : r'.t = r.t
  i : r'.i = r.i
  j : r'.j = r.j
  pol : r'.pol = r.pol
  f : r'.f = r.f
  len : r'.d.length = r.d.length
  data : ∀ c < r.d.length, divisor a o r c ≠ 0 → r'.d.getD c 0 * divisor a o r c = r.d.getD c 0
  zero : ∀ c < r.d.length, divisor a o r c = 0 → r'.d.getD c 0 = r.d.getD c 0

/-! ## Lemmas -/

set_option linter.unusedSectionVars false

/-- what is carried belongs to the time -/
def Inv (a : Arr T F) (o : Opts) (s : St T F) : Prop :=
  (o.srcflux = false → s.spec = some fun _ => 1) ∧
  ∀ t, s.curtime = some t → o.srcflux = true → s.spec = some (a.jys t) ∧ s.cache = if a.up t = true then .filled t else .empty

theorem inv_init (a : Arr T F) (o : Opts) : Inv a o (init o) := by
  refine ⟨fun h => by simp [init, h], fun t h => by simp [init] at h⟩

theorem inv_setTime {a : Arr T F} {o : Opts} {s : St T F} (h : Inv a o s) (t : T) : Inv a o (setTime a o t s) ∧ (setTime a o t s).curtime = some t := by
  unfold setTime
  split
  · rename_i e; exact ⟨h, e⟩
  · split
    · rename_i hs
      exact ⟨⟨fun h => (by rw [hs] at h; cases h), fun t' e _ => by cases e; exact ⟨rfl, rfl⟩⟩, rfl⟩
    · rename_i hs
      exact ⟨⟨h.1, fun t' _ hh => absurd hh hs⟩, rfl⟩

theorem mfunc_spec {a : Arr T F} {o : Opts} {s : St T F} (h : Inv a o s) {r : Rec P T F} (hb : o.beam = true → o.srcflux = true ∧ a.up r.t = true) :
    ∃ r' s', mfunc a o s r = some (r', s') ∧ Inv a o s' ∧ Divided a o r r' := by
  obtain ⟨h1, ht⟩ := inv_setTime h r.t
  have hg : ∃ g, gainOf a o (setTime a o r.t s) r.i r.j r.pol = some g ∧ ∀ c, g c = divisor a o r c := by
    unfold gainOf divisor
    by_cases hs : o.srcflux = true
    · obtain ⟨e1, e2⟩ := h1.2 _ ht hs
      by_cases hbm : o.beam = true
      · rw [if_pos (hb hbm).2] at e2
        rw [e1, e2]
        refine ⟨_, by simp only [hbm, if_true, bmResponse, Option.bind_some, Option.map_some]; rfl, ?_⟩
        intro c; simp [hs, hbm]
      · rw [e1]
        refine ⟨_, by simp only [hbm, Option.map_some]; rfl, ?_⟩
        intro c; simp [hs, hbm]
    · have hbm : ¬ o.beam = true := fun hh => hs (hb hh).1
      rw [h1.1 (by simpa using hs)]
      refine ⟨_, by simp only [hbm, Option.map_some]; rfl, ?_⟩
      intro c; simp [hs, hbm]
  obtain ⟨g, eg, hg⟩ := hg
  have hget : ∀ c < r.d.length, (r.d.mapIdx fun (c : Nat) (x : F) => x / (if g c = (0 : F) then (1 : F) else g c)).getD c 0 = r.d.getD c 0 / (if g c = (0 : F) then (1 : F) else g c) := by
    intro c hc
    simp [List.getD_eq_getElem?_getD, List.getElem?_mapIdx, List.getElem?_eq_getElem hc]
  refine ⟨{ r with d := r.d.mapIdx fun (c : Nat) (x : F) => x / (if g c = (0 : F) then (1 : F) else g c) }, setTime a o r.t s,
    by unfold mfunc; simp only [eg, Option.map_some], h1, rfl, rfl, rfl, rfl, rfl, rfl, by simp, ?_, ?_⟩
  · intro c hc hne
    simp only
    rw [hget c hc, hg c, if_neg hne, div_mul_cancel₀ _ hne]
  · intro c hc h0
    simp only
    rw [hget c hc, hg c, if_pos h0, div_one]

theorem divided_unique {a : Arr T F} {o : Opts} {r x y : Rec P T F} (hx : Divided a o r x) (hy : Divided a o r y) : x = y := by
  have hd : x.d = y.d := by
    apply List.ext_getElem (by rw [hx.len, hy.len])
    intro c h1 h2
    have hc : c < r.d.length := by rw [← hx.len]; exact h1
    have e : x.d.getD c 0 = y.d.getD c 0 := by
      by_cases h : divisor a o r c = 0
      · rw [hx.zero c hc h, hy.zero c hc h]
      · exact mul_right_cancel₀ h ((hx.data c hc h).trans (hy.data c hc h).symm)
    simpa [List.getD_eq_getElem?_getD, List.getElem?_eq_getElem h1, List.getElem?_eq_getElem h2] using e
  obtain ⟨x1, x2, x3, x4, x5, x6, x7⟩ := x
  obtain ⟨y1, y2, y3, y4, y5, y6, y7⟩ := y
  have a1 := hx.pre.trans hy.pre.symm
  have a2 := hx.t.trans hy.t.symm
  have a3 := hx.i.trans hy.i.symm
  have a4 := hx.j.trans hy.j.symm
  have a5 := hx.pol.trans hy.pol.symm
  have a6 := hx.f.trans hy.f.symm
  simp only at a1 a2 a3 a4 a5 a6 hd
  subst a1 a2 a3 a4 a5 a6 hd
  rfl

theorem pipe_spec {a : Arr T F} {o : Opts} : ∀ (rs : List (Rec P T F)), (∀ r ∈ rs, o.beam = true → o.srcflux = true ∧ a.up r.t = true) →
    ∃ os, List.Forall₂ (Divided a o) rs os ∧ ∀ s, Inv a o s → ∃ s', pipe a o s rs = some (os, s') ∧ Inv a o s' := by
  intro rs
  induction rs with
  | nil => intro _; exact ⟨[], .nil, fun s h => ⟨s, rfl, h⟩⟩
  | cons r rs ih =>
    intro h
    obtain ⟨os, ho, hp⟩ := ih fun r hr => h r (by simp [hr])
    obtain ⟨r', _, _, _, hr'⟩ := mfunc_spec (inv_init a o) (h r (by simp))
    refine ⟨r' :: os, .cons hr' ho, ?_⟩
    intro s hs
    obtain ⟨r2, s2, e, hs2, hr2⟩ := mfunc_spec hs (h r (by simp))
    obtain ⟨s', e', hs'⟩ := hp s2 hs2
    exact ⟨s', by simp [pipe, e, e', divided_unique hr' hr2], hs'⟩

/-! ## C114 -/

/-- C114 in python 2, when with `-b` there is `-f` and the source is up at all times: every file has its copy with the data divided
by what the options name. -/
theorem c114_divide_partial {a : Arr T F} {o : Opts} (hsrc : o.beam = true ∨ o.srcflux = true → o.src = true) {args : List (List Char)}
    (hne : args ≠ []) {files : List (List Char × List (Rec P T F))} {D : List Char → List (Rec P T F)}
    (hin : ∀ fn ∈ args, dget fn files = some (D fn)) (hup : ∀ fn ∈ args, ∀ r ∈ D fn, o.beam = true → o.srcflux = true ∧ a.up r.t = true)
    (hout : ∀ fn ∈ args, dget (fn ++ ext o) files = none) :
    ∃ files', run a o args files = some files' ∧
      (∀ fn ∈ args, ∃ y, dget (fn ++ ext o) files' = some y ∧ List.Forall₂ (Divided a o) (D fn) y) ∧
      ∀ k, (∀ fn ∈ args, k ≠ fn ++ ext o) → dget k files' = dget k files := by
  have h : ∀ fn, ∃ y, fn ∈ args → List.Forall₂ (Divided a o) (D fn) y ∧ ∀ s, Inv a o s → ∃ s', pipe a o s (D fn) = some (y, s') ∧ Inv a o s' := by
    intro fn
    by_cases hfn : fn ∈ args
    · obtain ⟨y, h⟩ := pipe_spec (D fn) (hup fn hfn)
      exact ⟨y, fun _ => h⟩
    · exact ⟨[], fun h => absurd h hfn⟩
  choose Tt hT using h
  obtain ⟨files', s', e, h1, h2⟩ := copyLoopS_spec (g := pipe a o) (Inv := Inv a o) (S := D) (T := Tt) hin (fun fn hfn => (hT fn hfn).2) hout
    (inv_init a o)
  refine ⟨files', ?_, fun fn hfn => ⟨Tt fn, h1 fn hfn, (hT fn hfn).1⟩, h2⟩
  cases args with
  | nil => exact absurd rfl hne
  | cons f0 fs =>
    unfold run
    rw [if_neg (by rintro ⟨h1, h2⟩; rw [hsrc h2] at h1; cases h1)]
    simp [hin f0 (by simp), e]

/-- C114: the name of the copy says what was divided out. -/
theorem c114_names (o : Opts) : ext o = '.' :: ([('p', o.passband), ('b', o.beam), ('f', o.srcflux)].filter (·.2)).map (·.1) := by
  obtain ⟨p, b, f, s⟩ := o
  cases p <;> cases b <;> cases f <;> rfl

/-- C114: with `-b` and without `-f` a file with a record raises, whatever the source. -/
theorem c114_beam_violated (a : Arr T F) {o : Opts} (hb : o.beam = true) (hs : o.srcflux = false) {fn : List Char} {fs : List (List Char)}
    {files : List (List Char × List (Rec P T F))} {r : Rec P T F} {rs : List (Rec P T F)} (hin : dget fn files = some (r :: rs))
    (hout : dget (fn ++ ext o) files = none) : run a o (fn :: fs) files = none := by
  unfold run
  split
  · rfl
  · simp only [hin, Option.bind_some]
    have : pipe a o (init o) (r :: rs) = none := by
      simp [pipe, mfunc, setTime, init, hs, gainOf, hb, bmResponse]
    simp [copyLoopS, hout, hin, this]

/-- C114: with `-b` and `-f` a file whose first record has the source below the horizon raises. -/
theorem c114_below_violated {a : Arr T F} {o : Opts} (hb : o.beam = true) {fn : List Char} {fs : List (List Char)}
    {files : List (List Char × List (Rec P T F))} {r : Rec P T F} {rs : List (Rec P T F)} (hin : dget fn files = some (r :: rs))
    (hout : dget (fn ++ ext o) files = none) (hdown : a.up r.t = false) : run a o (fn :: fs) files = none := by
  unfold run
  split
  · rfl
  · simp only [hin, Option.bind_some]
    have : pipe a o (init o) (r :: rs) = none := by
      cases hs : o.srcflux <;> simp [pipe, mfunc, setTime, init, hs, gainOf, hb, bmResponse, hdown]
    simp [copyLoopS, hout, hin, this]

/-- C114: without a source `-b` and `-f` raise before anything is written. -/
theorem c114_nosrc (a : Arr T F) {o : Opts} (hs : o.src = false) (h : o.beam = true ∨ o.srcflux = true) (args : List (List Char))
    (files : List (List Char × List (Rec P T F))) : run a o args files = none := by
  unfold run; rw [if_pos ⟨hs, h⟩]

end

/-! ## Cases -/

/-- two channels; the source is up at time 0 -/
def demo : Arr Nat ℚ := ⟨fun i j _ c => i + j + c, fun t _ _ _ _ => t + 4, fun _ c => if c = 0 then 5 else 0, fun t => decide (t = 0)⟩

def demoFiles : List (List Char × List (Rec Nat Nat ℚ)) :=
  [(['a'], [⟨0, 0, 0, 1, ('x', 'x'), [40, 1], [false, true]⟩, ⟨1, 0, 1, 1, ('x', 'x'), [40, 1], [false, true]⟩])]

example := c114_divide_partial (a := demo) (o := ⟨true, true, true, true⟩) (by simp) (args := [['a']]) (by simp) (files := demoFiles)
  (D := fun _ => [⟨0, 0, 0, 1, ('x', 'x'), [40, 1], [false, true]⟩, ⟨1, 0, 1, 1, ('x', 'x'), [40, 1], [false, true]⟩])
  (by intro fn hf; obtain rfl := List.mem_singleton.1 hf; rfl)
  (by
    intro fn _ r hr _
    simp only [List.mem_cons, List.not_mem_nil, or_false] at hr
    rcases hr with rfl | rfl <;> exact ⟨rfl, rfl⟩)
  (by intro fn hf; obtain rfl := List.mem_singleton.1 hf; rfl)

example : (run demo ⟨true, true, true, true⟩ [['a']] demoFiles).map (fun f => f.drop 1) =
    some [(['a', '.', 'p', 'b', 'f'], [⟨0, 0, 0, 1, ('x', 'x'), [2, 1], [false, true]⟩, ⟨1, 0, 1, 1, ('x', 'x'), [1, 1], [false, true]⟩])] := by
  decide +kernel

example : run demo ⟨false, true, false, true⟩ [['a']] demoFiles = none := c114_beam_violated demo rfl rfl (fs := []) rfl rfl

example : run { demo with up := fun _ => false } ⟨false, true, true, true⟩ [['a']] demoFiles = none :=
  c114_below_violated rfl (fs := []) rfl rfl rfl

example : run demo ⟨false, true, false, false⟩ [['a']] demoFiles = none := c114_nosrc demo rfl (.inl rfl) _ _

end Verif.Amp.FluxCal
