import Mathlib.Algebra.BigOperators.Intervals
import Mathlib.Algebra.Order.Field.Basic
import Mathlib.Tactic.Linarith
import Mathlib.Tactic.FieldSimp
import Verif.Misc.Xtalk
/-!
# Adding adjacent channels (C111)

`/repo/scripts/combine_freqs.py` 30-71.  A data set is its frequency axis (`sfreq`, `sdf`, `nchan`) and its records; a record is its
preamble `pre`, the values `vars` of the other variables when it is read, data and flags.  How records are read and written is
C47-C51, C70; that `init_from_uv` makes `pipe` copy the variables of a file, and that without it none are copied, is C51.  Numbers are
exact elements of an ordered field.  `nchan/opts.nchan` is a float (the script imports `division`): `oldNumpy` says whether numpy
takes a float for a length (with a warning, before 1.12) or raises.  Not modelled: history, what a run that raises leaves of
the data set it was writing.
-/
namespace Verif.Misc.Combine
open Verif.Util

/-! ## Model -/

/-- a record -/
structure Rec (P V F : Type) where
  pre : P
  vars : V
  d : List F
  f : List Bool
  deriving DecidableEq

/-- a data set -/
structure DSet (P V F : Type) where
  sfreq : F
  sdf : F
  nchan : Nat
  recs : List (Rec P V F)
  deriving DecidableEq

/-- the options `-n`, `-c`, `-d`, `-u` -/
structure Opts where
  nchan : Nat
  careful : Bool
  dont : Bool
  unify : Bool

section
variable {P V F : Type} [Field F] [LinearOrder F]

/-- `np.where(f, 0, d)`, combine_freqs.py 52, 61 -/
def zeroed (f : List Bool) (d : List F) : List F := List.zipWith (fun b x => if b then 0 else x) f d

/-- the rows of an array after `.shape = (n, r)` -/
def rows {A : Type} (n r : Nat) (l : List A) : List (List A) := (List.range n).map fun k => (l.drop (k * r)).take r

/-- `.shape = (n, nchan/n)`, combine_freqs.py 53, 55; `none` is an exception -/
def reshape {A : Type} (oldNumpy : Bool) (n nchan : Nat) (l : List A) : Option (List (List A)) :=
  if oldNumpy = true ∧ n ≠ 0 ∧ l.length = n * (nchan / n) then some (rows n (nchan / n) l) else none

/-- combine_freqs.py 58-60: is a channel of `c` good ones among `nchan/n` flagged? -/
def flagOf (o : Opts) (nchan c : Nat) : Bool :=
  if o.careful then decide ((c : F) < (nchan : F) / (o.nchan : F))
  else if o.dont then decide (c < 1)
  else decide ((c : F) ≤ (nchan : F) / (o.nchan : F) / 2)

/-- `mfunc`, combine_freqs.py 51-61 -/
def mfunc (oldNumpy : Bool) (o : Opts) (nchan : Nat) (r : Rec P V F) : Option (Rec P V F) :=
  (reshape oldNumpy o.nchan nchan (zeroed r.f r.d)).bind fun dr =>
    (reshape oldNumpy o.nchan nchan r.f).bind fun fr =>
      let c := fr.map fun row => (row.filter fun b => !b).length
      let d := List.zipWith (fun (x : F) (n : Nat) => x / ((max n 1 : Nat) : F)) (dr.map List.sum) c
      let f := c.map (flagOf (F := F) o nchan)
      some { r with d := zeroed f d, f := f }

/-- `uvo.pipe(uvi, ...)`: `init` says whether `init_from_uv` was called on this `uvi`; otherwise the variables stay as they were last
written -/
def pipe (g : Rec P V F → Option (Rec P V F)) (init : Bool) : List (Rec P V F) → List (Rec P V F) → Option (List (Rec P V F))
  | out, [] => some out
  | out, r :: rs => (g r).bind fun r' =>
      pipe g init (out ++ [if init then r' else { r' with vars := (out.getLast?.map (·.vars)).getD r'.vars }]) rs

/-- combine_freqs.py 50-68 -/
def piped (oldNumpy : Bool) (o : Opts) (init : Bool) (x out : DSet P V F) : Option (DSet P V F) :=
  (pipe (if x.nchan ≠ o.nchan then mfunc oldNumpy o x.nchan else some) init out.recs x.recs).map fun rs => { out with recs := rs }

/-- combine_freqs.py 35, 36, 43-48: the new data set -/
def newSet (o : Opts) (x : DSet P V F) : DSet P V F :=
  if x.nchan ≠ o.nchan then
    ⟨x.sfreq + (((x.nchan : F) / (o.nchan : F)) * x.sdf) / 2, x.sdf * ((x.nchan : F) / (o.nchan : F)), o.nchan, []⟩
  else ⟨x.sfreq, x.sdf, x.nchan, []⟩

/-- the files, and `uvo` with its name -/
structure St (P V F : Type) where
  files : List (List Char × DSet P V F)
  uvo : Option (List Char)

/-- combine_freqs.py 31-71, one file; the data set being written is among the files.  `none` is an exception; with `nchan` zero
asked for, line 35 divides by it. -/
def step (oldNumpy : Bool) (o : Opts) (s : St P V F) (fn : List Char) : Option (St P V F) :=
  match dget fn s.files with
  | none => none
  | some x =>
    if o.nchan = 0 then none
    else
      match s.uvo with
      | some out => (dget out s.files).bind fun y => (piped oldNumpy o false x y).map fun z =>
          ⟨dset out z s.files, if o.unify then some out else none⟩
      | none =>
        if (dget (fn ++ ['m']) s.files).isSome then some s
        else (piped oldNumpy o true x (newSet o x)).map fun z =>
          ⟨dset (fn ++ ['m']) z s.files, if o.unify then some (fn ++ ['m']) else none⟩

/-- combine_freqs.py 30-71 -/
def run (oldNumpy : Bool) (o : Opts) : List (List Char) → St P V F → Option (St P V F)
  | [], s => some s
  | fn :: fs, s => (step oldNumpy o s fn).bind fun s1 => run oldNumpy o fs s1

/-! ## Specification -/

/-- the channels among the `r` that make up channel `k` that are not flagged -/
def good (f : List Bool) (r k : Nat) : Finset Nat := (Finset.range r).filter fun i => f[k * r + i]? = some false

/-- their mean -/
def meanOf (d : List F) (f : List Bool) (r k : Nat) : F := (∑ i ∈ good f r k, d.getD (k * r + i) 0) / ((good f r k).card : F)

/-- `r'` is `r` with every `m` channels made one, of which those are flagged for which `bad` holds of the number of good channels -/
structure Combined (n m : Nat) (bad : Nat → Prop) (r r' : Rec P V F) : Prop where
  pre : r'.pre = r.pre
  vars : r'.vars = r.vars
  len : r'.d.length = n
  flen : r'.f.length = n
  flag : ∀ k < n, r'.f[k]? = some true ↔ bad (good r.f m k).card
  zero : ∀ k < n, r'.f[k]? = some true → r'.d.getD k 0 = 0
  mean : ∀ k < n, r'.f[k]? = some false → r'.d.getD k 0 = meanOf r.d r.f m k

/-- the frequency of a channel -/
def freqOf (x : DSet P V F) (k : Nat) : F := x.sfreq + k * x.sdf

/-- the mean frequency of the channels `k m` to `k m + m - 1` -/
def meanFreq (x : DSet P V F) (m k : Nat) : F := (∑ i ∈ Finset.range m, freqOf x (k * m + i)) / (m : F)

/-! ## Lemmas -/

set_option linter.unusedSectionVars false

theorem rows_len {A : Type} (n r : Nat) (l : List A) : (rows n r l).length = n := by simp [rows]

theorem sum_take (l : List F) (m : Nat) : ((l.take m).sum) = ∑ i ∈ Finset.range m, l.getD i 0 := by
  induction m generalizing l with
  | zero => simp
  | succ m ih =>
    cases l with
    | nil => simp
    | cons a l => rw [Finset.sum_range_succ']; simp [ih, add_comm]

theorem count_take (l : List Bool) (m : Nat) :
    ((l.take m).filter fun b => !b).length = ((Finset.range m).filter fun i => l[i]? = some false).card := by
  induction m generalizing l with
  | zero => simp
  | succ m ih =>
    cases l with
    | nil => simp
    | cons a l =>
      rw [Finset.card_filter, Finset.sum_range_succ', ← Finset.card_filter]
      have := ih l
      cases a <;> simp [this]

theorem rows_sum (n r k : Nat) (hk : k < n) (l : List F) : ((rows n r l).map List.sum).getD k 0 = ∑ i ∈ Finset.range r, l.getD (k * r + i) 0 := by
  have : ((rows n r l).map List.sum).getD k 0 = ((l.drop (k * r)).take r).sum := by
    simp [rows, List.getD_eq_getElem?_getD, hk]
  rw [this, sum_take]
  apply Finset.sum_congr rfl
  intro i _
  simp [List.getD_eq_getElem?_getD, List.getElem?_drop]

theorem rows_count (n r k : Nat) (hk : k < n) (l : List Bool) :
    ((rows n r l).map fun row => (row.filter fun b => !b).length)[k]? = some (good l r k).card := by
  have : ((rows n r l).map fun row => (row.filter fun b => !b).length)[k]? = some (((l.drop (k * r)).take r).filter fun b => !b).length := by
    simp [rows, hk]
  rw [this, count_take]
  congr 2
  apply Finset.filter_congr
  intro i _
  simp [List.getElem?_drop]

theorem zeroed_getD {n : Nat} {f : List Bool} {d : List F} (hf : f.length = n) (hd : d.length = n) {c : Nat} (hc : c < n) :
    (zeroed f d).getD c 0 = if f[c]? = some false then d.getD c 0 else 0 := by
  have h1 : c < f.length := by omega
  have h2 : c < d.length := by omega
  cases hb : f[c] <;>
    simp [zeroed, List.getD_eq_getElem?_getD, List.getElem?_zipWith, List.getElem?_eq_getElem h1, List.getElem?_eq_getElem h2, hb]

/-- what is asked of the number of good channels for the combination to be flagged, combine_freqs.py 58-60 -/
def Bad (o : Opts) (m c : Nat) : Prop :=
  if o.careful = true then c < m else if o.dont = true then c = 0 else 2 * c ≤ m

theorem flagOf_iff [IsStrictOrderedRing F] (o : Opts) (m c : Nat) (h : o.nchan ≠ 0) : flagOf (F := F) o (o.nchan * m) c = true ↔ Bad o m c := by
  have hN : (o.nchan : F) ≠ 0 := by exact_mod_cast h
  have e : ((o.nchan * m : Nat) : F) / (o.nchan : F) = (m : F) := by
    push_cast; field_simp
  unfold flagOf Bad
  rw [e]
  split
  · simp
  · split
    · simp
    · rw [decide_eq_true_iff, le_div_iff₀ (by norm_num)]
      constructor
      · intro h; have : ((c * 2 : Nat) : F) ≤ (m : F) := by push_cast; exact h
        have := Nat.cast_le.1 this; omega
      · intro h; have : ((c * 2 : Nat) : F) ≤ (m : F) := Nat.cast_le.2 (by omega)
        push_cast at this; exact this

theorem mfunc_spec [IsStrictOrderedRing F] (o : Opts) {m : Nat} (hn : o.nchan ≠ 0) {r : Rec P V F} (hd : r.d.length = o.nchan * m)
    (hf : r.f.length = o.nchan * m) : ∃ r', mfunc true o (o.nchan * m) r = some r' ∧ Combined o.nchan m (Bad o m) r r' := by
  have hdiv : o.nchan * m / o.nchan = m := Nat.mul_div_cancel_left m (Nat.pos_of_ne_zero hn)
  have hz : (zeroed r.f r.d).length = o.nchan * m := by simp [zeroed, hd, hf]
  have e1 : reshape true o.nchan (o.nchan * m) (zeroed r.f r.d) = some (rows o.nchan m (zeroed r.f r.d)) := by
    unfold reshape; rw [hdiv, if_pos ⟨rfl, hn, hz⟩]
  have e2 : reshape true o.nchan (o.nchan * m) r.f = some (rows o.nchan m r.f) := by
    unfold reshape; rw [hdiv, if_pos ⟨rfl, hn, hf⟩]
  let c := (rows o.nchan m r.f).map fun row => (row.filter fun b => !b).length
  let s := (rows o.nchan m (zeroed r.f r.d)).map List.sum
  let d := List.zipWith (fun (x : F) (n : Nat) => x / ((max n 1 : Nat) : F)) s c
  let f := c.map (flagOf (F := F) o (o.nchan * m))
  have hcl : c.length = o.nchan := by simp [c, rows_len]
  have hsl : s.length = o.nchan := by simp [s, rows_len]
  have hdl : d.length = o.nchan := by simp [d, hcl, hsl]
  have hfl : f.length = o.nchan := by simp [f, hcl]
  have hc : ∀ k < o.nchan, c[k]? = some (good r.f m k).card := fun k hk => rows_count _ _ k hk _
  have hfk : ∀ k < o.nchan, f[k]? = some (flagOf (F := F) o (o.nchan * m) (good r.f m k).card) := by
    intro k hk; simp only [f, List.getElem?_map, hc k hk, Option.map_some]
  refine ⟨{ r with d := zeroed f d, f := f }, by unfold mfunc; rw [e1, e2]; rfl, rfl, rfl, by simp [zeroed, hdl, hfl], hfl, ?_, ?_, ?_⟩
  · intro k hk
    simp only
    rw [hfk k hk, ← flagOf_iff (F := F) o m _ hn]
    simp
  · intro k hk hb
    simp only at hb ⊢
    rw [zeroed_getD hfl hdl hk, if_neg (by rw [hb]; simp)]
  · intro k hk hb
    simp only at hb ⊢
    rw [zeroed_getD hfl hdl hk, if_pos hb]
    have hck : c.getD k 0 = (good r.f m k).card := by rw [List.getD_eq_getElem?_getD, hc k hk]; rfl
    have hsk : s.getD k 0 = ∑ i ∈ good r.f m k, r.d.getD (k * m + i) 0 := by
      rw [rows_sum _ _ _ hk]
      unfold good
      rw [Finset.sum_filter]
      apply Finset.sum_congr rfl
      intro i hi
      have : k * m + i < o.nchan * m := by
        have h1 := Finset.mem_range.1 hi
        have : (k + 1) * m ≤ o.nchan * m := Nat.mul_le_mul_right _ hk
        rw [Nat.add_mul] at this; omega
      rw [zeroed_getD hf hd this]
    have : d.getD k 0 = s.getD k 0 / ((max (c.getD k 0) 1 : Nat) : F) := Xtalk.getD_zipWith _ hsl hcl hk 0 0 0
    rw [this, hck, hsk]
    unfold meanOf
    by_cases hz0 : (good r.f m k).card = 0
    · rw [Finset.card_eq_zero.1 hz0]; simp
    · rw [Nat.max_eq_left (by omega)]

theorem pipe_init {g : Rec P V F → Option (Rec P V F)} {Q : Rec P V F → Rec P V F → Prop} : ∀ (rs out : List (Rec P V F)),
    (∀ r ∈ rs, ∃ r', g r = some r' ∧ Q r r') → ∃ os, pipe g true out rs = some (out ++ os) ∧ List.Forall₂ Q rs os := by
  intro rs
  induction rs with
  | nil => intro out _; exact ⟨[], by simp [pipe], .nil⟩
  | cons r rs ih =>
    intro out h
    obtain ⟨r', e, hq⟩ := h r (by simp)
    obtain ⟨os, e2, ho⟩ := ih (out ++ [r']) fun r hr => h r (by simp [hr])
    refine ⟨r' :: os, ?_, .cons hq ho⟩
    simp only [pipe, e, Option.bind_some, if_true]
    rw [e2]; simp

/-- what one file gives without `-u` -/
structure IsOut (o : Opts) (x y : DSet P V F) : Prop where
  nchan : y.nchan = o.nchan
  sdf : y.sdf = x.sdf * ((x.nchan / o.nchan : Nat) : F)
  recs : if x.nchan = o.nchan then y.recs = x.recs else List.Forall₂ (Combined o.nchan (x.nchan / o.nchan) (Bad o (x.nchan / o.nchan))) x.recs y.recs

/-- the number of channels is divided by the one asked for, and all records have that number -/
structure SetOk (o : Opts) (x : DSet P V F) : Prop where
  dvd : o.nchan ∣ x.nchan
  len : ∀ r ∈ x.recs, r.d.length = x.nchan ∧ r.f.length = x.nchan

theorem file_spec [IsStrictOrderedRing F] (o : Opts) (hn : o.nchan ≠ 0) {x : DSet P V F} (hx : SetOk o x) :
    ∃ y, piped true o true x (newSet o x) = some y ∧ IsOut o x y ∧ y.sfreq = (newSet o x).sfreq := by
  obtain ⟨m, hm⟩ := hx.dvd
  have hN : (o.nchan : F) ≠ 0 := by exact_mod_cast hn
  have hdiv : x.nchan / o.nchan = m := by rw [hm]; exact Nat.mul_div_cancel_left m (Nat.pos_of_ne_zero hn)
  have er : (newSet o x).recs = [] := by unfold newSet; split <;> rfl
  have en : (newSet o x).nchan = o.nchan := by
    unfold newSet; split
    · rfl
    · rename_i h; simpa using h
  have es : (newSet o x).sdf = x.sdf * ((x.nchan / o.nchan : Nat) : F) := by
    have e : ((x.nchan : Nat) : F) / (o.nchan : F) = (m : F) := by rw [hm]; push_cast; field_simp
    unfold newSet; split
    · simp only; rw [hdiv, e]
    · rename_i h
      have h1 : x.nchan = o.nchan := by simpa using h
      have : m = 1 := by
        rw [h1] at hm
        have : o.nchan * 1 = o.nchan * m := by omega
        exact (Nat.eq_of_mul_eq_mul_left (Nat.pos_of_ne_zero hn) this).symm
      simp only; rw [hdiv, this]; simp
  by_cases h : x.nchan = o.nchan
  · obtain ⟨os, e, ho⟩ := pipe_init (g := some) (Q := fun r r' => r' = r) x.recs [] fun r _ => ⟨r, rfl, rfl⟩
    have : os = x.recs := by
      have : ∀ {a b : List (Rec P V F)}, List.Forall₂ (fun r r' => r' = r) a b → b = a := by
        intro a b hab; induction hab with
        | nil => rfl
        | cons h _ ih => rw [h, ih]
      exact this ho
    refine ⟨{ newSet o x with recs := os }, ?_, ⟨en, es, by rw [if_pos h]; exact this⟩, rfl⟩
    unfold piped
    rw [if_neg (by simp [h]), er, e]; rfl
  · obtain ⟨os, e, ho⟩ := pipe_init (g := mfunc true o x.nchan) (Q := Combined o.nchan m (Bad o m)) x.recs [] fun r hr => by
      have := hx.len r hr
      rw [hm] at this ⊢
      exact mfunc_spec o hn this.1 this.2
    refine ⟨{ newSet o x with recs := os }, ?_, ⟨en, es, by rw [if_neg h, hdiv]; exact ho⟩, rfl⟩
    unfold piped
    rw [if_pos h, er, e]; rfl

theorem app_m {a b : List Char} (h : a ++ ['m'] = b ++ ['m']) : a = b := List.append_cancel_right h

/-! ## C111 -/

/-- C111 without `-u`, with a numpy that takes floats for lengths: every file has its copy, with the number of channels asked for,
their width, and the records; a channel is the mean of the good channels it is made of and is flagged by the rule `Bad` of the
options. -/
theorem c111_combine_partial [IsStrictOrderedRing F] (o : Opts) (hn : o.nchan ≠ 0) (hu : o.unify = false) {args : List (List Char)}
    {files : List (List Char × DSet P V F)} {D : List Char → DSet P V F} (hin : ∀ fn ∈ args, dget fn files = some (D fn) ∧ SetOk o (D fn))
    (hout : ∀ fn ∈ args, dget (fn ++ ['m']) files = none) :
    ∃ files', run true o args ⟨files, none⟩ = some ⟨files', none⟩ ∧
      (∀ fn ∈ args, ∃ y, dget (fn ++ ['m']) files' = some y ∧ IsOut o (D fn) y) ∧
      ∀ g, (∀ fn ∈ args, g ≠ fn ++ ['m']) → dget g files' = dget g files := by
  have hsep : ∀ fn ∈ args, ∀ fn' ∈ args, fn ++ ['m'] ≠ fn' := by
    intro fn hf fn' hf' e
    have := (hin fn' hf').1
    rw [← e, hout fn hf] at this; cases this
  have key : ∀ (as : List (List Char)), (∀ fn ∈ as, fn ∈ args) → ∀ fs : List (List Char × DSet P V F),
      (∀ fn ∈ as, dget fn fs = some (D fn)) →
      (∀ fn ∈ as, dget (fn ++ ['m']) fs = none ∨ ∃ y, dget (fn ++ ['m']) fs = some y ∧ IsOut o (D fn) y) →
      ∃ fs', run true o as ⟨fs, none⟩ = some ⟨fs', none⟩ ∧ (∀ fn ∈ as, ∃ y, dget (fn ++ ['m']) fs' = some y ∧ IsOut o (D fn) y) ∧
        ∀ g, (∀ fn ∈ as, g ≠ fn ++ ['m']) → dget g fs' = dget g fs := by
    intro as
    induction as with
    | nil => intro _ fs _ _; exact ⟨fs, rfl, by simp, fun _ _ => rfl⟩
    | cons a as ih =>
      intro hsub fs hthere hO
      have rest : ∀ fs1 : List (List Char × DSet P V F), (∀ g, g ≠ a ++ ['m'] → dget g fs1 = dget g fs) →
          (∃ y, dget (a ++ ['m']) fs1 = some y ∧ IsOut o (D a) y) → step true o ⟨fs, none⟩ a = some ⟨fs1, none⟩ →
          ∃ fs', run true o (a :: as) ⟨fs, none⟩ = some ⟨fs', none⟩ ∧
            (∀ fn ∈ a :: as, ∃ y, dget (fn ++ ['m']) fs' = some y ∧ IsOut o (D fn) y) ∧
            ∀ g, (∀ fn ∈ a :: as, g ≠ fn ++ ['m']) → dget g fs' = dget g fs := by
        intro fs1 h1 h2 h3
        obtain ⟨fs', e, b1, b2⟩ := ih (fun f hf => hsub f (by simp [hf])) fs1
          (fun f hf => by
            rw [h1 f fun h => hsep a (hsub a (by simp)) f (hsub f (by simp [hf])) h.symm]; exact hthere f (by simp [hf]))
          (fun f hf => by
            by_cases hfa : f = a
            · subst hfa; exact .inr h2
            · rw [h1 _ fun h => hfa (app_m h)]; exact hO f (by simp [hf]))
        refine ⟨fs', ?_, ?_, ?_⟩
        · simp only [run, h3, Option.bind_some]; exact e
        · intro f hf
          by_cases hin' : f ∈ as
          · exact b1 f hin'
          · have : f = a := by simpa [hin'] using hf
            subst this
            rw [b2 _ fun g hg h => hin' (by rw [app_m h]; exact hg)]; exact h2
        · intro g hg
          rw [b2 g fun f hf => hg f (by simp [hf]), h1 g (hg a (by simp))]
      have hta := hthere a (by simp)
      rcases hO a (by simp) with h | h
      · obtain ⟨y, e, hy, _⟩ := file_spec o hn (hin a (hsub a (by simp))).2
        refine rest (dset (a ++ ['m']) y fs) (fun g hg => dget_dset_ne (Ne.symm hg) _ _) ⟨y, dget_dset_self _ _ _, hy⟩ ?_
        simp [step, hta, hn, h, e, hu]
      · refine rest fs (fun _ _ => rfl) h ?_
        obtain ⟨y, hy, _⟩ := h
        simp [step, hta, hn, hy]
  obtain ⟨fs', e, h1, h2⟩ := key args (fun _ h => h) files (fun fn hf => (hin fn hf).1) (fun fn hf => .inl (hout fn hf))
  exact ⟨fs', e, h1, h2⟩

/-- C111: `-c` flags exactly what has a flagged channel, and else `-d` what has no good one. -/
theorem c111_flag_options (o : Opts) (m : Nat) (f : List Bool) (k : Nat) :
    (o.careful = true → (Bad o m (good f m k).card ↔ ∃ i < m, f[k * m + i]? ≠ some false)) ∧
    (o.careful = false → o.dont = true → (Bad o m (good f m k).card ↔ ∀ i < m, f[k * m + i]? ≠ some false)) := by
  constructor
  · intro h
    unfold Bad
    rw [if_pos h]
    constructor
    · intro hlt
      by_contra hc
      push Not at hc
      have : good f m k = Finset.range m := by
        unfold good
        rw [Finset.filter_eq_self]
        intro i hi
        exact hc i (Finset.mem_range.1 hi)
      rw [this, Finset.card_range] at hlt
      omega
    · rintro ⟨i, hi, hne⟩
      have hss : good f m k ⊂ Finset.range m := by
        rw [Finset.ssubset_iff_of_subset (show good f m k ⊆ Finset.range m from Finset.filter_subset _ _)]
        exact ⟨i, Finset.mem_range.2 hi, fun h => hne (Finset.mem_filter.1 h).2⟩
      have := Finset.card_lt_card hss
      rwa [Finset.card_range] at this
  · intro h h2
    unfold Bad
    rw [if_neg (by simp [h]), if_pos h2, Finset.card_eq_zero]
    unfold good
    rw [Finset.filter_eq_empty_iff]
    constructor
    · intro hh i hi; exact hh (Finset.mem_range.2 hi)
    · intro hh i hi; exact hh i (Finset.mem_range.1 hi)

/-- C111 without `-c` and `-d`: what has more flagged than good channels is flagged, what has more good ones is not; with as many
good as flagged channels, which should not be flagged, it is. -/
theorem c111_tie_violated (o : Opts) (hc : o.careful = false) (hd : o.dont = false) (m : Nat) (f : List Bool) (k : Nat)
    (hlen : ∀ i < m, k * m + i < f.length) :
    Bad o m (good f m k).card ↔ (good f m k).card ≤ ((Finset.range m).filter fun i => f[k * m + i]? = some true).card := by
  unfold Bad
  rw [if_neg (by simp [hc]), if_neg (by simp [hd])]
  have h1 := Finset.card_filter_add_card_filter_not (s := Finset.range m) (fun i => f[k * m + i]? = some false)
  have h2 : ((Finset.range m).filter fun i => ¬ f[k * m + i]? = some false) = (Finset.range m).filter fun i => f[k * m + i]? = some true := by
    apply Finset.filter_congr
    intro i hi
    have := hlen i (Finset.mem_range.1 hi)
    rw [List.getElem?_eq_getElem this]
    cases f[k * m + i] <;> simp
  rw [h2, Finset.card_range] at h1
  unfold good
  omega

theorem newSet_freq [IsStrictOrderedRing F] (o : Opts) (hn : o.nchan ≠ 0) {x : DSet P V F} {m : Nat} (hm : x.nchan = o.nchan * m) (h1 : 1 < m)
    (k : Nat) : freqOf (newSet o x) k = meanFreq x m k + x.sdf / 2 := by
  have hN : (o.nchan : F) ≠ 0 := by exact_mod_cast hn
  have hm0 : (m : F) ≠ 0 := by exact_mod_cast (by omega : m ≠ 0)
  have hne : x.nchan ≠ o.nchan := by
    rw [hm]; intro h
    have : o.nchan * 1 < o.nchan * m := Nat.mul_lt_mul_of_pos_left h1 (Nat.pos_of_ne_zero hn)
    omega
  have e : ((x.nchan : Nat) : F) / (o.nchan : F) = (m : F) := by rw [hm]; push_cast; field_simp
  have hs : ∀ n : Nat, ∑ i ∈ Finset.range n, freqOf x (k * m + i) = n * x.sfreq + (n * (k * m) + n * (n - 1) / 2) * x.sdf := by
    intro n
    induction n with
    | zero => simp
    | succ n ih =>
      rw [Finset.sum_range_succ, ih]
      unfold freqOf
      push_cast
      ring
  unfold meanFreq newSet freqOf
  rw [if_pos hne]
  simp only
  rw [e]
  have := hs m
  unfold freqOf at this
  rw [this]
  field_simp
  ring

/-- C111: the frequency the copy has for a channel is above the mean frequency of the channels it is made of, by half a channel of
the original. -/
theorem c111_freq_violated [IsStrictOrderedRing F] (o : Opts) (hn : o.nchan ≠ 0) (hu : o.unify = false) {fn : List Char}
    {files : List (List Char × DSet P V F)} {x : DSet P V F} {m : Nat} (hx : dget fn files = some x) (hok : SetOk o x)
    (hm : x.nchan = o.nchan * m) (h1 : 1 < m) (hout : dget (fn ++ ['m']) files = none) :
    ∃ s y, run true o [fn] ⟨files, none⟩ = some s ∧ dget (fn ++ ['m']) s.files = some y ∧
      ∀ k, freqOf y k = meanFreq x m k + x.sdf / 2 := by
  obtain ⟨y, e, hy, hs⟩ := file_spec o hn hok
  refine ⟨⟨dset (fn ++ ['m']) y files, none⟩, y, by simp [run, step, hx, hn, hout, e, hu], dget_dset_self _ _ _, ?_⟩
  intro k
  rw [← newSet_freq o hn hm h1 k]
  obtain ⟨y2, e2⟩ : ∃ rs, piped true o true x (newSet o x) = some { newSet o x with recs := rs } := by
    unfold piped at e ⊢
    cases h : pipe (if x.nchan ≠ o.nchan then mfunc true o x.nchan else some) true (newSet o x).recs x.recs with
    | none => rw [h] at e; cases e
    | some rs => exact ⟨rs, rfl⟩
  have : y = { newSet o x with recs := y2 } := Option.some.inj (e.symm.trans e2)
  rw [this]; rfl

/-- C111 with a numpy of today: a file that has a record and another number of channels than asked for raises. -/
theorem c111_raises_violated (o : Opts) {fn : List Char} {fs : List (List Char)} {files : List (List Char × DSet P V F)} {x : DSet P V F}
    (hx : dget fn files = some x) (hrecs : x.recs ≠ []) (hne : x.nchan ≠ o.nchan) (hout : dget (fn ++ ['m']) files = none) :
    run false o (fn :: fs) ⟨files, none⟩ = none := by
  have hs : step false o ⟨files, none⟩ fn = none := by
    unfold step
    simp only [hx]
    by_cases h0 : o.nchan = 0
    · rw [if_pos h0]
    · rw [if_neg h0]
      simp only [hout, Option.isSome_none, Bool.false_eq_true, if_false]
      have : piped false o true x (newSet o x) = none := by
        unfold piped
        rw [if_pos hne]
        cases hr : x.recs with
        | nil => exact absurd hr hrecs
        | cons r rs => simp [pipe, mfunc, reshape]
      rw [this]; rfl
  simp only [run, hs, Option.bind_none]

/-- C111: when the number of channels is the one asked for, the copy has the frequencies and records of the file, whatever the
numpy. -/
theorem c111_same [IsStrictOrderedRing F] (oldNumpy : Bool) (o : Opts) (hn : o.nchan ≠ 0) (hu : o.unify = false) {fn : List Char}
    {files : List (List Char × DSet P V F)} {x : DSet P V F} (hx : dget fn files = some x) (he : x.nchan = o.nchan)
    (hout : dget (fn ++ ['m']) files = none) :
    run oldNumpy o [fn] ⟨files, none⟩ = some ⟨dset (fn ++ ['m']) x files, none⟩ := by
  have hp : piped oldNumpy o true x (newSet o x) = some x := by
    have : ∀ (rs out : List (Rec P V F)), pipe some true out rs = some (out ++ rs) := by
      intro rs
      induction rs with
      | nil => intro out; simp [pipe]
      | cons r rs ih => intro out; simp [pipe, ih]
    unfold piped newSet
    rw [if_neg (by simp [he]), if_neg (by simp [he]), this]
    simp
  simp [run, step, hx, hn, hout, hp, hu]

/-- C111 with `-u`: the records of the second file are in the output of the first with their preambles, data and flags, but with the
values that the other variables had last in the first file. -/
theorem c111_unify_violated (oldNumpy : Bool) (o : Opts) (hn : o.nchan ≠ 0) (hu : o.unify = true) {f1 f2 : List Char}
    {files : List (List Char × DSet P V F)} {x y : DSet P V F} {r : Rec P V F} {rs : List (Rec P V F)} (hx : dget f1 files = some x)
    (hy : dget f2 files = some y) (hex : x.nchan = o.nchan) (hey : y.nchan = o.nchan) (hr : x.recs = rs ++ [r])
    (hne : f1 ++ ['m'] ≠ f2) (hout : dget (f1 ++ ['m']) files = none) :
    ∃ z s, run oldNumpy o [f1, f2] ⟨files, none⟩ = some s ∧ dget (f1 ++ ['m']) s.files = some z ∧
      z.recs = x.recs ++ y.recs.map fun q => { q with vars := r.vars } := by
  have hp : piped oldNumpy o true x (newSet o x) = some x := by
    have : ∀ (rs out : List (Rec P V F)), pipe some true out rs = some (out ++ rs) := by
      intro rs
      induction rs with
      | nil => intro out; simp [pipe]
      | cons r rs ih => intro out; simp [pipe, ih]
    unfold piped newSet
    rw [if_neg (by simp [hex]), if_neg (by simp [hex]), this]
    simp
  have hq : ∀ (qs out : List (Rec P V F)) (l : Rec P V F), out.getLast? = some l → l.vars = r.vars →
      pipe some false out qs = some (out ++ qs.map fun q => { q with vars := r.vars }) := by
    intro qs
    induction qs with
    | nil => intro out l _ _; simp [pipe]
    | cons q qs ih =>
      intro out l h1 h2
      simp only [pipe, Option.bind_some, Bool.false_eq_true, if_false, h1, Option.map_some, Option.getD_some, h2]
      have := ih (out ++ [{ q with vars := r.vars }]) { q with vars := r.vars } (by simp) rfl
      rw [this]
      simp
  have hp2 : piped oldNumpy o false y x = some { x with recs := x.recs ++ y.recs.map fun q => { q with vars := r.vars } } := by
    unfold piped
    rw [if_neg (by simp [hey]), hq y.recs x.recs r (by rw [hr]; simp) rfl]
    rfl
  refine ⟨{ x with recs := x.recs ++ y.recs.map fun q => { q with vars := r.vars } },
    ⟨dset (f1 ++ ['m']) { x with recs := x.recs ++ y.recs.map fun q => { q with vars := r.vars } } (dset (f1 ++ ['m']) x files), some (f1 ++ ['m'])⟩,
    ?_, dget_dset_self _ _ _, rfl⟩
  simp only [run, step, hx, hn, hout, hp, hu, if_false, if_true, Option.isSome_none, Bool.false_eq_true, Option.map_some,
    Option.bind_some, dget_dset_ne hne, hy, dget_dset_self, hp2]

end

/-! ## A case -/

/-- four channels, of which the second and the third are flagged -/
def demo : DSet Nat Nat ℚ := ⟨100, 1, 4, [⟨0, 7, [1, 9, 9, 5], [false, true, true, false]⟩, ⟨1, 8, [1, 3, 9, 5], [false, false, true, true]⟩]⟩

theorem demo_ok (c d u : Bool) : SetOk ⟨2, c, d, u⟩ demo :=
  ⟨⟨2, rfl⟩, by intro r hr; simp only [demo, List.mem_cons, List.not_mem_nil, or_false] at hr; rcases hr with rfl | rfl <;> exact ⟨rfl, rfl⟩⟩

example := c111_combine_partial ⟨2, false, true, false⟩ (by decide) rfl (args := [['a']]) (files := [(['a'], demo)]) (D := fun _ => demo)
  (by intro fn hf; obtain rfl := List.mem_singleton.1 hf; exact ⟨rfl, demo_ok _ _ _⟩)
  (by intro fn hf; obtain rfl := List.mem_singleton.1 hf; rfl)

example : (run true ⟨2, false, true, false⟩ [['a']] ⟨[(['a'], demo)], none⟩).map (·.files) = some [(['a'], demo), (['a', 'm'],
    ⟨101, 2, 2, [⟨0, 7, [1, 5], [false, false]⟩, ⟨1, 8, [2, 0], [false, true]⟩]⟩)] := by decide +kernel

/-- one good and one flagged channel give a flagged one -/
example : Bad ⟨2, false, false, false⟩ 2 (good [false, true, true, false] 2 0).card :=
  (c111_tie_violated _ rfl rfl 2 _ 0 (by decide)).2 (by decide)

example : ∃ i < 2, [false, true, true, false][0 * 2 + i]? ≠ some false :=
  ((c111_flag_options ⟨2, true, false, false⟩ 2 _ 0).1 rfl).1 (by simp only [Bad, if_true]; decide +kernel)

example := c111_freq_violated ⟨2, false, false, false⟩ (by decide) rfl (fn := ['a']) (files := [(['a'], demo)]) (m := 2) rfl (demo_ok _ _ _) rfl
  (by decide) rfl

example : run false ⟨2, false, true, false⟩ [['a']] ⟨[(['a'], demo)], none⟩ = none :=
  c111_raises_violated _ (fs := []) rfl (by decide +kernel) (by decide) rfl

example := c111_same false ⟨4, false, false, false⟩ (by decide) rfl (fn := ['a']) (files := [(['a'], demo)]) rfl rfl rfl

example := c111_unify_violated false ⟨4, false, false, true⟩ (by decide) rfl (f1 := ['a']) (f2 := ['b']) (files := [(['a'], demo), (['b'], demo)])
  (rs := [⟨0, 7, [1, 9, 9, 5], [false, true, true, false]⟩]) rfl rfl rfl rfl rfl (by decide) rfl

end Verif.Misc.Combine
