import Mathlib.Data.List.Forall2
import Mathlib.Data.List.Chain
import Verif.Mir.ReadFiles
import Verif.Misc.Cal

/-!
# What `read_files` says about the data it returns (C144)

`read_files` of `/repo/aipy/miriad.py` 306-354 returns `info['times']`, `info['freqs']` beside the dictionary of data.
Users plot `data[key]` with the times along one axis and the frequencies along the other.  The loop over files and records
is that of C52 (ReadFiles.lean); here are lines 342-353 (the frequencies, the conversion to arrays, `inttime`, `sdf`) and
the question whether row k of `data[key]` belongs to `times[k]`.  Not modelled: several spectral windows (`sdf` an array).
-/

set_option linter.unusedSectionVars false

namespace Verif.Mir.ReadFiles

open Verif.Util Verif.Codes
open Verif.Mir.Decimate

variable {τ δ : Type} [DecidableEq τ] {F : Type} [Field F]

/-- the variables of a data set after its last record: what `uv[name]` gives in lines 342, 352 and 353 of miriad.py -/
structure Vars (F : Type) where
  sdf : F
  sfreq : F
  nchan : ℕ
  inttime : F

/-- `info` as returned -/
structure Info (τ F : Type) where
  times : List τ
  lsts : List Int
  freqs : List F
  inttime : F
  sdf : F

/-- `read_files(..., recast_as_array=False)`, miriad.py 342 and 352-354: `uv` is the data set opened last -/
def readInfo (start : τ) (junk : Nat → τ) (decimate decphs : Int) (fs : List (File τ δ × Vars F)) :
    Option (Info τ F × Acc τ δ) := do
  let a ← readFiles start junk decimate decphs (fs.map Prod.fst)
  let v ← (fs.map Prod.snd).getLast?
  return (⟨a.times, a.lsts, Misc.Cal.getFreqs v.sdf v.sfreq v.nchan, v.inttime, v.sdf⟩, a)

/-- `np.array` of a list of one-dimensional arrays, miriad.py 348-349: two dimensions if all have the same length.  `none`
is the ValueError of numpy from version 1.24 on; before, an array of arrays with a warning. -/
def stack {α : Type} (rows : List (List α)) : Option (List (List α)) :=
  if rows.all fun r => r.length == (rows.headD []).length then some rows else none

/-- the loop of the conversion, miriad.py 347-349, over one of the two dictionaries -/
def recast {α : Type} : List (Key × List (List α)) → Option (List (Key × List (List α)))
  | [] => some []
  | (k, rows) :: D => do
    let rows' ← stack rows
    let D' ← recast D
    return (k, rows') :: D'

/-! ## Specification -/

/-- the records of a sequence of integrations: `groups[k]` are those of time `ts[k]`, and the time changes from one
integration to the next -/
structure Integrations (ts : List τ) (groups : List (List (Rec τ δ))) : Prop where
  time : List.Forall₂ (fun t g => g ≠ [] ∧ ∀ r ∈ g, Rec.t r = t) ts groups
  change : ts.IsChain (· ≠ ·)

/-- `r` is the only record of `key` in `g` -/
def Only (key : Key) (g : List (Rec τ δ)) (r : Rec τ δ) : Prop :=
  (g.filter fun r => r.i = key.1 ∧ r.j = key.2.1 ∧ pol2str r.pol = some key.2.2) = [r]

/-- no record of `key` is in `g` -/
def Lacks (key : Key) (g : List (Rec τ δ)) : Prop :=
  ∀ r ∈ g, ¬ (r.i = key.1 ∧ r.j = key.2.1 ∧ pol2str r.pol = some key.2.2)

/-! ## Lemmas -/

/-- the times at which the time changes, after a record of time `p` -/
def runs (p : τ) : List (Rec τ δ) → List τ
  | [] => []
  | r :: rs => if p = r.t then runs p rs else r.t :: runs r.t rs

theorem starts_runs (rs : List (Rec τ δ)) : ∀ r : Rec τ δ, (starts (r :: rs)).map Rec.t = r.t :: runs r.t rs := by
  induction rs with
  | nil => intro r; simp [starts, runs]
  | cons s rs ih =>
    intro r
    have h := ih s
    simp only [starts, List.map_cons, List.cons.injEq, true_and] at h ⊢
    by_cases e : r.t = s.t
    · simp only [List.zip_cons_cons, runs, e, if_true, ne_eq, not_true_eq_false, decide_false, Bool.false_eq_true,
        not_false_eq_true, List.filter_cons_of_neg]
      exact h
    · simp only [List.zip_cons_cons, runs, e, if_false, ne_eq, not_false_eq_true, decide_true, List.filter_cons_of_pos,
        List.map_cons, List.cons.injEq, true_and]
      exact h

theorem runs_same (p : τ) (g rest : List (Rec τ δ)) (h : ∀ r ∈ g, Rec.t r = p) : runs p (g ++ rest) = runs p rest := by
  induction g with
  | nil => rfl
  | cons r g ih =>
    have hr := h r (by simp)
    simp only [List.cons_append, runs, hr, if_true]
    exact ih fun x hx => h x (by simp [hx])

theorem runs_groups (ts : List τ) : ∀ (p : τ) (groups : List (List (Rec τ δ))),
    List.Forall₂ (fun t g => g ≠ [] ∧ ∀ r ∈ g, Rec.t r = t) ts groups → (p :: ts).IsChain (· ≠ ·) →
    runs p groups.flatten = ts := by
  induction ts with
  | nil => intro p groups h _; cases h; rfl
  | cons t ts ih =>
    intro p groups h hc
    cases h with
    | cons h1 h2 =>
      rename_i g gs
      obtain ⟨hg, ht⟩ := h1
      rw [List.isChain_cons_cons] at hc
      cases g with
      | nil => exact absurd rfl hg
      | cons r g =>
        have hr : r.t = t := ht r (by simp)
        simp only [List.flatten_cons, List.cons_append, runs, hr, if_neg hc.1]
        rw [runs_same t g _ fun x hx => ht x (by simp [hx]), ih t gs h2 hc.2]

theorem starts_groups (ts : List τ) (groups : List (List (Rec τ δ))) (h : Integrations ts groups) :
    (starts groups.flatten).map Rec.t = ts := by
  obtain ⟨h, hc⟩ := h
  cases h with
  | nil => rfl
  | cons h1 h2 =>
    rename_i t g ts gs
    obtain ⟨hg, ht⟩ := h1
    cases g with
    | nil => exact absurd rfl hg
    | cons r g =>
      have hr : r.t = t := ht r (by simp)
      rw [List.flatten_cons, List.cons_append, starts_runs, hr, runs_same t g _ fun x hx => ht x (by simp [hx]),
        runs_groups ts t gs h2 hc]

theorem ofKey_append (key : Key) (a b : List (Rec τ δ)) : ofKey key (a ++ b) = ofKey key a ++ ofKey key b := by
  simp [ofKey]

theorem ofKey_lacks (key : Key) (g : List (Rec τ δ)) (h : Lacks key g) : ofKey key g = [] := by
  rw [ofKey, List.filter_eq_nil_iff]
  intro r hr
  simpa using h r hr

theorem ofKey_groups (key : Key) (groups : List (List (Rec τ δ))) : ∀ ones : List (Rec τ δ),
    List.Forall₂ (Only key) groups ones → ofKey key groups.flatten = ones := by
  induction groups with
  | nil => intro ones h; cases h; rfl
  | cons g gs ih =>
    intro ones h
    cases h with
    | cons h1 h2 =>
      rw [List.flatten_cons, ofKey_append, ih _ h2]
      exact congrArg (· ++ _) h1

theorem forall₂_get {α β : Type} {R : α → β → Prop} {l : List α} {m : List β} (h : List.Forall₂ R l m) :
    ∀ (k : ℕ) (a : α) (b : β), l[k]? = some a → m[k]? = some b → R a b := by
  induction h with
  | nil => intro k a b h; simp at h
  | cons h1 _ ih =>
    intro k a b ha hb
    cases k with
    | zero => simp at ha hb; subst ha; subst hb; exact h1
    | succ k => exact ih k a b (by simpa using ha) (by simpa using hb)

theorem stack_some {α : Type} (rows : List (List α)) :
    (stack rows = some rows ∧ ∀ r ∈ rows, ∀ s ∈ rows, r.length = s.length) ∨
    (stack rows = none ∧ ∃ r ∈ rows, ∃ s ∈ rows, r.length ≠ s.length) := by
  unfold stack
  cases rows with
  | nil => left; simp
  | cons x xs =>
    by_cases h : (x :: xs).all (fun r => r.length == ((x :: xs).headD []).length) = true
    · left
      rw [if_pos h]
      refine ⟨rfl, fun r hr s hs => ?_⟩
      rw [List.all_eq_true] at h
      have h1 := h r hr
      have h2 := h s hs
      simp only [beq_iff_eq] at h1 h2
      omega
    · right
      rw [if_neg h]
      refine ⟨rfl, ?_⟩
      rw [List.all_eq_true] at h
      push Not at h
      obtain ⟨r, hr, hne⟩ := h
      exact ⟨r, hr, x, by simp, by simpa using hne⟩

theorem recast_some {α : Type} (D : List (Key × List (List α))) :
    (recast D = some D ∧ ∀ e ∈ D, ∀ r ∈ e.2, ∀ s ∈ e.2, r.length = s.length) ∨
    (recast D = none ∧ ∃ e ∈ D, ∃ r ∈ e.2, ∃ s ∈ e.2, r.length ≠ s.length) := by
  induction D with
  | nil => left; simp [recast]
  | cons e D ih =>
    obtain ⟨k, rows⟩ := e
    rcases stack_some rows with ⟨h1, h2⟩ | ⟨h1, r, hr, s, hs, hne⟩
    · rcases ih with ⟨h3, h4⟩ | ⟨h3, e, he, h5⟩
      · left
        refine ⟨by simp [recast, h1, h3], ?_⟩
        intro e he
        rcases List.mem_cons.1 he with rfl | he
        · exact h2
        · exact h4 e he
      · right
        exact ⟨by simp [recast, h1, h3], e, by simp [he], h5⟩
    · right
      exact ⟨by simp [recast, h1], (k, rows), by simp, r, hr, s, hs, hne⟩

/-! ## Properties -/

/-- **C144**: if every integration has exactly one record of a baseline and polarisation, there are as many rows as times
and row k is the record of time `times[k]` -/
theorem c144_rows_partial (start : τ) (junk : Nat → τ) (decimate decphs : Int) (fs : List (File τ δ)) (hne : fs ≠ [])
    (h1 : ∀ f ∈ fs, f.recs ≠ []) (h2 : ∀ f ∈ fs, ∀ r, (f.recs.filter f.sel).head? = some r → r.t ≠ start)
    (h3 : ∀ f ∈ fs, ∀ r ∈ f.recs, f.sel r → pol2str r.pol ≠ none) :
    ∃ a parts, readFiles start junk decimate decphs fs = some a ∧ List.Forall₂ (Gives decimate decphs) fs parts ∧
      ∀ (ts : List τ) (groups : List (List (Rec τ δ))) (key : Key) (ones : List (Rec τ δ)),
        parts.flatten = groups.flatten → Integrations ts groups → List.Forall₂ (Only key) groups ones → groups ≠ [] →
        a.times = ts ∧ (∃ rows flags, dget key a.data = some rows ∧ dget key a.flgs = some flags ∧
          rows.length = ts.length ∧ flags.length = ts.length ∧
          ∀ (k : ℕ) (t : τ), ts[k]? = some t → ∃ r ∈ parts.flatten, r.t = t ∧
            (r.i = key.1 ∧ r.j = key.2.1 ∧ pol2str r.pol = some key.2.2) ∧ rows[k]? = some r.d ∧
            flags[k]? = some r.f) := by
  obtain ⟨a, parts, e, hg, hd, hf, ht, _⟩ := c52_read_files start junk decimate decphs fs hne h1 h2 h3
  refine ⟨a, parts, e, hg, ?_⟩
  intro ts groups key ones hfl hint hones hgr
  have hok : ofKey key parts.flatten = ones := by rw [hfl]; exact ofKey_groups key groups ones hones
  have hl1 := hint.time.length_eq
  have hl2 := hones.length_eq
  have hnn : ones ≠ [] := by
    intro h
    rw [h] at hl2
    exact hgr (List.length_eq_zero_iff.1 (by simpa using hl2))
  refine ⟨by rw [ht, hfl]; exact starts_groups ts groups hint, ones.map Rec.d, ones.map Rec.f, ?_, ?_,
    by simp; omega, by simp; omega, ?_⟩
  · rw [hd key, hok, if_neg hnn]
  · rw [hf key, hok, if_neg hnn]
  · intro k t hk
    have hklt : k < ts.length := by
      by_contra hc
      rw [List.getElem?_eq_none (by omega)] at hk
      exact absurd hk (by simp)
    have hgk : groups[k]? = some (groups[k]'(by omega)) := List.getElem?_eq_getElem _
    have hok' : ones[k]? = some (ones[k]'(by omega)) := List.getElem?_eq_getElem _
    have q1 := forall₂_get hint.time k t _ hk hgk
    have q2 : Only key _ _ := forall₂_get hones k _ _ hgk hok'
    have hm : ones[k]'(by omega) ∈ (groups[k]'(by omega)).filter
        fun r => r.i = key.1 ∧ r.j = key.2.1 ∧ pol2str r.pol = some key.2.2 := by
      have q3 := q2
      unfold Only at q3
      rw [q3]; simp
    rw [List.mem_filter] at hm
    refine ⟨ones[k]'(by omega), ?_, q1.2 _ hm.1, by simpa using hm.2, by simp [hok'], by simp [hok']⟩
    rw [hfl, List.mem_flatten]
    exact ⟨_, List.getElem_mem (by omega : k < groups.length), hm.1⟩

/-- **C144**: if one integration lacks the baseline, nothing is raised or filled in: the rows move up, so that the row at
the place of the integration that lacks it is that of the next one, and there are fewer rows than times -/
theorem c144_gap_violated (start : τ) (junk : Nat → τ) (decimate decphs : Int) (fs : List (File τ δ)) (hne : fs ≠ [])
    (h1 : ∀ f ∈ fs, f.recs ≠ []) (h2 : ∀ f ∈ fs, ∀ r, (f.recs.filter f.sel).head? = some r → r.t ≠ start)
    (h3 : ∀ f ∈ fs, ∀ r ∈ f.recs, f.sel r → pol2str r.pol ≠ none) :
    ∃ a parts, readFiles start junk decimate decphs fs = some a ∧ List.Forall₂ (Gives decimate decphs) fs parts ∧
      ∀ (ts us : List τ) (t t' : τ) (before after : List (List (Rec τ δ))) (g g' : List (Rec τ δ)) (key : Key)
        (ones twos : List (Rec τ δ)) (r : Rec τ δ),
        parts.flatten = (before ++ g :: g' :: after).flatten →
        Integrations (ts ++ t :: t' :: us) (before ++ g :: g' :: after) → ts.length = before.length →
        List.Forall₂ (Only key) before ones → Lacks key g → Only key g' r → List.Forall₂ (Only key) after twos →
        ∃ rows, dget key a.data = some rows ∧ rows.length + 1 = a.times.length ∧
          a.times[ts.length]? = some t ∧ rows[ts.length]? = some r.d ∧ r.t = t' ∧ r.t ≠ t := by
  obtain ⟨a, parts, e, hg, hd, _, ht, _⟩ := c52_read_files start junk decimate decphs fs hne h1 h2 h3
  refine ⟨a, parts, e, hg, ?_⟩
  intro ts us t t' before after g g' key ones twos r hfl hint hlen hones hlack hr htwos
  have htimes : a.times = ts ++ t :: t' :: us := by rw [ht, hfl]; exact starts_groups _ _ hint
  have hr' : ofKey key g' = [r] := hr
  have hok : ofKey key parts.flatten = ones ++ r :: twos := by
    rw [hfl]
    simp only [List.flatten_append, List.flatten_cons, ofKey_append]
    rw [ofKey_groups key before ones hones, ofKey_lacks key g hlack, hr', ofKey_groups key after twos htwos]
    simp
  have hl1 := hint.time.length_eq
  have hl2 := hones.length_eq
  have hl3 := htwos.length_eq
  simp only [List.length_append, List.length_cons] at hl1
  have hrt : r.t = t' := by
    have q := forall₂_get hint.time (ts.length + 1) t' g' (by simp) (by rw [hlen]; simp)
    refine q.2 r ?_
    have : r ∈ ofKey key g' := by rw [hr']; simp
    exact (List.mem_filter.1 this).1
  have hch : t ≠ t' := by
    have hc := hint.change
    exact (List.isChain_cons_cons.1 hc.right_of_append).1
  refine ⟨(ones ++ r :: twos).map Rec.d, ?_, ?_, ?_, ?_, hrt, by rw [hrt]; exact hch.symm⟩
  · rw [hd key, hok, if_neg (by simp)]
  · rw [htimes]; simp; omega
  · rw [htimes]; simp
  · rw [show ts.length = ones.length by omega]; simp

/-- **C144**: the frequencies, the channel width and the integration time returned are those of the last file -/
theorem c144_freqs_partial (start : τ) (junk : Nat → τ) (decimate decphs : Int) (fs : List (File τ δ × Vars F))
    (f : File τ δ) (v : Vars F) (i : Info τ F) (a : Acc τ δ)
    (h : readInfo start junk decimate decphs (fs ++ [(f, v)]) = some (i, a)) :
    i.freqs.length = v.nchan ∧ (∀ k < v.nchan, i.freqs[k]? = some (v.sfreq + k * v.sdf)) ∧
      i.inttime = v.inttime ∧ i.sdf = v.sdf ∧ i.times = a.times ∧ i.lsts = a.lsts ∧
      readFiles start junk decimate decphs (fs.map Prod.fst ++ [f]) = some a := by
  unfold readInfo at h
  rw [show (fs ++ [(f, v)]).map Prod.fst = fs.map Prod.fst ++ [f] by simp] at h
  cases hr : readFiles start junk decimate decphs (fs.map Prod.fst ++ [f]) with
  | none => simp [hr] at h
  | some b =>
    simp only [hr, Option.bind_eq_bind, Option.bind_some, List.map_append, List.map_cons, List.map_nil,
      List.getLast?_concat, Option.pure_def, Option.some.injEq, Prod.mk.injEq] at h
    obtain ⟨hi, ha⟩ := h
    subst hi
    subst ha
    have q := Misc.Cal.c113_freqs v.sdf v.sfreq v.nchan
    exact ⟨q.1, q.2, rfl, rfl, rfl, rfl, rfl⟩

/-- **C144**: files tuned to different frequencies are joined without a word: whatever the variables of the files before
the last, the answer is the same -/
theorem c144_tuning_violated (start : τ) (junk : Nat → τ) (decimate decphs : Int) (fs gs : List (File τ δ × Vars F))
    (last : File τ δ × Vars F) (h : fs.map Prod.fst = gs.map Prod.fst) :
    readInfo start junk decimate decphs (fs ++ [last]) = readInfo start junk decimate decphs (gs ++ [last]) := by
  simp [readInfo, h]

/-- **C144**: the conversion to arrays keeps every row and goes through exactly if the rows of each baseline and
polarisation have the same number of channels -/
theorem c144_recast {α : Type} (D : List (Key × List (List α))) :
    (recast D = some D ↔ ∀ e ∈ D, ∀ r ∈ e.2, ∀ s ∈ e.2, r.length = s.length) ∧ (recast D = some D ∨ recast D = none) := by
  rcases recast_some D with ⟨h1, h2⟩ | ⟨h1, e, he, r, hr, s, hs, hne⟩
  · exact ⟨⟨fun _ => h2, fun _ => h1⟩, Or.inl h1⟩
  · refine ⟨⟨fun h => ?_, fun h => absurd (h e he r hr s hs) hne⟩, Or.inr h1⟩
    rw [h1] at h
    exact absurd h (by simp)

/-! ## Cases that meet the hypotheses -/

/-- three integrations; baseline 0-2 is missing in the second -/
def gapRecs : List (List (Rec Int Nat)) :=
  [[⟨10, 0, 1, -5, 100, 1, 11⟩, ⟨10, 0, 2, -5, 100, 2, 12⟩], [⟨20, 0, 1, -5, 101, 3, 13⟩],
   [⟨30, 0, 1, -5, 102, 4, 14⟩, ⟨30, 0, 2, -5, 102, 5, 15⟩]]

example : Integrations [10, 20, 30] gapRecs := by
  constructor
  · simp [gapRecs]
  · decide
example : List.Forall₂ (Only (0, 1, "xx")) gapRecs
    [⟨10, 0, 1, -5, 100, 1, 11⟩, ⟨20, 0, 1, -5, 101, 3, 13⟩, ⟨30, 0, 1, -5, 102, 4, 14⟩] := by
  have : pol2str (-5) = some "xx" := by decide
  simp [gapRecs, Only, this]
example : Lacks (0, 2, "xx") (gapRecs[1]!) := by simp [gapRecs, Lacks]
example : (readFiles 0 (fun _ => 0) 1 0 [⟨gapRecs.flatten, fun _ => true⟩]).map (fun a => (a.times, a.data)) =
    some ([10, 20, 30], [((0, 1, "xx"), [1, 3, 4]), ((0, 2, "xx"), [2, 5])]) := by decide
example : recast [((0, 1, "xx"), [[1, 2], [3, 4]])] = some [((0, 1, "xx"), [[1, 2], [3, 4]])] := by decide
example : recast [((0, 1, "xx"), [[1, 2], [3]])] = none := by decide
example : ((readInfo 0 (fun _ => 0) 1 0 [(⟨gapRecs.flatten, fun _ => true⟩, (⟨1, 5, 3, 10⟩ : Vars ℚ))]).map
    (fun x => x.1.freqs)) = some [5, 6, 7] := by decide +kernel

end Verif.Mir.ReadFiles
