import Mathlib.Data.List.Basic
import Mathlib.Data.List.Nodup
import Mathlib.Logic.Function.Basic
import Mathlib.Tactic.Linarith

/-!
# pull_ants.py (C140)

The script is meant to copy, for each file, the records whose two antennas are
both among those asked for.  Modelled: the loop over files, what exists on the
disk, the function that decides which records pass, and the exception on its way.

Not modelled: the contents of records, header items and variables
(`init_from_uv` and `pipe` are C51 and C87), the printed lines.
-/

set_option linter.unusedVariables false

namespace Verif.Misc.PullAnts

/-- A record as `mfunc` sees it (pull_ants.py 32): the two antennas, and what it
holds. -/
structure Rec where
  i : ℤ
  j : ℤ
  data : ℕ
  deriving DecidableEq, Repr

/-- The disk: a data set is the list of its records. -/
abbrev Disk := String → Option (List Rec)

/-- How a script ends: normally or with an exception. -/
inductive End
  | done
  | stopped
  deriving DecidableEq, Repr

/-- Python values as far as `in` compares them: an antenna number read from a
file is an int, a piece of a split option is a str; they are never equal. -/
inductive Val
  | int (n : ℤ)
  | str (s : String)
  deriving DecidableEq, Repr

/-- `mfunc` (pull_ants.py 31-34): `ants2use` is `opts.ants.split(',')`, a list of
strings (line 29). -/
def mfunc (ants : List String) (r : Rec) : Option Rec :=
  if Val.int r.i ∈ ants.map Val.str ∧ Val.int r.j ∈ ants.map Val.str then some r else none

/-- One turn of the loop (pull_ants.py 22-44).  An output that exists is skipped
(25-27); an input that is missing, or has no record, cannot be opened (line 36,
miriad.py 83); otherwise the output is made (37, 38), and line 39 asks for
`opts.refant`, an option that does not exist: AttributeError.  The output is
closed with nothing in it when the interpreter ends. -/
def oneFile (d : Disk) (f : String) : Disk × End :=
  match d (f ++ "A") with
  | some _ => (d, .done)
  | none =>
    match d f with
    | none => (d, .stopped)
    | some [] => (d, .stopped)
    | some (_ :: _) => (Function.update d (f ++ "A") (some []), .stopped)

/-- The loop over the files (pull_ants.py 22). -/
def loop (d : Disk) : List String → Disk × End
  | [] => (d, .done)
  | f :: fs =>
    match oneFile d f with
    | (d', .done) => loop d' fs
    | (d', .stopped) => (d', .stopped)

/-- The script (pull_ants.py 18-44): without `-a` it says so and ends. -/
def script (ants : Option (List String)) (d : Disk) (files : List String) : Disk × End :=
  match ants with
  | none => (d, .done)
  | some _ => loop d files

/-! ## What is asked for -/

/-- The records between the antennas asked for. -/
def Pulled (wanted : List ℤ) (recs : List Rec) : List Rec :=
  recs.filter fun r => decide (r.i ∈ wanted ∧ r.j ∈ wanted)

/-! ## Lemmas -/

theorem app_inj {a b : String} (h : a ++ "A" = b ++ "A") : a = b := by
  have := congrArg String.toList h
  rw [String.toList_append, String.toList_append] at this
  exact String.toList_injective (List.append_cancel_right this)

theorem loop_skip {d : Disk} : ∀ {pre fs : List String},
    (∀ f ∈ pre, (d (f ++ "A")).isSome = true) → loop d (pre ++ fs) = loop d fs := by
  intro pre
  induction pre with
  | nil => intro fs _; rfl
  | cons f pre ih =>
    intro fs h
    obtain ⟨x, hx⟩ := Option.isSome_iff_exists.1 (h f (by simp))
    have h1 : oneFile d f = (d, .done) := by simp only [oneFile, hx]
    rw [List.cons_append, loop, h1]
    exact ih fun g hg => h g (by simp [hg])

theorem loop_kept : ∀ (fs : List String) (d : Disk) (n : String),
    (∀ f ∈ fs, n ≠ f ++ "A") ∨ d n ≠ none → (loop d fs).1 n = d n := by
  intro fs
  induction fs with
  | nil => intro d n _; rfl
  | cons f fs ih =>
    intro d n h
    have hrest : (∀ g ∈ fs, n ≠ g ++ "A") ∨ d n ≠ none := by
      rcases h with h | h
      · exact Or.inl fun g hg => h g (by simp [hg])
      · exact Or.inr h
    unfold loop
    cases ho : d (f ++ "A") with
    | some x =>
      have h1 : oneFile d f = (d, .done) := by simp only [oneFile, ho]
      rw [h1]; exact ih d n hrest
    | none =>
      have hne : n ≠ f ++ "A" := by
        rcases h with h | h
        · exact h f (by simp)
        · intro hc; subst hc; exact h ho
      cases hf : d f with
      | none =>
        have h1 : oneFile d f = (d, .stopped) := by simp only [oneFile, ho, hf]
        rw [h1]
      | some l =>
        cases l with
        | nil =>
          have h1 : oneFile d f = (d, .stopped) := by simp only [oneFile, ho, hf]
          rw [h1]
        | cons r l =>
          have h1 : oneFile d f = (Function.update d (f ++ "A") (some []), .stopped) := by
            simp only [oneFile, ho, hf]
          rw [h1]
          exact Function.update_of_ne hne _ _

/-! ## The claims -/

/-- **C140, violated.**  Whatever antennas are asked for, at the first file that
has no output yet the script stops with an exception and leaves an output with
no record in it; the files after it are not touched.  In particular the output
lacks every record that was asked for. -/
theorem c140_pull_violated (ants : List String) (d : Disk) (pre post : List String) (f : String)
    (recs : List Rec) (hpre : ∀ g ∈ pre, (d (g ++ "A")).isSome = true)
    (hout : d (f ++ "A") = none) (hin : d f = some recs) (hne : recs ≠ []) :
    (script (some ants) d (pre ++ f :: post)).2 = .stopped ∧
    (script (some ants) d (pre ++ f :: post)).1 (f ++ "A") = some [] ∧
    (∀ n, n ≠ f ++ "A" → (script (some ants) d (pre ++ f :: post)).1 n = d n) ∧
    ∀ wanted, Pulled wanted recs ≠ [] →
      (script (some ants) d (pre ++ f :: post)).1 (f ++ "A") ≠ some (Pulled wanted recs) := by
  obtain ⟨r, l, rfl⟩ := List.exists_cons_of_ne_nil hne
  have h1 : oneFile d f = (Function.update d (f ++ "A") (some []), .stopped) := by
    simp only [oneFile, hout, hin]
  have hs : script (some ants) d (pre ++ f :: post)
      = (Function.update d (f ++ "A") (some []), .stopped) := by
    show loop d (pre ++ f :: post) = _
    rw [loop_skip hpre, loop, h1]
  rw [hs]
  refine ⟨rfl, by simp, fun n hn => Function.update_of_ne hn _ _, ?_⟩
  intro w hw hc
  simp only [Function.update_self] at hc
  exact hw (Option.some.inj hc).symm

/-- **C140, violated.**  The function that chooses the records would let none
through even if the script came to it: it looks for numbers among strings. -/
theorem c140_mfunc_violated (ants : List String) (recs : List Rec) :
    recs.filterMap (mfunc ants) = [] := by
  rw [List.filterMap_eq_nil_iff]
  intro r _
  unfold mfunc
  rw [if_neg]
  rintro ⟨h, _⟩
  obtain ⟨s, _, hs⟩ := List.mem_map.1 h
  cases hs

/-- `n` runs of the script one after another, on the disk the last one left. -/
def runs (ants : List String) (files : List String) : ℕ → Disk → Disk
  | 0, d => d
  | n + 1, d => runs ants files n (script (some ants) d files).1

/-- **C140, violated.**  Running the script again after it stopped goes one file
further each time: after as many runs as there are files every output is there,
all are empty, and the next run ends without complaint. -/
theorem c140_rerun_violated (ants : List String) (files : List String) (d : Disk)
    (hnd : files.Nodup)
    (hin : ∀ f ∈ files, ∃ r l, d f = some (r :: l)) (hout : ∀ f ∈ files, d (f ++ "A") = none) :
    (∀ f ∈ files, runs ants files files.length d (f ++ "A") = some []) ∧
    script (some ants) (runs ants files files.length d) files
      = (runs ants files files.length d, .done) := by
  -- after some files are done, the rest take one run each
  have key : ∀ (rest pre : List String) (e : Disk), files = pre ++ rest →
      (∀ f ∈ pre, e (f ++ "A") = some []) → (∀ f ∈ rest, ∃ r l, e f = some (r :: l)) →
      (∀ f ∈ rest, e (f ++ "A") = none) →
      ∀ f ∈ files, runs ants files rest.length e (f ++ "A") = some [] := by
    intro rest
    induction rest with
    | nil =>
      intro pre e hfs hpre _ _ f hf
      rw [hfs, List.append_nil] at hf
      exact hpre f hf
    | cons g rest ih =>
      intro pre e hfs hpre hi ho
      obtain ⟨r, l, hg⟩ := hi g (by simp)
      have h1 : oneFile e g = (Function.update e (g ++ "A") (some []), .stopped) := by
        simp only [oneFile, ho g (by simp), hg]
      have hs : (script (some ants) e files).1 = Function.update e (g ++ "A") (some []) := by
        show (loop e files).1 = _
        rw [hfs, loop_skip (fun f hf => by rw [hpre f hf]; rfl), loop, h1]
      have hnd' : (pre ++ g :: rest).Nodup := hfs ▸ hnd
      have hgr : g ∉ rest := (List.nodup_cons.1 (List.nodup_append.1 hnd').2.1).1
      show ∀ f ∈ files, runs ants files rest.length (script (some ants) e files).1 (f ++ "A") = _
      rw [hs]
      refine ih (pre ++ [g]) _ (by rw [hfs]; simp) ?_ ?_ ?_
      · intro f hf
        by_cases hfg : f = g
        · subst hfg; simp
        · rw [Function.update_of_ne (fun hc => hfg (app_inj hc))]
          exact hpre f (by simpa [hfg] using hf)
      · intro f hf
        obtain ⟨r', l', hf'⟩ := hi f (by simp [hf])
        refine ⟨r', l', ?_⟩
        rw [Function.update_of_ne]
        · exact hf'
        · intro hc
          rw [hc, ho g (by simp)] at hf'
          cases hf'
      · intro f hf
        have hfg : f ≠ g := fun hc => hgr (hc ▸ hf)
        rw [Function.update_of_ne (fun hc => hfg (app_inj hc))]
        exact ho f (by simp [hf])
  have hall := key files [] d rfl (by simp) hin hout
  refine ⟨hall, ?_⟩
  show loop _ files = _
  have := loop_skip (d := runs ants files files.length d) (pre := files) (fs := [])
    (fun f hf => by rw [hall f hf]; rfl)
  rw [List.append_nil] at this
  rw [this, loop]

/-- **C140 (partial).**  Nothing that is on the disk is ever changed, and nothing
is made but outputs: whatever exists stays as it is, and a name that is not an
output of one of the files stays absent. -/
theorem c140_kept_partial (ants : Option (List String)) (d : Disk) (files : List String)
    (n : String) (h : d n ≠ none ∨ ∀ f ∈ files, n ≠ f ++ "A") :
    (script ants d files).1 n = d n := by
  cases ants with
  | none => rfl
  | some a => exact loop_kept files d n h.symm

/-! ## Cases that meet the hypotheses -/

/-- Two files. -/
def demo : Disk := fun n =>
  if n = "x" then some [⟨0, 1, 7⟩, ⟨0, 2, 8⟩] else if n = "y" then some [⟨1, 2, 9⟩] else none

example : (script (some ["0", "1"]) demo ["x", "y"]).2 = .stopped ∧
    (script (some ["0", "1"]) demo ["x", "y"]).1 "xA" = some [] ∧
    Pulled [0, 1] [⟨0, 1, 7⟩, ⟨0, 2, 8⟩] = [⟨0, 1, 7⟩] := by
  have h := c140_pull_violated ["0", "1"] demo [] ["y"] "x" [⟨0, 1, 7⟩, ⟨0, 2, 8⟩] (by simp)
    (by simp [demo]) (by simp [demo]) (by simp)
  exact ⟨h.1, h.2.1, by decide⟩

example : runs ["0", "1"] ["x", "y"] 2 demo "yA" = some [] :=
  (c140_rerun_violated ["0", "1"] ["x", "y"] demo (by simp)
    (by simp [demo]) (by simp [demo])).1 "y" (by simp)

example : [(⟨0, 1, 7⟩ : Rec)].filterMap (mfunc ["0", "1"]) = [] := c140_mfunc_violated _ _

example : (script (some ["0", "1"]) demo ["x", "y"]).1 "x" = some [⟨0, 1, 7⟩, ⟨0, 2, 8⟩] :=
  c140_kept_partial (some ["0", "1"]) demo ["x", "y"] "x" (Or.inl (by simp [demo]))

end Verif.Misc.PullAnts
