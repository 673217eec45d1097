import Verif.Codes.Model
import Mathlib.Data.List.Basic
import Mathlib.Logic.Function.Basic
import Mathlib.Data.Int.Notation

/-!
# stokes_rotate.py and pol.UV (C141)

Modelled: `read_pol` and `write_pol` of `pol.UV` (pol.py 25-34) on the variable
`pol` of a data set, and the script that is meant to turn linear into Stokes
parameters.

Not modelled: data and preambles, `init_from_uv` and `pipe` (C51, C87), which the
script never comes to.
-/

set_option linter.unusedVariables false
set_option linter.unusedSimpArgs false

namespace Verif.Misc.StokesRotate

open Verif.Codes

/-- What a call gives: a value, or an exception. -/
inductive Res (α : Type)
  | ok (x : α)
  | error
  deriving Repr

/-- `UV.read_pol` (pol.py 26-28): a variable without a value is an exception
(uvio.c 1620), and so is a code without a name (KeyError). -/
def readPol (var : Option ℤ) : Res String :=
  match var with
  | none => .error
  | some c =>
    match pol2str c with
    | some s => .ok s
    | none => .error

/-- `UV.write_pol` (pol.py 29-34): an unknown name is printed and nothing is
written. -/
def writePol (var : Option ℤ) (s : String) : Option ℤ :=
  match str2pol s with
  | some c => some c
  | none => var

/-- A data set: the codes of the polarisations of its records, and the rest. -/
structure Rec where
  pol : ℤ
  data : ℕ
  deriving DecidableEq, Repr

/-- The disk: a data set is the list of its records. -/
abbrev Disk := String → Option (List Rec)

/-- How a script ends. -/
inductive End
  | done
  | stopped
  deriving DecidableEq, Repr

/-- The names in the module `aipy.pol`: `a.pol.xy2stokes` is looked up in it, and
pol.py defines only the names listed here (lines 17, 20, 25, 43, 64, 140). -/
def polModule : List String := ["ijp2blp", "blp2ijp", "UV", "ParAng", "Antenna", "AntennaArray"]

/-- One turn of the loop (stokes_rotate.py 19-68).  An output that exists is
skipped (25-27); a file that is missing or empty cannot be opened (29, miriad.py
83); the records are read with their polarisations (31-36, an unknown code is a
KeyError); then for the first baseline and time (39-41) `a.pol.xy2stokes` is
called: AttributeError.  `write` is what lines 43-68 would make of the file. -/
def oneFile (write : List Rec → List Rec) (d : Disk) (f : String) : Disk × End :=
  match d (f ++ "S") with
  | some _ => (d, .done)
  | none =>
    match d f with
    | none => (d, .stopped)
    | some [] => (d, .stopped)
    | some (r :: l) =>
      if (r :: l).any fun x => (pol2str x.pol).isNone then (d, .stopped)
      else if "xy2stokes" ∈ polModule then
        (Function.update d (f ++ "S") (some (write (r :: l))), .done)
      else (d, .stopped)

/-- The loop over the files (stokes_rotate.py 19). -/
def script (write : List Rec → List Rec) (d : Disk) : List String → Disk × End
  | [] => (d, .done)
  | f :: fs =>
    match oneFile write d f with
    | (d', .done) => script write d' fs
    | (d', .stopped) => (d', .stopped)

/-- **C141.**  The twelve names can be written and are read back as they were
written, whatever was there before; they have the codes of the Miriad
convention: 1 to 4 for Stokes, -1 to -4 circular, -5 to -8 linear. -/
theorem c141_round (var : Option ℤ) (s : String) (c : ℤ)
    (h : (s, c) ∈ [("I", (1 : ℤ)), ("Q", 2), ("U", 3), ("V", 4), ("rr", -1), ("ll", -2),
      ("rl", -3), ("lr", -4), ("xx", -5), ("yy", -6), ("xy", -7), ("yx", -8)]) :
    readPol (writePol var s) = .ok s ∧ writePol var s = some c := by
  simp only [List.mem_cons, List.not_mem_nil, or_false, Prod.mk.injEq] at h
  rcases h with ⟨rfl, rfl⟩ | ⟨rfl, rfl⟩ | ⟨rfl, rfl⟩ | ⟨rfl, rfl⟩ | ⟨rfl, rfl⟩ | ⟨rfl, rfl⟩ |
    ⟨rfl, rfl⟩ | ⟨rfl, rfl⟩ | ⟨rfl, rfl⟩ | ⟨rfl, rfl⟩ | ⟨rfl, rfl⟩ | ⟨rfl, rfl⟩ <;>
    exact ⟨rfl, rfl⟩

/-- **C141, violated.**  A name that is not one of the twelve is taken without an
exception, and what is read afterwards is what was there before. -/
theorem c141_unknown_violated (var : Option ℤ) (s : String)
    (h : s ∉ ["I", "Q", "U", "V", "rr", "ll", "rl", "lr", "xx", "yy", "xy", "yx"]) :
    writePol var s = var := by
  have hs : str2pol s = none := by
    unfold str2pol str2polTable
    simp only [List.mem_cons, List.not_mem_nil, or_false, not_or] at h
    obtain ⟨h1, h2, h3, h4, h5, h6, h7, h8, h9, h10, h11, h12⟩ := h
    have hb : ∀ t : String, s ≠ t → (s == t) = false := fun t ht => by simpa using ht
    simp only [List.lookup, hb _ h1, hb _ h2, hb _ h3, hb _ h4, hb _ h5, hb _ h6, hb _ h7, hb _ h8,
      hb _ h9, hb _ h10, hb _ h11, hb _ h12]
  simp only [writePol, hs]

/-- **C141, violated.**  The script never rotates anything: whatever the files
hold, the disk is as it was, and the script ends with an exception unless all
outputs are already there. -/
theorem c141_rotate_violated (write : List Rec → List Rec) (d : Disk) (files : List String) :
    (script write d files).1 = d ∧
    ((script write d files).2 = .done ↔ ∀ f ∈ files, (d (f ++ "S")).isSome = true) := by
  have hx : ¬ "xy2stokes" ∈ polModule := by decide
  have h1 : ∀ f, oneFile write d f
      = (d, if (d (f ++ "S")).isSome then .done else .stopped) := by
    intro f
    unfold oneFile
    cases ho : d (f ++ "S") with
    | some x => rfl
    | none =>
      cases hf : d f with
      | none => rfl
      | some l =>
        cases l with
        | nil => rfl
        | cons r l =>
          simp only [hx, if_false]
          split <;> rfl
  induction files with
  | nil => exact ⟨rfl, by simp [script]⟩
  | cons f fs ih =>
    unfold script
    rw [h1 f]
    by_cases hs : (d (f ++ "S")).isSome = true
    · rw [if_pos hs]
      refine ⟨ih.1, ?_⟩
      simp only [List.mem_cons, forall_eq_or_imp, hs, true_and]
      exact ih.2
    · rw [if_neg hs]
      refine ⟨rfl, ?_⟩
      simp only [List.mem_cons, forall_eq_or_imp, hs, false_and]
      simp

/-! ## Cases that meet the hypotheses -/

example : readPol (writePol (some (-5)) "yx") = .ok "yx" ∧ writePol (some (-5)) "yx" = some (-8) :=
  c141_round (some (-5)) "yx" (-8) (by simp)

example : writePol (some (-5)) "x" = some (-5) := c141_unknown_violated _ _ (by decide)

example : (script id (fun n => if n = "a" then some [⟨-5, 0⟩, ⟨-7, 1⟩] else none) ["a"]).2
    ≠ .done := by
  rw [Ne, (c141_rotate_violated _ _ _).2]
  simp

end Verif.Misc.StokesRotate
