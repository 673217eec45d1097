import Mathlib.Algebra.Field.Rat
import Mathlib.Algebra.Field.Basic
import Verif.Util.Dict
/-!
# Calibration modules (C113)

`/repo/aipy/cal.py`.  A calibration module is known by its name, the text put into `from ... import ...`.  The two functions bind the
imported function with `exec`: in python 2 the names of such a function are looked up in the dictionary `exec` writes to; in python 3
`exec` writes to a copy of the local variables, and names are looked up among the global names, or, if the function assigns
to them, among its own local variables.  Modules are asked for once they are on the path; that `sys.path` grows with every call is
not modelled, nor are names that are no module names (any exception).
-/
namespace Verif.Misc.Cal
open Verif.Util

/-! ## Model -/

inductive Py
  | two
  | three
  deriving DecidableEq

inductive Err
  | importError
  | syntaxError
  | nameError
  | unboundLocal
  | typeError
  | other
  deriving DecidableEq

/-- what importing a module does: it is not there; it raises ImportError itself; it raises something else; it has, perhaps, the two
functions -/
inductive Mod (A C : Type)
  | missing
  | importFails
  | otherFails
  | loaded (aa : Option A) (cat : Option C)

section
variable {F AA K : Type} [Field F]

/-- words that cannot be module names, in both pythons -/
def reserved : List String :=
  ["and", "as", "assert", "break", "class", "continue", "def", "del", "elif", "else", "except", "finally", "for", "from", "global", "if", "import",
    "in", "is", "lambda", "not", "or", "pass", "raise", "return", "try", "while", "with", "yield"]

/-- words that cannot be module names; `None` is an ordinary name to the parser of python 2 -/
def keywords : Py → List (List Char)
  | .two => (reserved ++ ["exec", "print"]).map String.toList
  | .three => (reserved ++ ["False", "None", "True", "async", "await", "nonlocal"]).map String.toList

/-- `'%s' % cal_key` -/
def keyText : Option (List Char) → List Char
  | none => ['N', 'o', 'n', 'e']
  | some k => k

/-- `exec('from %s import get_... as _get_...' % cal_key)`: what the name is bound to -/
def execImport {A C X : Type} (py : Py) (world : List (List Char × Mod A C)) (get : Option A → Option C → Option X) (key : Option (List Char)) :
    Except Err X :=
  if keyText key ∈ keywords py then .error .syntaxError
  else match dget (keyText key) world with
    | none => .error .importError
    | some .missing => .error .importError
    | some .importFails => .error .importError
    | some .otherFails => .error .other
    | some (.loaded aa cat) => match get aa cat with
      | none => .error .importError
      | some x => .ok x

/-- the value of a name in the function: `dict` is what `exec` bound it to, `fast` what the function itself assigned to it, `assigned`
whether the function has an assignment to it at all; there is no global of the name -/
def lookup {X : Type} (py : Py) (assigned : Bool) (fast dict : Option X) : Except Err X :=
  match py with
  | .two => match (fast <|> dict) with
    | some x => .ok x
    | none => .error .nameError
  | .three =>
    if assigned then
      match fast with
      | some x => .ok x
      | none => .error .unboundLocal
    else .error .nameError

/-- `get_freqs`, cal.py 13-14 -/
def getFreqs (sdf sfreq : F) (nchan : Nat) : List F := (List.range nchan).map fun k : Nat => (k : F) * sdf + sfreq

/-- the arguments of `get_aa` after the key: frequencies, or `sdf`, `sfreq`, `nchan` -/
inductive Args (F : Type)
  | freqs (l : List F)
  | chans (sdf sfreq : F) (nchan : Nat)

/-- `get_aa`, cal.py 16-30 -/
def getAa {C : Type} (py : Py) (world : List (List Char × Mod (List F → Except Err AA) C)) (key : Option (List Char)) (args : Args F) : Except Err AA :=
  let freqs := match args with
    | .freqs l => l
    | .chans sdf sfreq nchan => getFreqs sdf sfreq nchan
  match execImport py world (fun aa _ => aa) key with
  | .error e => .error e
  | .ok g => match lookup py false none (some g) with
    | .error e => .error e
    | .ok g => g freqs

/-- `get_catalog`, cal.py 32-43; `q` stands for `srcs`, `cutoff` and `catalogs`, `srcGet` for `src.get_catalog` -/
def getCatalog {A Q : Type} (py : Py) (world : List (List Char × Mod A (Q → Except Err K))) (srcGet : Q → Except Err K) (key : Option (List Char)) (q : Q) :
    Except Err K :=
  let bound := match execImport py world (fun _ cat => cat) key with
    | .ok g => lookup py true none (some g)
    | .error .importError => lookup py true (some srcGet) none
    | .error e => .error e
  match bound with
  | .error e => .error e
  | .ok g => g q

/-! ## C113 -/

/-- C113: the frequencies are those of the channels. -/
theorem c113_freqs (sdf sfreq : F) (nchan : Nat) : (getFreqs sdf sfreq nchan).length = nchan ∧
    ∀ k < nchan, (getFreqs sdf sfreq nchan)[k]? = some (sfreq + k * sdf) := by
  refine ⟨by simp [getFreqs], ?_⟩
  intro k hk
  simp [getFreqs, hk, add_comm]

/-- C113 in python 2: `get_aa` gives what the function of the module makes of the frequencies, given as such or by the channels. -/
theorem c113_aa_partial {C : Type} {world : List (List Char × Mod (List F → Except Err AA) C)} {k : List Char} {g : List F → Except Err AA} {cat : Option C}
    (hk : k ∉ keywords .two) (hw : dget k world = some (.loaded (some g) cat)) :
    (∀ l, getAa .two world (some k) (.freqs l) = g l) ∧
    ∀ sdf sfreq nchan, ∃ l : List F, getAa .two world (some k) (.chans sdf sfreq nchan) = g l ∧ l.length = nchan ∧
      ∀ c < nchan, l[c]? = some (sfreq + c * sdf) := by
  have e : execImport .two world (fun aa _ => aa) (some k) = .ok g := by
    unfold execImport
    rw [if_neg (by simpa [keyText] using hk)]
    simp [keyText, hw]
  refine ⟨fun l => by simp [getAa, e, lookup], fun sdf sfreq nchan => ⟨getFreqs sdf sfreq nchan, by simp [getAa, e, lookup], ?_⟩⟩
  exact c113_freqs sdf sfreq nchan

/-- C113 in python 3: `get_aa` raises whatever the module and the frequencies. -/
theorem c113_aa_python3_violated {C : Type} (world : List (List Char × Mod (List F → Except Err AA) C)) (key : Option (List Char)) (args : Args F) :
    ∃ e, getAa .three world key args = .error e ∧
      ∀ k g cat, key = some k → k ∉ keywords .three → dget k world = some (.loaded (some g) cat) → e = .nameError := by
  unfold getAa
  cases h : execImport .three world (fun aa _ => aa) key with
  | error e =>
    refine ⟨e, rfl, ?_⟩
    intro k g cat hk hkw hw
    subst hk
    unfold execImport at h
    rw [if_neg (by simpa [keyText] using hkw)] at h
    simp [keyText, hw] at h
  | ok g => exact ⟨.nameError, rfl, fun _ _ _ _ _ _ => rfl⟩

/-- C113 in python 2: `get_catalog` gives what the function of the module gives; without module, without such a function in it, and
without key it gives what `src.get_catalog` gives. -/
theorem c113_catalog_partial {A Q : Type} (world : List (List Char × Mod A (Q → Except Err K))) (srcGet : Q → Except Err K) (q : Q) :
    (∀ k g aa, k ∉ keywords .two → dget k world = some (.loaded aa (some g)) → getCatalog .two world srcGet (some k) q = g q) ∧
    (∀ k aa, k ∉ keywords .two → (dget k world = none ∨ dget k world = some (.loaded aa none)) → getCatalog .two world srcGet (some k) q = srcGet q) ∧
    (dget ['N', 'o', 'n', 'e'] world = none → getCatalog .two world srcGet none q = srcGet q) := by
  refine ⟨?_, ?_, ?_⟩
  · intro k g aa hk hw
    have e : execImport .two world (fun _ cat => cat) (some k) = .ok g := by
      unfold execImport; rw [if_neg (by simpa [keyText] using hk)]; simp [keyText, hw]
    simp [getCatalog, e, lookup]
  · intro k aa hk hw
    have e : execImport .two world (fun _ cat => cat) (some k) = .error .importError := by
      unfold execImport; rw [if_neg (by simpa [keyText] using hk)]
      rcases hw with hw | hw <;> simp [keyText, hw]
    simp [getCatalog, e, lookup]
  · intro hw
    have e : execImport .two world (fun _ cat => cat) none = .error .importError := by
      unfold execImport; rw [if_neg (by decide +kernel)]
      simp [keyText, hw]
    simp [getCatalog, e, lookup]

/-- C113 in python 3: `get_catalog` raises when the module has the function and when there is no key; only without such a function
does it give what `src.get_catalog` gives. -/
theorem c113_catalog_python3_violated {A Q : Type} (world : List (List Char × Mod A (Q → Except Err K))) (srcGet : Q → Except Err K) (q : Q) :
    (∀ k g aa, k ∉ keywords .three → dget k world = some (.loaded aa (some g)) → getCatalog .three world srcGet (some k) q = .error .unboundLocal) ∧
    getCatalog .three world srcGet none q = .error .syntaxError ∧
    (∀ k aa, k ∉ keywords .three → (dget k world = none ∨ dget k world = some (.loaded aa none)) → getCatalog .three world srcGet (some k) q = srcGet q) := by
  refine ⟨?_, ?_, ?_⟩
  · intro k g aa hk hw
    have e : execImport .three world (fun _ cat => cat) (some k) = .ok g := by
      unfold execImport; rw [if_neg (by simpa [keyText] using hk)]; simp [keyText, hw]
    simp [getCatalog, e, lookup]
  · have e : execImport .three world (fun _ cat => cat) none = .error .syntaxError := by
      unfold execImport; rw [if_pos (by decide +kernel)]
    simp [getCatalog, e]
  · intro k aa hk hw
    have e : execImport .three world (fun _ cat => cat) (some k) = .error .importError := by
      unfold execImport; rw [if_neg (by simpa [keyText] using hk)]
      rcases hw with hw | hw <;> simp [keyText, hw]
    simp [getCatalog, e, lookup]

/-- C113: a module that cannot import something it needs is not reported: the catalog is that of `src.get_catalog`, in both
pythons. -/
theorem c113_import_violated {A Q : Type} (py : Py) {world : List (List Char × Mod A (Q → Except Err K))} (srcGet : Q → Except Err K) (q : Q) {k : List Char}
    (hk : k ∉ keywords py) (hw : dget k world = some .importFails) : getCatalog py world srcGet (some k) q = srcGet q := by
  have e : execImport py world (fun _ cat => cat) (some k) = .error .importError := by
    unfold execImport; rw [if_neg (by simpa [keyText] using hk)]; simp [keyText, hw]
  cases py <;> simp [getCatalog, e, lookup]

end

/-! ## Cases -/

/-- a module `pgb` whose array is its frequencies and whose catalog is the number asked for plus one -/
def demo : List (List Char × Mod (List ℚ → Except Err (List ℚ)) (Nat → Except Err Nat)) :=
  [(['p', 'g', 'b'], .loaded (some .ok) (some fun n => .ok (n + 1))), (['b', 'a', 'd'], .importFails)]

example := c113_aa_partial (F := ℚ) (world := demo) (k := ['p', 'g', 'b']) (by decide +kernel) rfl

example : getAa .two demo (some ['p', 'g', 'b']) (.chans (1 / 10) (1 / 2) 3) = .ok [1 / 2, 3 / 5, 7 / 10] := by decide +kernel

example : getAa .three demo (some ['p', 'g', 'b']) (.chans (1 / 10) (1 / 2) 3) = .error .nameError := by decide +kernel

example : getCatalog .two demo .ok (some ['p', 'g', 'b']) 4 = .ok 5 :=
  (c113_catalog_partial demo .ok 4).1 ['p', 'g', 'b'] _ _ (by decide +kernel) rfl

example : getCatalog .two demo .ok none 4 = .ok 4 := (c113_catalog_partial demo .ok 4).2.2 rfl

example : getCatalog .three demo .ok (some ['p', 'g', 'b']) 4 = .error .unboundLocal :=
  (c113_catalog_python3_violated demo .ok 4).1 ['p', 'g', 'b'] _ _ (by decide +kernel) rfl

example : getCatalog .three demo .ok (some ['b', 'a', 'd']) 4 = .ok 4 := c113_import_violated .three .ok 4 (by decide +kernel) rfl

end Verif.Misc.Cal
