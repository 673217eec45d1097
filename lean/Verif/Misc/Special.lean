import Mathlib.Data.Nat.Notation
import Mathlib.Data.Int.Notation

/-!
# Attributes of the moving sources (C142)

`RadioSpecial` of `/repo/aipy/phs.py` 96-117 stands in front of an ephem body (the Sun, the Moon, a planet) kept as its
attribute `Body`.  `__getattr__` says it looks at the object first and then at the body, `__setattr__` that it sets the
object first and the body if that fails.  Modelled: reading and setting an attribute, `compute`, `get_crds`, and an
instance on which `__init__` has not run, which is what `copy.copy` and `pickle` make before they restore the
attributes.  Not modelled: setting `Body` itself; what ephem computes (an arbitrary function of the observer); the
special names Python keeps on every object (`__class__`, `__dict__`).
-/

set_option linter.unusedVariables false

namespace Verif.Special

/-- what reading an attribute ends in -/
inductive Res (V : Type) where
  | val (v : V)
  /-- the ephem body itself -/
  | body
  | attributeError
  /-- ephem: the field is undefined until the first compute -/
  | runtimeError
  | recursionError
  deriving DecidableEq, Repr

/-- what is not aipy's: the fields of the ephem body after its last `compute` (`none`: it has not been computed), the
attributes of the class, the sidereal time of an observer and `coord.eq2top_m` (modelled in Coord/Model.lean) -/
structure Env (V O : Type) where
  field : Option O → String → Res V
  cls : String → Option V
  sid : O → V
  rot : V → V → V → V

/-- an instance: its own attributes apart from `Body`; `body = none` when there is no `Body`, otherwise the observer
the body was last computed for -/
structure Src (V O : Type) where
  own : String → Option V
  body : Option (Option O)

variable {V O : Type}

/-- an attribute is set: `object.__setattr__` succeeds for every name; phs.py 110-114 -/
def setattr (s : Src V O) (nm : String) (v : V) : Src V O :=
  { s with own := fun k => if k = nm then some v else s.own k }

/-- an attribute is read: the instance, the class, then `__getattr__`, phs.py 105-109, where `object` has no
`__getattr__`, so that the first try always ends in AttributeError and `self.Body` is read.  `lim` is how deep the
interpreter lets calls nest. -/
def getattr (E : Env V O) (s : Src V O) : ℕ → String → Res V
  | 0, _ => .recursionError
  | lim + 1, nm =>
    match s.body with
    | some w =>
      if nm = "Body" then .body
      else match s.own nm with
        | some v => .val v
        | none => match E.cls nm with
          | some v => .val v
          | none => E.field w nm
    | none =>
      match s.own nm with
      | some v => .val v
      | none => match E.cls nm with
        | some v => .val v
        | none => getattr E s lim "Body"

/-- `RadioSpecial.__init__`, phs.py 99-104, with `RadioBody.__init__`, phs.py 42-46 -/
def init (name mfreq ionref srcshape : V) : Src V O :=
  { own := (setattr (setattr (setattr (setattr ⟨fun _ => none, none⟩ "src_name" name) "mfreq" mfreq) "ionref" ionref)
      "srcshape" srcshape : Src V O).own
    body := some none }

/-- `object.__new__` only: no attribute, no `Body` -/
def blank : Src V O := ⟨fun _ => none, none⟩

/-- `RadioSpecial.compute`, phs.py 115-117, with `RadioBody.compute`, phs.py 49-53: the state left behind, and whether it
raised -/
def compute (E : Env V O) (lim : ℕ) (s : Src V O) (o : O) : Src V O × Bool :=
  match s.body with
  | none => (s, true)
  | some _ =>
    let s' : Src V O := { s with body := some (some o) }
    match getattr E s' lim "ra", getattr E s' lim "dec" with
    | .val ra, .val dec => (setattr s' "map" (E.rot (E.sid o) ra dec), false)
    | _, _ => (s', true)

/-- `get_crds(crdsys, ncrd=2)`, phs.py 54-67 -/
def getCrds (E : Env V O) (lim : ℕ) (s : Src V O) (eq : Bool) : Res V × Res V :=
  if eq then (getattr E s lim "ra", getattr E s lim "dec") else (getattr E s lim "az", getattr E s lim "alt")

/-- what is done with a source -/
inductive Op (V O : Type) where
  | set (nm : String) (v : V)
  | compute (o : O)

/-- one operation -/
def step (E : Env V O) (lim : ℕ) (s : Src V O) : Op V O → Src V O
  | .set nm v => setattr s nm v
  | .compute o => (compute E lim s o).1

/-- a history -/
def run (E : Env V O) (lim : ℕ) (s : Src V O) (ops : List (Op V O)) : Src V O := ops.foldl (step E lim) s

/-! ## Specification -/

/-- the observer of the last compute -/
def lastObs (ops : List (Op V O)) : Option O :=
  ops.foldl (fun w op => match op with | .compute o => some o | .set _ _ => w) none

/-- the value last set under a name -/
def lastSet (nm : String) (ops : List (Op V O)) : Option V :=
  ops.foldl (fun w op => match op with | .set k v => if k = nm then some v else w | .compute _ => w) none

/-- the names aipy sets itself -/
def aipyNames : List String := ["src_name", "mfreq", "ionref", "srcshape", "map", "Body"]

/-! ## Lemmas -/

theorem compute_body (E : Env V O) (lim : ℕ) (s : Src V O) (o : O) (h : s.body ≠ none) :
    (compute E lim s o).1.body = some (some o) := by
  unfold compute
  cases hb : s.body with
  | none => exact absurd hb h
  | some w =>
    dsimp only
    split <;> rfl

theorem compute_own (E : Env V O) (lim : ℕ) (s : Src V O) (o : O) (nm : String) (h : nm ≠ "map") :
    (compute E lim s o).1.own nm = s.own nm := by
  unfold compute
  cases hb : s.body with
  | none => rfl
  | some w =>
    dsimp only
    split
    · simp [setattr, h]
    · rfl

theorem run_state (E : Env V O) (lim : ℕ) (nm : String) (hm : nm ≠ "map") (ops : List (Op V O)) :
    ∀ (s : Src V O) (w : Option O), s.body = some w →
      (run E lim s ops).body =
        some (ops.foldl (fun w op => match op with | .compute o => some o | .set _ _ => w) w) ∧
      (run E lim s ops).own nm =
        ops.foldl (fun w op => match op with | .set k v => if k = nm then some v else w | .compute _ => w) (s.own nm) := by
  induction ops with
  | nil => intro s w h; exact ⟨h, rfl⟩
  | cons op ops ih =>
    intro s w h
    cases op with
    | set k v =>
      have := ih (setattr s k v) w h
      simp only [run, List.foldl_cons, step] at this ⊢
      refine ⟨this.1, ?_⟩
      rw [this.2]
      congr 1
      simp only [setattr]
      by_cases hk : nm = k
      · simp [hk]
      · simp [hk, Ne.symm hk]
    | compute o =>
      have hb := compute_body E lim s o (by simp [h])
      have := ih (compute E lim s o).1 (some o) hb
      simp only [run, List.foldl_cons, step] at this ⊢
      refine ⟨this.1, ?_⟩
      rw [this.2, compute_own E lim s o nm hm]

theorem get_state (E : Env V O) (s : Src V O) (lim : ℕ) (nm : String) (w : Option O) (hb : s.body = some w)
    (hn : nm ≠ "Body") :
    getattr E s (lim + 1) nm = match s.own nm with
      | some v => .val v
      | none => match E.cls nm with
        | some v => .val v
        | none => E.field w nm := by
  simp [getattr, hb, hn]

theorem init_own (a b c d : V) (nm : String) (h : nm ∉ aipyNames) : (init a b c d : Src V O).own nm = none := by
  simp [aipyNames] at h
  simp [init, setattr, h]

/-! ## Properties -/

/-- **C142**: an attribute nobody has set is the ephem body's, for the observer of the last compute, whatever was
computed and whatever else was set before -/
theorem c142_get (E : Env V O) (lim : ℕ) (a b c d : V) (ops : List (Op V O)) (nm : String)
    (hn : nm ∉ aipyNames) (hc : E.cls nm = none) (hs : lastSet nm ops = none) :
    getattr E (run E (lim + 1) (init a b c d) ops) (lim + 1) nm = E.field (lastObs ops) nm := by
  have hm : nm ≠ "map" ∧ nm ≠ "Body" := by simp [aipyNames] at hn; exact ⟨hn.2.2.2.2.1, hn.2.2.2.2.2⟩
  have h := run_state E (lim + 1) nm hm.1 ops (init a b c d) none rfl
  rw [init_own a b c d nm hn] at h
  have ho : (run E (lim + 1) (init a b c d) ops).own nm = none := h.2.trans hs
  rw [get_state E _ lim nm (lastObs ops) h.1 hm.2, ho, hc]

/-- **C142**: an attribute that was set is read as it was last set, whatever is computed afterwards -/
theorem c142_set_get (E : Env V O) (lim : ℕ) (a b c d v : V) (ops : List (Op V O)) (nm : String)
    (hn : nm ∉ aipyNames) (hs : lastSet nm ops = some v) :
    getattr E (run E (lim + 1) (init a b c d) ops) (lim + 1) nm = .val v := by
  have hm : nm ≠ "map" ∧ nm ≠ "Body" := by simp [aipyNames] at hn; exact ⟨hn.2.2.2.2.1, hn.2.2.2.2.2⟩
  have h := run_state E (lim + 1) nm hm.1 ops (init a b c d) none rfl
  rw [init_own a b c d nm hn] at h
  have ho : (run E (lim + 1) (init a b c d) ops).own nm = some v := h.2.trans hs
  rw [get_state E _ lim nm (lastObs ops) h.1 hm.2, ho]

/-- **C142**: after a compute, if `ra`, `dec`, `az`, `alt` were never set, both kinds of coordinates are the body's for
that observer, and `map` is the rotation for the same observer and the same coordinates -/
theorem c142_crds_partial (E : Env V O) (lim : ℕ) (a b c d ra dec : V) (ops : List (Op V O)) (o : O)
    (hc : ∀ nm ∈ ["ra", "dec", "az", "alt"], E.cls nm = none ∧ lastSet nm ops = none)
    (hra : E.field (some o) "ra" = .val ra) (hdec : E.field (some o) "dec" = .val dec) :
    let s := run E (lim + 1) (init a b c d) (ops ++ [.compute o])
    getCrds E (lim + 1) s true = (.val ra, .val dec) ∧
    getCrds E (lim + 1) s false = (E.field (some o) "az", E.field (some o) "alt") ∧
    getattr E s (lim + 1) "map" = .val (E.rot (E.sid o) ra dec) := by
  intro s
  have hl : lastObs (ops ++ [Op.compute o] : List (Op V O)) = some o := by simp [lastObs]
  have hs : ∀ nm, lastSet nm ops = none → lastSet nm (ops ++ [Op.compute o] : List (Op V O)) = none := by
    intro nm h; simpa [lastSet] using h
  have g : ∀ nm ∈ ["ra", "dec", "az", "alt"], getattr E s (lim + 1) nm = E.field (some o) nm := by
    intro nm h
    have := c142_get E lim a b c d (ops ++ [.compute o]) nm
      (by simp at h; rcases h with h | h | h | h <;> subst h <;> decide) (hc nm h).1 (hs nm (hc nm h).2)
    rw [hl] at this
    exact this
  refine ⟨?_, ?_, ?_⟩
  · simp [getCrds, g "ra" (by simp), g "dec" (by simp), hra, hdec]
  · simp [getCrds, g "az" (by simp), g "alt" (by simp)]
  · have hb := (run_state E (lim + 1) "ra" (by decide) ops (init a b c d) none rfl)
    have hb' := (run_state E (lim + 1) "dec" (by decide) ops (init a b c d) none rfl)
    rw [init_own a b c d "ra" (by decide)] at hb
    rw [init_own a b c d "dec" (by decide)] at hb'
    have h1 : (run E (lim + 1) (init a b c d) ops).own "ra" = none := hb.2.trans (hc "ra" (by simp)).2
    have h2 : (run E (lim + 1) (init a b c d) ops).own "dec" = none := hb'.2.trans (hc "dec" (by simp)).2
    have hs' : s = (compute E (lim + 1) (run E (lim + 1) (init a b c d) ops) o).1 := by
      simp [s, run, step]
    rw [hs']
    unfold compute
    rw [hb.1]
    simp only [getattr, h1, h2, (hc "ra" (by simp)).1, (hc "dec" (by simp)).1, hra, hdec]
    simp [setattr]

/-- **C142**: setting never reaches the body, whatever the docstring says, so a `ra` that is set stays in front of the
body's for good: after the next compute the equatorial coordinates and the rotation are for one place in the sky and
azimuth and altitude for another -/
theorem c142_shadow_violated (E : Env V O) (lim : ℕ) (a b c d v dec : V) (o : O)
    (hc : ∀ nm ∈ ["ra", "dec", "az", "alt"], E.cls nm = none) (hdec : E.field (some o) "dec" = .val dec) :
    let s := run E (lim + 1) (init a b c d) [.set "ra" v, .compute o]
    getCrds E (lim + 1) s true = (.val v, .val dec) ∧
    getCrds E (lim + 1) s false = (E.field (some o) "az", E.field (some o) "alt") ∧
    getattr E s (lim + 1) "map" = .val (E.rot (E.sid o) v dec) := by
  intro s
  have hs : s = setattr { (setattr (init a b c d) "ra" v : Src V O) with body := some (some o) } "map"
      (E.rot (E.sid o) v dec) := by
    simp [s, run, step, compute, setattr, init, getattr, hc "dec" (by simp), hdec]
  rw [hs]
  simp [getCrds, getattr, setattr, init, hc "dec" (by simp), hc "az" (by simp), hc "alt" (by simp), hdec]

/-- **C142**: an instance on which `__init__` has not run answers no attribute of its own: reading any name the class
does not have nests until the interpreter's limit, however large.  `copy.copy` and `pickle.loads` ask such an instance
for `__setstate__`, so a moving source can neither be copied nor be read back. -/
theorem c142_copy_violated (E : Env V O) (lim : ℕ) (nm : String) (hc : E.cls nm = none) (hb : E.cls "Body" = none) :
    getattr E (blank : Src V O) lim nm = .recursionError := by
  induction lim generalizing nm with
  | zero => rfl
  | succ n ih => simpa [getattr, blank, hc] using ih "Body" hb

/-! ## Cases that meet the hypotheses -/

/-- a body whose right ascension is the observer, in whole degrees -/
def toy : Env ℤ ℤ where
  field := fun w nm => match w with
    | none => if nm = "name" then .val 7 else .runtimeError
    | some o =>
      if nm = "ra" then .val o else if nm = "dec" then .val (-o) else if nm = "az" then .val (o + 90)
      else if nm = "alt" then .val 45 else if nm = "name" then .val 7 else .attributeError
  cls := fun nm => if nm = "compute" then some 0 else none
  sid := fun o => 2 * o
  rot := fun l ra dec => l - ra + 1000 * dec

example : getattr toy (run toy 5 (init 1 2 3 4) [.compute 10, .set "jys" 8, .compute 20]) 5 "ra" = .val 20 := by decide
example : getattr toy (run toy 5 (init 1 2 3 4) []) 5 "ra" = .runtimeError := by decide
example : getattr toy (run toy 5 (init 1 2 3 4) [.set "jys" 8, .compute 20]) 5 "jys" = .val 8 := by decide
example : getattr toy (run toy 5 (init 1 2 3 4) [.set "jys" 8, .compute 20]) 5 "map" = .val (-19980) := by decide
example : getattr toy (run toy 5 (init 1 2 3 4) [.set "ra" 3, .compute 20]) 5 "map" = .val (-19963) := by decide
example : getattr toy blank 1000 "__setstate__" = .recursionError :=
  c142_copy_violated toy 1000 "__setstate__" (by decide) (by decide)

end Verif.Special
