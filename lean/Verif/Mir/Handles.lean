import Mathlib.Data.List.Basic
import Mathlib.Data.Finset.Card
import Mathlib.Data.Finset.Interval
import Mathlib.Order.Interval.Finset.Nat
import Mathlib.Logic.Function.Basic
import Mathlib.Tactic.Linarith

/-!
# Several data sets open at once, and what an error does to them (C139)

Every `UV` object holds a number (`tno`) into a table of 26 open data sets kept
by hio.c.  Modelled here: how a place in the table is found
(`hcreate_tree_c`), how opening succeeds and fails (`hopen_c`, `uvopen_c`,
`UVObject_init`), closing (`UVObject_dealloc`, `uvclose_c`, `hclose_c`), and
what a fatal error does before it becomes a `RuntimeError` (`bug_c`,
`habort_c`).

Not modelled: what is inside a data set beyond the number of records that a
later reader finds (C45 to C48, C70 and C81 have that), the table of items
(`hcreate_item_c`), i/o errors of the file system other than a directory that
is missing or already there.
-/

set_option linter.unusedSectionVars false
set_option linter.unusedVariables false
set_option linter.unusedSimpArgs false

namespace Verif.Mir.Handles

/-- A path: its bytes as the C type `char`, which is signed where aipy is built
(x86; hio.c 1492 `char *s`), so the bytes of non-ASCII letters are negative. -/
abbrev Name := List ℤ

/-- The third word of `uvopen_c` (uvio.c 739, 771, 785). -/
inductive Mode
  | old
  | new
  | append
  deriving DecidableEq, Repr

/-- What the disk holds under a path: a finished uv data set with a number of
records (what `vislen` covers, uvio.c 749, 795), or a directory that `uvopen_c`
cannot read as one (no `visdata` or no `vartable`, uvio.c 744-746, 1202-1204).
A data set being written counts as the second until it is closed; this is a
simplification, once its items outgrow the cache part of it can be read. -/
inductive Data
  | uv (n : ℕ)
  | other
  deriving DecidableEq, Repr

/-- A `TREE` (hio.c 97-101) together with the `UV` of the same number (uvio.c
498 `uvs[tno]`): its path, how it was opened, how many records were there,
how many were written since, and whether `uvopen_c` came to its end. -/
structure Tree where
  path : Name
  mode : Mode
  base : ℕ
  written : ℕ
  ready : Bool
  deriving DecidableEq, Repr

/-- The static variables: `reentrant` (bug.c 29), `ntree` and `tree_addr`
(hio.c 106-110; the entry 0 is the foreign tree, which is always there, and is
left out here), and the disk. -/
structure Lib where
  flip : Bool
  ntree : ℕ
  tree : ℕ → Option Tree
  disk : Name → Option Data

/-- `dtrans_c` (dio.c 76-94): a slash is added unless the name ends with one. -/
def dtrans (name : Name) : Name :=
  if name.getLast? = some 47 then name else name ++ [47]

/-- `hget_tree(hash) != NULL` (hio.c 1505): the entry 0 is the foreign tree
(hio.c 225). -/
def taken (s : Lib) (h : ℕ) : Bool := h = 0 || (s.tree h).isSome

/-- `while(hget_tree(hash) != NULL) hash = (hash+1) % MAXOPEN` (hio.c 1505);
`none` when it goes round without an end. -/
def probe (s : Lib) : ℕ → ℕ → Option ℕ
  | 0, _ => none
  | f + 1, h => if taken s h then probe s f ((h + 1) % 26) else some h

/-- `hash = ntree++; while(*s) hash += *s++; hash %= MAXOPEN` (hio.c 1497-1501)
and the search; a negative remainder (C's `%` goes towards zero) indexes before
the table, which is undefined: `none`. -/
def place (s : Lib) (path : Name) : Option ℕ :=
  if (((s.ntree : ℤ) + path.sum).tmod 26) < 0 then none
  else probe s 26 (((s.ntree : ℤ) + path.sum).tmod 26).toNat

/-- `tree_addr[h] = ...` (hio.c 1506). -/
def put (s : Lib) (h : ℕ) (t : Option Tree) : Lib :=
  { s with tree := Function.update s.tree h t }

/-- One turn of the loop of `habort_c` (hio.c 350-382): buffers are dropped,
a tree opened as new is removed from the disk by `hrm_c` (hio.c 386-430), any
other is closed; both end in `hclose_c` (hio.c 470-477), which frees the place
and counts down. -/
def abortAt (s : Lib) (h : ℕ) : Lib :=
  match s.tree h with
  | none => s
  | some t =>
    { s with
      tree := Function.update s.tree h none
      ntree := s.ntree - 1
      disk := if t.mode = .new then Function.update s.disk t.path none else s.disk }

/-- `habort_c` (hio.c 322-383): every place of the table in turn. -/
def habort (s : Lib) : Lib := (List.range 26).foldl abortAt s

/-- A fatal `bug_c` or `bugv_c` (bug.c 116-117, 170-171): `reentrant` is
turned over, and if it is now set all data sets are aborted; then the exception
is thrown. -/
def bug (s : Lib) : Lib :=
  if s.flip then { s with flip := false } else habort { s with flip := true }

/-- What a call comes to. -/
inductive Out
  | handle (h : ℕ)
  | raised
  | undefined
  deriving DecidableEq, Repr

/-- What `hopen_c` and `uvopen_c` do once the place is found (hio.c 187-207,
uvio.c 739-834): an old data set must be there (otherwise the tree is closed
again, hio.c 207, and the error is fatal) and must be a uv data set (otherwise
the error is fatal with the tree left open); a new one must not be there. -/
def opened (s : Lib) (path : Name) (mode : Mode) (h : ℕ) : Lib × Out :=
  match mode, s.disk path with
  | .new, none =>
    ({ put { s with ntree := s.ntree + 1 } h (some ⟨path, .new, 0, 0, true⟩) with
        disk := Function.update s.disk path (some .other) }, .handle h)
  | .new, some _ => (bug s, .raised)
  | m, none => (bug s, .raised)
  | m, some .other =>
    (bug (put { s with ntree := s.ntree + 1 } h (some ⟨path, m, 0, 0, false⟩)), .raised)
  | m, some (.uv n) =>
    (put { s with ntree := s.ntree + 1 } h (some ⟨path, m, n, 0, true⟩), .handle h)

/-- `UV(name, status)`: `uvopen_c` from `UVObject_init` (miriad_wrap.cpp 62-73),
`hopen_c` (hio.c 156-209) and `hcreate_tree_c` (hio.c 1486-1517).  The counter
goes up before the table is found full, and stays up.  An empty name makes
`dtrans_c` look before the string: undefined. -/
def uvopen (s : Lib) (name : Name) (mode : Mode) : Lib × Out :=
  if name = [] then (s, .undefined)
  else if 26 < s.ntree + 1 then (bug { s with ntree := s.ntree + 1 }, .raised)
  else
    match place s (dtrans name) with
    | none => (s, .undefined)
    | some h => opened s (dtrans name) mode h

/-- `uvclose_c` (uvio.c 837-874): a new or appended data set is flushed, with
`vislen` covering what was written; `hclose_c` (hio.c 431-478) frees the
place. -/
def uvclose (s : Lib) (h : ℕ) (t : Tree) : Lib :=
  { s with
    tree := Function.update s.tree h none
    ntree := s.ntree - 1
    disk :=
      match t.mode with
      | .old => s.disk
      | .new => Function.update s.disk t.path (some (.uv t.written))
      | .append => Function.update s.disk t.path (some (.uv (t.base + t.written))) }

/-- The python side: the library and the objects made so far, each with its
`tno` (miriad_wrap.cpp 17); `none` for an object whose making failed
(`self->tno = -1`, miriad_wrap.cpp 70) or that was deleted. -/
structure Py where
  lib : Lib
  objs : List (Option ℕ)

/-- What a program does: make an object; read or write a record through it; make
a call that has a fatal error (a variable with no value, uvio.c 1620, a
selection that is refused, ...); let it go. -/
inductive Op
  | open (name : Name) (mode : Mode)
  | use (i : ℕ)
  | fail (i : ℕ)
  | del (i : ℕ)
  deriving DecidableEq, Repr

/-- The outcome of a step: done, an exception, or undefined behaviour (a
dereferenced null pointer or worse). -/
inductive Res
  | ok (p : Py)
  | raised (p : Py)
  | undefined

/-- The tree a method of object `i` acts on: whatever is now in the place of
its number (`uvs[tno]`, `hget_tree(tno)`); an empty place or a tree without a
finished `UV` is a null or dangling pointer. -/
def treeOf (p : Py) (h : ℕ) : Option Tree :=
  match p.lib.tree h with
  | some t => if t.ready then some t else none
  | none => none

/-- `UV.read`/`UV.write` as far as it matters here: a record more in a new or
appended data set. -/
def usedTree (t : Tree) : Tree :=
  match t.mode with
  | .old => t
  | _ => { t with written := t.written + 1 }

/-- The methods (miriad_wrap.cpp 27-30, 93-..): all go by `self->tno`. -/
def act (p : Py) (i h : ℕ) (t : Tree) : Op → Res
  | .use _ => .ok { p with lib := put p.lib h (some (usedTree t)) }
  | .fail _ => .raised { p with lib := bug p.lib }
  | .del _ => .ok ⟨uvclose p.lib h t, p.objs.set i none⟩
  | .open _ _ => .ok p

/-- A method of object `i`: undefined if its place in the table is empty. -/
def method (p : Py) (i : ℕ) (op : Op) : Res :=
  match p.objs[i]? with
  | some (some h) =>
    match treeOf p h with
    | some t => act p i h t op
    | none => .undefined
  | _ => .ok p

/-- One step of a program. -/
def step (p : Py) : Op → Res
  | .open name mode =>
    match uvopen p.lib name mode with
    | (s, .handle h) => .ok ⟨s, p.objs ++ [some h]⟩
    | (s, .raised) => .raised ⟨s, p.objs ++ [none]⟩
    | (_, .undefined) => .undefined
  | .use i => method p i (.use i)
  | .fail i => method p i (.fail i)
  | .del i => method p i (.del i)

/-- A program without errors: `none` if any step is not simply done. -/
def run : Py → List Op → Option Py
  | p, [] => some p
  | p, op :: ops =>
    match step p op with
    | .ok q => run q ops
    | _ => none

/-- The library as `hinit_c` leaves it (hio.c 212-247), `lost` places having
been lost to errors before; `flip` is whether the number of errors so far is
odd. -/
def fresh (flip : Bool) (lost : ℕ) (disk : Name → Option Data) : Py :=
  ⟨⟨flip, 1 + lost, fun _ => none, disk⟩, []⟩

/-! ## What a user expects

Each object is a data set of its own: its name, how it was opened, how many
records it had and how many have been written since.  Nothing else. -/

/-- An open data set as its user sees it. -/
structure Entry where
  name : Name
  mode : Mode
  base : ℕ
  n : ℕ
  deriving DecidableEq, Repr

/-- The data sets open, by the order of their making, and the disk. -/
structure World where
  sets : List (Option Entry)
  disk : Name → Option Data

/-- A plain name: ASCII, not empty, no slash at its end. -/
def Plain (name : Name) : Prop :=
  name ≠ [] ∧ name.getLast? ≠ some 47 ∧ ∀ c ∈ name, 0 ≤ c

/-- How many data sets are open. -/
def World.live (w : World) : ℕ := w.sets.countP Option.isSome

/-- What may be asked for: an existing data set to read or to append to, a new
name for a new one, a place left among `room`; and the methods of open
objects. -/
def Allowed (room : ℕ) (w : World) : Op → Prop
  | .open name .new => Plain name ∧ w.disk name = none ∧ w.live < room
  | .open name _ => Plain name ∧ (∃ n, w.disk name = some (.uv n)) ∧ w.live < room
  | .use i => ∃ e, w.sets[i]? = some (some e)
  | .del i => ∃ e, w.sets[i]? = some (some e)
  | .fail _ => False

/-- What can be asked for at all: a plain name, or a method of an open object. -/
def Asked (w : World) : Op → Prop
  | .open name _ => Plain name
  | .use i => ∃ e, w.sets[i]? = some (some e)
  | .fail i => ∃ e, w.sets[i]? = some (some e)
  | .del i => ∃ e, w.sets[i]? = some (some e)

/-- The records a data set on disk has. -/
def records : Option Data → ℕ
  | some (.uv n) => n
  | _ => 0

/-- What should happen. -/
def World.next (w : World) : Op → World
  | .open name .new =>
    ⟨w.sets ++ [some ⟨name, .new, 0, 0⟩], Function.update w.disk name (some .other)⟩
  | .open name m => ⟨w.sets ++ [some ⟨name, m, records (w.disk name), 0⟩], w.disk⟩
  | .use i =>
    match w.sets[i]? with
    | some (some e) =>
      { w with sets := w.sets.set i (some (if e.mode = .old then e else { e with n := e.n + 1 })) }
    | _ => w
  | .del i =>
    match w.sets[i]? with
    | some (some e) =>
      ⟨w.sets.set i none,
        if e.mode = .old then w.disk
        else Function.update w.disk e.name (some (.uv (e.base + e.n)))⟩
    | _ => w
  | .fail _ => w

/-- A whole program asks only for what may be asked for. -/
def AllAllowed (room : ℕ) : World → List Op → Prop
  | _, [] => True
  | w, op :: ops => Allowed room w op ∧ AllAllowed room (w.next op) ops

/-- What should be there after a program. -/
def World.after (w : World) (ops : List Op) : World := ops.foldl World.next w

/-! ## Lemmas -/

theorem dtrans_plain {name : Name} (h : Plain name) : dtrans name = name ++ [47] := by
  simp [dtrans, h.2.1]

theorem sum_nonneg' {l : List ℤ} (h : ∀ c ∈ l, 0 ≤ c) : 0 ≤ l.sum := by
  induction l with
  | nil => simp
  | cons a l ih =>
    simp only [List.mem_cons, forall_eq_or_imp] at h
    have := ih h.2
    simp only [List.sum_cons]; linarith [h.1]

theorem probe_none {s : Lib} : ∀ (f h : ℕ), probe s f h = none → h < 26 →
    ∀ j, j < f → taken s ((h + j) % 26) = true := by
  intro f
  induction f with
  | zero => intro h _ _ j hj; omega
  | succ f ih =>
    intro h hp hh j hj
    rw [probe] at hp
    by_cases ht : taken s h = true
    · rw [if_pos ht] at hp
      cases j with
      | zero => rw [Nat.add_zero, Nat.mod_eq_of_lt hh]; exact ht
      | succ j =>
        have := ih ((h + 1) % 26) hp (Nat.mod_lt _ (by omega)) j (by omega)
        have e : ((h + 1) % 26 + j) % 26 = (h + (j + 1)) % 26 := by omega
        rwa [e] at this
    · rw [if_neg ht] at hp; cases hp

theorem probe_some {s : Lib} : ∀ (f h k : ℕ), probe s f h = some k → h < 26 →
    k < 26 ∧ taken s k = false := by
  intro f
  induction f with
  | zero => intro h k hp; simp [probe] at hp
  | succ f ih =>
    intro h k hp hh
    rw [probe] at hp
    by_cases ht : taken s h = true
    · rw [if_pos ht] at hp; exact ih _ _ hp (Nat.mod_lt _ (by omega))
    · rw [if_neg ht] at hp
      obtain rfl := Option.some.inj hp
      exact ⟨hh, by simpa using ht⟩

theorem place_some {s : Lib} {path : Name} (hp : 0 ≤ path.sum)
    (hfree : ∃ h, h < 26 ∧ taken s h = false) :
    ∃ h, place s path = some h ∧ h < 26 ∧ taken s h = false := by
  have h0 : 0 ≤ (s.ntree : ℤ) + path.sum := by
    have : (0 : ℤ) ≤ (s.ntree : ℤ) := Int.natCast_nonneg _
    linarith
  have e : ((s.ntree : ℤ) + path.sum).tmod 26 = ((s.ntree : ℤ) + path.sum) % 26 :=
    Int.tmod_eq_emod_of_nonneg h0
  have hnn : ¬ ((s.ntree : ℤ) + path.sum).tmod 26 < 0 := by rw [e]; omega
  have hlt : (((s.ntree : ℤ) + path.sum).tmod 26).toNat < 26 := by rw [e]; omega
  unfold place
  rw [if_neg hnn]
  cases hr : probe s 26 (((s.ntree : ℤ) + path.sum).tmod 26).toNat with
  | some h => exact ⟨h, rfl, probe_some _ _ _ hr hlt⟩
  | none =>
    exfalso
    obtain ⟨h, hh, ht⟩ := hfree
    have key := probe_none _ _ hr hlt
    generalize (((s.ntree : ℤ) + path.sum).tmod 26).toNat = v at key hlt
    have := key ((h + 26 - v) % 26) (Nat.mod_lt _ (by omega))
    have e2 : (v + (h + 26 - v) % 26) % 26 = h := by omega
    rw [e2, ht] at this
    cases this

theorem place_congr {s t : Lib} (h1 : s.ntree = t.ntree) (h2 : s.tree = t.tree) (path : Name) :
    place s path = place t path := by
  have hp : ∀ f h, probe s f h = probe t f h := by
    intro f
    induction f with
    | zero => intro h; rfl
    | succ f ih =>
      intro h
      have ht : taken s h = taken t h := by simp only [taken, h2]
      rw [probe, probe, ht, ih]
  simp only [place, h1, hp]

theorem push_get {α : Type} {l : List α} {a b : α} {i : ℕ} (h : (l ++ [a])[i]? = some b) :
    l[i]? = some b ∨ (i = l.length ∧ a = b) := by
  rcases Nat.lt_trichotomy i l.length with hi | hi | hi
  · rw [List.getElem?_append_left hi] at h; exact Or.inl h
  · subst hi; right; simpa using h
  · rw [List.getElem?_append_right (by omega)] at h
    have : ([a] : List α)[i - l.length]? = none := by
      rw [List.getElem?_eq_none]; simp; omega
    rw [this] at h; cases h

theorem get_push {α : Type} {l : List α} {a b : α} {i : ℕ} (h : l[i]? = some b) :
    (l ++ [a])[i]? = some b := by
  obtain ⟨hi, _⟩ := List.getElem?_eq_some_iff.1 h
  rw [List.getElem?_append_left hi]; exact h

theorem countP_set_some {α : Type} {l : List (Option α)} {i : ℕ} {a b : α}
    (h : l[i]? = some (some a)) :
    (l.set i (some b)).countP Option.isSome = l.countP Option.isSome := by
  induction l generalizing i with
  | nil => simp at h
  | cons x l ih =>
    cases i with
    | zero => simp at h; subst h; simp
    | succ i => simp at h; simp [List.countP_cons, ih h]

theorem countP_set_none {α : Type} {l : List (Option α)} {i : ℕ} {a : α}
    (h : l[i]? = some (some a)) :
    (l.set i none).countP Option.isSome + 1 = l.countP Option.isSome := by
  induction l generalizing i with
  | nil => simp at h
  | cons x l ih =>
    cases i with
    | zero => simp at h; subst h; simp
    | succ i => simp at h; simp only [List.set_cons_succ, List.countP_cons, ← ih h]; omega

theorem length_handles {α : Type} (l : List (Option α)) :
    (l.filterMap id).length = l.countP Option.isSome := by
  induction l with
  | nil => rfl
  | cons x l ih => cases x <;> simpa using ih

theorem nodup_handles : ∀ (l : List (Option ℕ)),
    (∀ (i j h : ℕ), l[i]? = some (some h) → l[j]? = some (some h) → i = j) →
    (l.filterMap id).Nodup := by
  intro l
  induction l with
  | nil => intro _; simp
  | cons x l ih =>
    intro hinj
    have hl : (l.filterMap id).Nodup := ih (fun i j h hi hj => by
      have := hinj (i + 1) (j + 1) h (by simpa using hi) (by simpa using hj)
      omega)
    cases x with
    | none => simpa using hl
    | some a =>
      rw [show (some a :: l).filterMap id = a :: l.filterMap id from rfl]
      refine List.nodup_cons.2 ⟨?_, hl⟩
      intro hm
      obtain ⟨y, hy, hya⟩ := List.mem_filterMap.1 hm
      simp only [id] at hya
      subst hya
      obtain ⟨j, hj⟩ := List.mem_iff_getElem?.1 hy
      have := hinj 0 (j + 1) a (by simp) (by simpa using hj)
      omega

theorem mem_handles {l : List (Option ℕ)} {h : ℕ} :
    h ∈ l.filterMap id ↔ ∃ i : ℕ, l[i]? = some (some h) := by
  constructor
  · intro hm
    obtain ⟨y, hy, hya⟩ := List.mem_filterMap.1 hm
    simp only [id] at hya
    subst hya
    exact List.mem_iff_getElem?.1 hy
  · rintro ⟨i, hi⟩
    exact List.mem_filterMap.2 ⟨some h, List.mem_iff_getElem?.2 ⟨i, hi⟩, rfl⟩

/-- The tree of an open data set. -/
def treeFor (e : Entry) : Tree := ⟨e.name ++ [47], e.mode, e.base, e.n, true⟩

structure Inv (fl : Bool) (lost : ℕ) (p : Py) (w : World) : Prop where
  flip : p.lib.flip = fl
  count : p.lib.ntree = 1 + lost + w.live
  live : p.objs.countP Option.isSome = w.live
  len : p.objs.length = w.sets.length
  obj : ∀ (i h : ℕ), p.objs[i]? = some (some h) →
    ∃ e, w.sets[i]? = some (some e) ∧ p.lib.tree h = some (treeFor e)
  set : ∀ (i : ℕ) (e : Entry), w.sets[i]? = some (some e) → ∃ h, p.objs[i]? = some (some h)
  range : ∀ (i h : ℕ), p.objs[i]? = some (some h) → 0 < h ∧ h < 26
  inj : ∀ (i j h : ℕ), p.objs[i]? = some (some h) → p.objs[j]? = some (some h) → i = j
  own : ∀ (h : ℕ) (t : Tree), p.lib.tree h = some t → ∃ i : ℕ, p.objs[i]? = some (some h)
  disk : ∀ name, Plain name → p.lib.disk (name ++ [47]) = w.disk name
  plain : ∀ (i : ℕ) (e : Entry), w.sets[i]? = some (some e) → Plain e.name
  new0 : ∀ (i : ℕ) (e : Entry), w.sets[i]? = some (some e) → e.mode = .new →
    e.base = 0 ∧ w.disk e.name = some .other
  uniq : ∀ (i j : ℕ) (e f : Entry), w.sets[i]? = some (some e) → w.sets[j]? = some (some f) →
    e.mode = .new → f.mode = .new → e.name = f.name → i = j
  old1 : ∀ (i : ℕ) (e : Entry), w.sets[i]? = some (some e) → e.mode ≠ .new → ∃ n, w.disk e.name = some (.uv n)

theorem fresh_inv {fl : Bool} {lost : ℕ} {disk d : Name → Option Data}
    (hd : ∀ name, Plain name → disk (name ++ [47]) = d name) :
    Inv fl lost (fresh fl lost disk) ⟨[], d⟩ where
  flip := rfl
  count := by simp [fresh, World.live]
  live := by simp [fresh, World.live]
  len := rfl
  obj := by simp [fresh]
  set := by simp
  range := by simp [fresh]
  inj := by simp [fresh]
  own := by simp [fresh]
  disk := hd
  plain := by simp
  new0 := by simp
  uniq := by simp
  old1 := by simp

theorem Inv.tree_obj {fl : Bool} {lost : ℕ} {p : Py} {w : World} (I : Inv fl lost p w)
    {i : ℕ} {e : Entry} (h : w.sets[i]? = some (some e)) :
    ∃ k, p.objs[i]? = some (some k) ∧ p.lib.tree k = some (treeFor e) := by
  obtain ⟨k, hk⟩ := I.set i e h
  obtain ⟨e', he', ht⟩ := I.obj i k hk
  rw [h] at he'
  obtain rfl := Option.some.inj (Option.some.inj he')
  exact ⟨k, hk, ht⟩

theorem Inv.free {fl : Bool} {lost : ℕ} {p : Py} {w : World} (I : Inv fl lost p w)
    (h : w.live < 25) : ∃ k, k < 26 ∧ taken p.lib k = false := by
  by_contra hc
  push Not at hc
  have hsub : Finset.Icc 1 25 ⊆ (p.objs.filterMap id).toFinset := by
    intro k hk
    rw [Finset.mem_Icc] at hk
    have ht := hc k (by omega)
    have hs : (p.lib.tree k).isSome = true := by
      have hk0 : k ≠ 0 := by omega
      simpa [taken, hk0, Option.isSome_iff_ne_none] using ht
    obtain ⟨t, ht'⟩ := Option.isSome_iff_exists.1 hs
    exact List.mem_toFinset.2 (mem_handles.2 (I.own k t ht'))
  have h1 := Finset.card_le_card hsub
  have h2 := List.toFinset_card_le (p.objs.filterMap id)
  rw [length_handles, I.live] at h2
  rw [Nat.card_Icc] at h1
  omega

theorem app_inj {a b : Name} (h : a ++ [47] = b ++ [(47 : ℤ)]) : a = b :=
  List.append_cancel_right h

theorem Inv.push {fl : Bool} {lost : ℕ} {p : Py} {w : World} (I : Inv fl lost p w)
    {k : ℕ} (hk : k < 26) (hf : taken p.lib k = false) {e : Entry} (he : Plain e.name)
    {md wd : Name → Option Data}
    (hdisk : ∀ name, Plain name → md (name ++ [47]) = wd name)
    (hnew : e.mode = .new → e.base = 0 ∧ wd e.name = some .other ∧ w.disk e.name = none)
    (hold : e.mode ≠ .new → ∃ n, wd e.name = some (.uv n))
    (hrest : ∀ name, w.disk name ≠ none → wd name = w.disk name) :
    Inv fl lost
      ⟨⟨p.lib.flip, p.lib.ntree + 1, Function.update p.lib.tree k (some (treeFor e)), md⟩,
        p.objs ++ [some k]⟩
      ⟨w.sets ++ [some e], wd⟩ := by
  have hk0 : k ≠ 0 ∧ p.lib.tree k = none := by
    simpa [taken] using hf
  have hne : ∀ (i h : ℕ), p.objs[i]? = some (some h) → h ≠ k := by
    intro i h hi hh
    subst hh
    obtain ⟨e, _, ht⟩ := I.obj i h hi
    rw [hk0.2] at ht; cases ht
  refine ⟨I.flip, ?_, ?_, ?_, ?_, ?_, ?_, ?_, ?_, hdisk, ?_, ?_, ?_, ?_⟩
  · simp only [World.live, List.countP_append, I.count]
    simp; omega
  · simp only [World.live, List.countP_append] at *
    rw [I.live]; simp [World.live]
  · simp [I.len]
  · intro i h hi
    rcases push_get hi with hi | ⟨hi', ha⟩
    · obtain ⟨e', he', ht⟩ := I.obj i h hi
      exact ⟨e', get_push he', by simp only [Function.update_of_ne (hne i h hi)]; exact ht⟩
    · obtain rfl := Option.some.inj ha
      rw [hi']
      exact ⟨e, by rw [I.len]; simp, by simp⟩
  · intro i e' hi
    rcases push_get hi with hi | ⟨hi, ha⟩
    · obtain ⟨h, hh⟩ := I.set i e' hi
      exact ⟨h, get_push hh⟩
    · subst hi
      exact ⟨k, by rw [← I.len]; simp⟩
  · intro i h hi
    rcases push_get hi with hi | ⟨hi, ha⟩
    · exact I.range i h hi
    · obtain rfl := Option.some.inj ha
      exact ⟨Nat.pos_of_ne_zero hk0.1, hk⟩
  · intro i j h hi hj
    rcases push_get hi with hi | ⟨hi, ha⟩
    · rcases push_get hj with hj | ⟨hj, hb⟩
      · exact I.inj i j h hi hj
      · obtain rfl := Option.some.inj hb
        exact absurd rfl (hne i k hi)
    · rcases push_get hj with hj | ⟨hj, hb⟩
      · obtain rfl := Option.some.inj ha
        exact absurd rfl (hne j k hj)
      · omega
  · intro h t ht
    by_cases hh : h = k
    · subst hh
      exact ⟨p.objs.length, by simp⟩
    · simp only [Function.update_of_ne hh] at ht
      obtain ⟨i, hi⟩ := I.own h t ht
      exact ⟨i, get_push hi⟩
  · intro i e' hi
    rcases push_get hi with hi | ⟨hi, ha⟩
    · exact I.plain i e' hi
    · obtain rfl := Option.some.inj ha
      exact he
  · intro i e' hi hm
    rcases push_get hi with hi | ⟨hi, ha⟩
    · obtain ⟨h1, h2⟩ := I.new0 i e' hi hm
      exact ⟨h1, by rw [← h2]; exact hrest _ (by rw [h2]; simp)⟩
    · obtain rfl := Option.some.inj ha
      exact ⟨(hnew hm).1, (hnew hm).2.1⟩
  · intro i j e1 e2 hi hj hm1 hm2 hn
    rcases push_get hi with hi | ⟨hi, ha⟩
    · rcases push_get hj with hj | ⟨hj, hb⟩
      · exact I.uniq i j e1 e2 hi hj hm1 hm2 hn
      · obtain rfl := Option.some.inj hb
        have := (I.new0 i e1 hi hm1).2
        rw [hn, (hnew hm2).2.2] at this; cases this
    · rcases push_get hj with hj | ⟨hj, hb⟩
      · obtain rfl := Option.some.inj ha
        have := (I.new0 j e2 hj hm2).2
        rw [← hn, (hnew hm1).2.2] at this; cases this
      · omega
  · intro i e' hi hm
    rcases push_get hi with hi | ⟨hi, ha⟩
    · obtain ⟨n, hn⟩ := I.old1 i e' hi hm
      exact ⟨n, by rw [← hn]; exact hrest _ (by rw [hn]; simp)⟩
    · obtain rfl := Option.some.inj ha
      exact hold hm

theorem set_get {α : Type} {l : List α} {a b : α} {i j : ℕ} (h : (l.set i a)[j]? = some b) :
    (i = j ∧ a = b) ∨ (i ≠ j ∧ l[j]? = some b) := by
  rw [List.getElem?_set] at h
  by_cases hij : i = j
  · rw [if_pos hij] at h
    by_cases hl : i < l.length
    · rw [if_pos hl] at h; exact Or.inl ⟨hij, Option.some.inj h⟩
    · rw [if_neg hl] at h; cases h
  · rw [if_neg hij] at h; exact Or.inr ⟨hij, h⟩

theorem get_set_ne {α : Type} {l : List α} {a b : α} {i j : ℕ} (hij : i ≠ j)
    (h : l[j]? = some b) : (l.set i a)[j]? = some b := by
  rw [List.getElem?_set, if_neg hij]; exact h

theorem get_set_eq {α : Type} {l : List α} {a b : α} {i : ℕ} (h : l[i]? = some b) :
    (l.set i a)[i]? = some a := by
  obtain ⟨hi, _⟩ := List.getElem?_eq_some_iff.1 h
  rw [List.getElem?_set, if_pos rfl, if_pos hi]

/-- A data set used. -/
theorem Inv.use {fl : Bool} {lost : ℕ} {p : Py} {w : World} (I : Inv fl lost p w)
    {i : ℕ} {e : Entry} (h : w.sets[i]? = some (some e)) :
    ∃ q, step p (.use i) = .ok q ∧ Inv fl lost q (w.next (.use i)) := by
  obtain ⟨k, hk, ht⟩ := I.tree_obj h
  have hto : treeOf p k = some (treeFor e) := by simp [treeOf, ht, treeFor]
  let e' : Entry := if e.mode = .old then e else { e with n := e.n + 1 }
  have he'n : e'.name = e.name := by simp only [e']; split <;> rfl
  have he'm : e'.mode = e.mode := by simp only [e']; split <;> rfl
  have he'b : e'.base = e.base := by simp only [e']; split <;> rfl
  have hu : usedTree (treeFor e) = treeFor e' := by
    simp only [e']
    rcases e with ⟨nm, m, b, n⟩
    cases m <;> simp [usedTree, treeFor]
  have hw : w.next (.use i) = { w with sets := w.sets.set i (some e') } := by
    simp only [World.next, h, e']
  refine ⟨{ p with lib := put p.lib k (some (treeFor e')) }, ?_, ?_⟩
  · simp only [step, method, hk, hto, act, hu]
  · rw [hw]
    refine ⟨I.flip, ?_, ?_, ?_, ?_, ?_, I.range, I.inj, ?_, I.disk, ?_, ?_, ?_, ?_⟩
    · simp only [World.live, put, countP_set_some h]; exact I.count
    · simp only [World.live, countP_set_some h]; exact I.live
    · simp [I.len]
    · intro j h' hj
      by_cases hij : i = j
      · subst hij
        rw [hk] at hj
        obtain rfl := Option.some.inj (Option.some.inj hj)
        exact ⟨e', get_set_eq h, by simp [put]⟩
      · have hne : h' ≠ k := by
          intro hh; subst hh; exact hij (I.inj i j h' hk hj)
        obtain ⟨f, hf, htf⟩ := I.obj j h' hj
        exact ⟨f, get_set_ne hij hf, by simp only [put, Function.update_of_ne hne]; exact htf⟩
    · intro j f hj
      rcases set_get hj with ⟨hij, _⟩ | ⟨_, hj⟩
      · subst hij; exact ⟨k, hk⟩
      · exact I.set j f hj
    · intro h' t ht'
      by_cases hh : h' = k
      · subst hh; exact ⟨i, hk⟩
      · simp only [put, Function.update_of_ne hh] at ht'
        exact I.own h' t ht'
    · intro j f hj
      rcases set_get hj with ⟨hij, ha⟩ | ⟨_, hj⟩
      · obtain rfl := Option.some.inj ha; rw [he'n]; exact I.plain i e h
      · exact I.plain j f hj
    · intro j f hj hm
      rcases set_get hj with ⟨hij, ha⟩ | ⟨_, hj⟩
      · obtain rfl := Option.some.inj ha
        rw [he'n, he'b]; rw [he'm] at hm; exact I.new0 i e h hm
      · exact I.new0 j f hj hm
    · intro j1 j2 f1 f2 h1 h2 m1 m2 hn
      rcases set_get h1 with ⟨hij1, ha1⟩ | ⟨_, h1⟩ <;> rcases set_get h2 with ⟨hij2, ha2⟩ | ⟨_, h2⟩
      · omega
      · obtain rfl := Option.some.inj ha1
        rw [he'n] at hn; rw [he'm] at m1
        exact hij1 ▸ I.uniq i j2 e f2 h h2 m1 m2 hn
      · obtain rfl := Option.some.inj ha2
        rw [he'n] at hn; rw [he'm] at m2
        exact hij2 ▸ I.uniq j1 i f1 e h1 h m1 m2 hn
      · exact I.uniq j1 j2 f1 f2 h1 h2 m1 m2 hn
    · intro j f hj hm
      rcases set_get hj with ⟨hij, ha⟩ | ⟨_, hj⟩
      · obtain rfl := Option.some.inj ha
        rw [he'n]; rw [he'm] at hm; exact I.old1 i e h hm
      · exact I.old1 j f hj hm

/-- A data set closed. -/
theorem Inv.del {fl : Bool} {lost : ℕ} {p : Py} {w : World} (I : Inv fl lost p w)
    {i : ℕ} {e : Entry} (h : w.sets[i]? = some (some e)) :
    ∃ q, step p (.del i) = .ok q ∧ Inv fl lost q (w.next (.del i)) := by
  obtain ⟨k, hk, ht⟩ := I.tree_obj h
  have hto : treeOf p k = some (treeFor e) := by simp [treeOf, ht, treeFor]
  have hpl := I.plain i e h
  have hw : w.next (.del i) = ⟨w.sets.set i none,
      if e.mode = .old then w.disk
      else Function.update w.disk e.name (some (.uv (e.base + e.n)))⟩ := by
    simp only [World.next, h]
  refine ⟨⟨uvclose p.lib k (treeFor e), p.objs.set i none⟩, ?_, ?_⟩
  · simp only [step, method, hk, hto, act]
  · rw [hw]
    have hlive := countP_set_none h
    have hlive' := countP_set_none hk
    have hI := I.count
    have hL := I.live
    simp only [World.live] at hI hL
    have hsub : ∀ (j : ℕ) (f : Entry), (w.sets.set i none)[j]? = some (some f) → i ≠ j ∧ w.sets[j]? = some (some f) := by
      intro j f hj
      rcases set_get hj with ⟨_, ha⟩ | hj
      · cases ha
      · exact hj
    have hosub : ∀ (j f : ℕ), (p.objs.set i none)[j]? = some (some f) → i ≠ j ∧ p.objs[j]? = some (some f) := by
      intro j f hj
      rcases set_get hj with ⟨_, ha⟩ | hj
      · cases ha
      · exact hj
    refine ⟨I.flip, ?_, ?_, ?_, ?_, ?_, ?_, ?_, ?_, ?_, ?_, ?_, ?_, ?_⟩
    · simp only [World.live, uvclose]; omega
    · simp only [World.live]; omega
    · simp [I.len]
    · intro j h' hj0
      obtain ⟨hij, hj⟩ := hosub j h' hj0
      have hne : h' ≠ k := by
        intro hh; subst hh; exact hij (I.inj i j h' hk hj)
      obtain ⟨f, hf, htf⟩ := I.obj j h' hj
      exact ⟨f, get_set_ne hij hf, by simp only [uvclose, Function.update_of_ne hne]; exact htf⟩
    · intro j f hj
      obtain ⟨hij, hj⟩ := hsub j f hj
      obtain ⟨h', hh'⟩ := I.set j f hj
      exact ⟨h', get_set_ne hij hh'⟩
    · intro j h' hj
      exact I.range j h' (hosub j h' hj).2
    · intro j1 j2 h' h1 h2
      exact I.inj j1 j2 h' (hosub j1 h' h1).2 (hosub j2 h' h2).2
    · intro h' t ht'
      by_cases hh : h' = k
      · subst hh; simp [uvclose] at ht'
      · simp only [uvclose, Function.update_of_ne hh] at ht'
        obtain ⟨j, hj⟩ := I.own h' t ht'
        refine ⟨j, get_set_ne ?_ hj⟩
        intro hij
        subst hij
        rw [hk] at hj
        exact hh (Option.some.inj (Option.some.inj hj)).symm
    · intro name hname
      have hu : ∀ d, Function.update p.lib.disk (e.name ++ [47]) d (name ++ [47])
          = Function.update w.disk e.name d name := by
        intro d
        by_cases hn : name = e.name
        · subst hn; simp
        · rw [Function.update_of_ne hn, Function.update_of_ne (fun hc => hn (app_inj hc))]
          exact I.disk name hname
      rcases hm : e.mode with _ | _ | _
      · simpa [uvclose, treeFor, hm] using I.disk name hname
      · have := (I.new0 i e h hm).1
        simpa [uvclose, treeFor, hm, this] using hu _
      · simpa [uvclose, treeFor, hm] using hu _
    · intro j f hj
      exact I.plain j f (hsub j f hj).2
    · intro j f hj hm
      obtain ⟨hij, hj⟩ := hsub j f hj
      obtain ⟨h1, h2⟩ := I.new0 j f hj hm
      refine ⟨h1, ?_⟩
      by_cases hmo : e.mode = .old
      · simpa [hmo] using h2
      · have hne : f.name ≠ e.name := by
          intro hn
          by_cases hmn : e.mode = .new
          · exact hij (I.uniq i j e f h hj hmn hm hn.symm)
          · obtain ⟨n, hn'⟩ := I.old1 i e h hmn
            rw [← hn, h2] at hn'; cases hn'
        simp only [hmo, if_false, Function.update_of_ne hne]
        exact h2
    · intro j1 j2 f1 f2 h1 h2 m1 m2 hn
      exact I.uniq j1 j2 f1 f2 (hsub j1 f1 h1).2 (hsub j2 f2 h2).2 m1 m2 hn
    · intro j f hj hm
      obtain ⟨hij, hj⟩ := hsub j f hj
      obtain ⟨n, hn⟩ := I.old1 j f hj hm
      by_cases hmo : e.mode = .old
      · exact ⟨n, by simpa [hmo] using hn⟩
      · by_cases hne : f.name = e.name
        · exact ⟨e.base + e.n, by simp [hmo, hne]⟩
        · exact ⟨n, by simp only [hmo, if_false, Function.update_of_ne hne]; exact hn⟩

theorem plain_sum {name : Name} (h : Plain name) : 0 ≤ (name ++ [(47 : ℤ)]).sum := by
  have := sum_nonneg' h.2.2
  simp; linarith

theorem Inv.place {fl : Bool} {lost : ℕ} {p : Py} {w : World} (I : Inv fl lost p w)
    {name : Name} (hn : Plain name) (hl : w.live < 25 - lost) (mode : Mode) :
    ∃ k, k < 26 ∧ taken p.lib k = false ∧
      uvopen p.lib name mode = opened p.lib (name ++ [47]) mode k := by
  obtain ⟨k, hk, hk26, hf⟩ := place_some (s := p.lib) (plain_sum hn) (I.free (by omega))
  refine ⟨k, hk26, hf, ?_⟩
  have hc : ¬ 26 < p.lib.ntree + 1 := by rw [I.count]; omega
  unfold uvopen
  rw [if_neg hn.1, if_neg hc, dtrans_plain hn, hk]

/-- A data set opened. -/
theorem Inv.opens {fl : Bool} {lost : ℕ} {p : Py} {w : World} (I : Inv fl lost p w)
    {name : Name} {mode : Mode} (h : Allowed (25 - lost) w (.open name mode)) :
    ∃ q, step p (.open name mode) = .ok q ∧ Inv fl lost q (w.next (.open name mode)) := by
  cases mode with
  | new =>
    obtain ⟨hn, hd, hl⟩ := h
    obtain ⟨k, hk, hf, hu⟩ := I.place hn hl .new
    have hd' : p.lib.disk (name ++ [47]) = none := by rw [I.disk name hn]; exact hd
    refine ⟨⟨⟨p.lib.flip, p.lib.ntree + 1, Function.update p.lib.tree k
        (some (treeFor ⟨name, .new, 0, 0⟩)),
        Function.update p.lib.disk (name ++ [47]) (some .other)⟩, p.objs ++ [some k]⟩, ?_, ?_⟩
    · simp only [step, hu, opened, hd', put, treeFor]
    · simp only [World.next]
      refine I.push hk hf (e := ⟨name, .new, 0, 0⟩) hn ?_ ?_ ?_ ?_
      · intro nm hnm
        by_cases hx : nm = name
        · subst hx; simp
        · rw [Function.update_of_ne hx, Function.update_of_ne (fun hc => hx (app_inj hc))]
          exact I.disk nm hnm
      · intro _; exact ⟨rfl, by simp, hd⟩
      · intro hc; exact absurd rfl hc
      · intro nm hnm
        have hx : nm ≠ name := by intro hx; subst hx; exact hnm hd
        rw [Function.update_of_ne hx]
  | old =>
    obtain ⟨hn, ⟨n, hd⟩, hl⟩ := h
    obtain ⟨k, hk, hf, hu⟩ := I.place hn hl .old
    have hd' : p.lib.disk (name ++ [47]) = some (.uv n) := by rw [I.disk name hn]; exact hd
    refine ⟨⟨⟨p.lib.flip, p.lib.ntree + 1, Function.update p.lib.tree k
        (some (treeFor ⟨name, .old, n, 0⟩)), p.lib.disk⟩, p.objs ++ [some k]⟩, ?_, ?_⟩
    · simp only [step, hu, opened, hd', put, treeFor]
    · simp only [World.next, hd, records]
      exact I.push hk hf (e := ⟨name, .old, n, 0⟩) hn I.disk (fun hc => by cases hc)
        (fun _ => ⟨n, hd⟩) (fun _ _ => rfl)
  | append =>
    obtain ⟨hn, ⟨n, hd⟩, hl⟩ := h
    obtain ⟨k, hk, hf, hu⟩ := I.place hn hl .append
    have hd' : p.lib.disk (name ++ [47]) = some (.uv n) := by rw [I.disk name hn]; exact hd
    refine ⟨⟨⟨p.lib.flip, p.lib.ntree + 1, Function.update p.lib.tree k
        (some (treeFor ⟨name, .append, n, 0⟩)), p.lib.disk⟩, p.objs ++ [some k]⟩, ?_, ?_⟩
    · simp only [step, hu, opened, hd', put, treeFor]
    · simp only [World.next, hd, records]
      exact I.push hk hf (e := ⟨name, .append, n, 0⟩) hn I.disk (fun hc => by cases hc)
        (fun _ => ⟨n, hd⟩) (fun _ _ => rfl)

theorem Inv.step {fl : Bool} {lost : ℕ} {p : Py} {w : World} (I : Inv fl lost p w)
    {op : Op} (h : Allowed (25 - lost) w op) :
    ∃ q, step p op = .ok q ∧ Inv fl lost q (w.next op) := by
  cases op with
  | «open» name mode => exact I.opens h
  | use i => obtain ⟨e, he⟩ := h; exact I.use he
  | del i => obtain ⟨e, he⟩ := h; exact I.del he
  | fail i => exact h.elim

theorem Inv.run {fl : Bool} {lost : ℕ} : ∀ {ops : List Op} {p : Py} {w : World},
    Inv fl lost p w → AllAllowed (25 - lost) w ops →
    ∃ q, run p ops = some q ∧ Inv fl lost q (w.after ops) := by
  intro ops
  induction ops with
  | nil => intro p w I _; exact ⟨p, rfl, I⟩
  | cons op ops ih =>
    intro p w I h
    obtain ⟨q, hq, Iq⟩ := I.step h.1
    obtain ⟨r, hr, Ir⟩ := ih Iq h.2
    refine ⟨r, ?_, Ir⟩
    simp only [Handles.run, hq]; exact hr

/-! ### What a fatal error does -/

theorem abort_tree : ∀ (l : List ℕ) (s : Lib) (h : ℕ),
    (l.foldl abortAt s).tree h = if h ∈ l then none else s.tree h := by
  intro l
  induction l with
  | nil => intro s h; simp
  | cons a l ih =>
    intro s h
    rw [List.foldl_cons, ih]
    by_cases hl : h ∈ l
    · simp [hl]
    · by_cases ha : h = a
      · subst ha
        cases ht : s.tree h <;> simp [hl, abortAt, ht]
      · cases ht : s.tree a <;> simp [hl, ha, abortAt, ht]

theorem abort_disk_gone : ∀ (l : List ℕ) (s : Lib) (nm : Name),
    s.disk nm = none → (l.foldl abortAt s).disk nm = none := by
  intro l
  induction l with
  | nil => intro s nm h; exact h
  | cons a l ih =>
    intro s nm h
    rw [List.foldl_cons]
    apply ih
    cases ht : s.tree a with
    | none => simpa [abortAt, ht] using h
    | some t =>
      simp only [abortAt, ht]
      split
      · by_cases hn : nm = t.path
        · subst hn; simp
        · rw [Function.update_of_ne hn]; exact h
      · exact h

theorem abort_disk_new : ∀ (l : List ℕ) (s : Lib) (h : ℕ) (t : Tree), h ∈ l →
    s.tree h = some t → t.mode = .new → (l.foldl abortAt s).disk t.path = none := by
  intro l
  induction l with
  | nil => intro s h t hl; simp at hl
  | cons a l ih =>
    intro s h t hl ht hm
    rw [List.foldl_cons]
    by_cases ha : h = a
    · subst ha
      apply abort_disk_gone
      simp [abortAt, ht, hm]
    · have hl' : h ∈ l := by simpa [ha] using hl
      refine ih _ h t hl' ?_ hm
      cases hta : s.tree a <;> simp [abortAt, hta, ha, ht]

theorem abort_disk_kept : ∀ (l : List ℕ) (s : Lib) (nm : Name),
    (∀ h t, s.tree h = some t → t.mode = .new → t.path ≠ nm) →
    (l.foldl abortAt s).disk nm = s.disk nm := by
  intro l
  induction l with
  | nil => intro s nm _; rfl
  | cons a l ih =>
    intro s nm hk
    rw [List.foldl_cons, ih]
    · cases ht : s.tree a with
      | none => simp [abortAt, ht]
      | some t =>
        simp only [abortAt, ht]
        split
        · rename_i hm
          rw [Function.update_of_ne (fun hc => hk a t ht hm hc.symm)]
        · rfl
    · intro h t ht
      by_cases ha : h = a
      · subst ha
        cases hta : s.tree h <;> simp [abortAt, hta] at ht
      · cases hta : s.tree a with
        | none => simp only [abortAt, hta] at ht; exact hk h t ht
        | some t' =>
          simp only [abortAt, hta, Function.update_of_ne ha] at ht
          exact hk h t ht

theorem abort_ntree : ∀ (l : List ℕ) (s : Lib), l.Nodup →
    (l.foldl abortAt s).ntree = s.ntree - l.countP (fun h => (s.tree h).isSome) := by
  intro l
  induction l with
  | nil => intro s _; simp
  | cons a l ih =>
    intro s hn
    obtain ⟨ha, hl⟩ := List.nodup_cons.1 hn
    rw [List.foldl_cons, ih _ hl]
    have hc : l.countP (fun h => ((abortAt s a).tree h).isSome)
        = l.countP (fun h => (s.tree h).isSome) := by
      apply List.countP_congr
      intro x hx
      have hxa : x ≠ a := by intro hc; subst hc; exact ha hx
      cases hta : s.tree a <;> simp [abortAt, hta, hxa]
    rw [hc]
    cases hta : s.tree a with
    | none => simp [abortAt, hta]
    | some t => simp [abortAt, hta]; omega

theorem abort_flip : ∀ (l : List ℕ) (s : Lib), (l.foldl abortAt s).flip = s.flip := by
  intro l
  induction l with
  | nil => intro s; rfl
  | cons a l ih =>
    intro s
    rw [List.foldl_cons, ih]
    cases hta : s.tree a <;> simp [abortAt, hta]

theorem Inv.occupied {fl : Bool} {lost : ℕ} {p : Py} {w : World} (I : Inv fl lost p w) :
    (List.range 26).countP (fun h => (p.lib.tree h).isSome) = w.live := by
  rw [← I.live, ← length_handles, List.countP_eq_length_filter]
  apply List.Perm.length_eq
  rw [List.perm_ext_iff_of_nodup (List.Nodup.filter _ List.nodup_range) (nodup_handles _ I.inj)]
  intro h
  rw [mem_handles, List.mem_filter, List.mem_range]
  constructor
  · rintro ⟨_, hs⟩
    obtain ⟨t, ht⟩ := Option.isSome_iff_exists.1 hs
    exact I.own h t ht
  · rintro ⟨i, hi⟩
    obtain ⟨e, _, ht⟩ := I.obj i h hi
    exact ⟨(I.range i h hi).2, by simp [ht]⟩

/-- How an exception comes about: `bug_c` on the library as it was, or with a
tree more in a free place. -/
def Form (p q : Py) : Prop :=
    ∃ s : Lib, q.lib = bug s ∧ s.flip = p.lib.flip ∧ s.disk = p.lib.disk ∧
      (∀ k t, p.lib.tree k = some t → s.tree k = some t) ∧
      (∀ k t, s.tree k = some t → t.ready = true → p.lib.tree k = some t) ∧
      (∀ k t, s.tree k = some t → t.mode = .new → p.lib.tree k = some t) ∧
      (∀ (i k : ℕ), p.objs[i]? = some (some k) → q.objs[i]? = some (some k))

theorem lib_ext {s : Lib} {a : Bool} {b : ℕ} {c : ℕ → Option Tree} {d : Name → Option Data}
    (h1 : s.flip = a) (h2 : s.ntree = b) (h3 : s.tree = c) (h4 : s.disk = d) :
    s = ⟨a, b, c, d⟩ := by
  subst h1 h2 h3 h4; rfl

theorem raised_form {p q : Py} {op : Op} (h : step p op = .raised q) : Form p q := by
  have hm : ∀ i o, method p i o = .raised q → q = ⟨bug p.lib, p.objs⟩ := by
    intro i o ho
    unfold method at ho
    split at ho
    · split at ho
      · cases o <;> simp only [act] at ho <;> first | (cases ho; rfl) | cases ho
      · cases ho
    · cases ho
  have done : q = ⟨bug p.lib, p.objs⟩ → Form p q := fun hq => by
    subst hq
    exact ⟨p.lib, rfl, rfl, rfl, fun _ _ h => h, fun _ _ h _ => h, fun _ _ h _ => h,
      fun _ _ h => h⟩
  cases op with
  | use i => exact done (hm _ _ h)
  | fail i => exact done (hm _ _ h)
  | del i => exact done (hm _ _ h)
  | «open» name mode =>
    have hobj : ∀ (i k : ℕ), p.objs[i]? = some (some k) →
        (p.objs ++ [none])[i]? = some (some k) := fun i k hi => get_push hi
    have plainly : ∀ s' : Lib, s'.flip = p.lib.flip → s'.disk = p.lib.disk →
        s'.tree = p.lib.tree → q = ⟨bug s', p.objs ++ [none]⟩ → Form p q := fun s' h1 h2 h3 hq => by
      subst hq
      exact ⟨s', rfl, h1, h2, fun _ _ h => by rw [h3]; exact h, fun _ _ h _ => by rw [← h3]; exact h,
        fun _ _ h _ => by rw [← h3]; exact h, hobj⟩
    simp only [step] at h
    unfold uvopen at h
    by_cases h0 : name = []
    · rw [if_pos h0] at h; cases h
    rw [if_neg h0] at h
    by_cases h1 : 26 < p.lib.ntree + 1
    · rw [if_pos h1] at h
      injection h with h
      exact plainly { p.lib with ntree := p.lib.ntree + 1 } rfl rfl rfl h.symm
    rw [if_neg h1] at h
    cases hp : place p.lib (dtrans name) with
    | none => rw [hp] at h; cases h
    | some k =>
      rw [hp] at h
      have hfree : p.lib.tree k = none := by
        have hlt : place p.lib (dtrans name) = some k → taken p.lib k = false := by
          unfold place
          intro hx
          split at hx
          · cases hx
          · rename_i hneg
            refine (probe_some _ _ _ hx ?_).2
            have := Int.tmod_lt_of_pos ((p.lib.ntree : ℤ) + (dtrans name).sum) (b := 26) (by norm_num)
            omega
        have := hlt hp
        simp only [taken, Bool.or_eq_false_iff] at this
        simpa using this.2
      cases mode with
      | new =>
        cases hd : p.lib.disk (dtrans name) with
        | none => simp only [opened, hd] at h; cases h
        | some d =>
          simp only [opened, hd] at h
          injection h with h
          exact plainly _ rfl rfl rfl h.symm
      | old =>
        cases hd : p.lib.disk (dtrans name) with
        | none =>
          simp only [opened, hd] at h
          injection h with h
          exact plainly _ rfl rfl rfl h.symm
        | some d =>
          cases d with
          | uv n => simp only [opened, hd] at h; cases h
          | other =>
            simp only [opened, hd] at h
            injection h with h
            subst h
            refine ⟨_, rfl, rfl, rfl, ?_, ?_, ?_, hobj⟩
            · intro k' t ht
              have : k' ≠ k := by intro hc; subst hc; rw [hfree] at ht; cases ht
              simp only [put, Function.update_of_ne this]; exact ht
            · intro k' t ht hr
              by_cases hk : k' = k
              · subst hk; simp [put] at ht; subst ht; cases hr
              · simpa only [put, Function.update_of_ne hk] using ht
            · intro k' t ht hr
              by_cases hk : k' = k
              · subst hk; simp [put] at ht; subst ht; cases hr
              · simpa only [put, Function.update_of_ne hk] using ht
      | append =>
        cases hd : p.lib.disk (dtrans name) with
        | none =>
          simp only [opened, hd] at h
          injection h with h
          exact plainly _ rfl rfl rfl h.symm
        | some d =>
          cases d with
          | uv n => simp only [opened, hd] at h; cases h
          | other =>
            simp only [opened, hd] at h
            injection h with h
            subst h
            refine ⟨_, rfl, rfl, rfl, ?_, ?_, ?_, hobj⟩
            · intro k' t ht
              have : k' ≠ k := by intro hc; subst hc; rw [hfree] at ht; cases ht
              simp only [put, Function.update_of_ne this]; exact ht
            · intro k' t ht hr
              by_cases hk : k' = k
              · subst hk; simp [put] at ht; subst ht; cases hr
              · simpa only [put, Function.update_of_ne hk] using ht
            · intro k' t ht hr
              by_cases hk : k' = k
              · subst hk; simp [put] at ht; subst ht; cases hr
              · simpa only [put, Function.update_of_ne hk] using ht

/-! ## The claims -/

/-- **C139.**  As long as nothing goes wrong, any number of data sets up to 25
at a time are kept apart: a program that opens existing data sets to read or to
append to, makes new ones, uses and closes them in any order runs to its end;
each object then has the data set it was opened for, with what was written
through it, two objects never share a place, and the disk holds what was
closed.  `lost` is the number of places lost to earlier errors. -/
theorem c139_sessions_partial (flip : Bool) (lost : ℕ) (disk d : Name → Option Data)
    (hd : ∀ name, Plain name → disk (name ++ [47]) = d name)
    (ops : List Op) (h : AllAllowed (25 - lost) ⟨[], d⟩ ops) :
    ∃ q, run (fresh flip lost disk) ops = some q ∧
      (∀ (i : ℕ) (e : Entry), (World.after ⟨[], d⟩ ops).sets[i]? = some (some e) →
        ∃ k, q.objs[i]? = some (some k) ∧
          q.lib.tree k = some ⟨e.name ++ [47], e.mode, e.base, e.n, true⟩ ∧
          ∀ (j : ℕ), q.objs[j]? = some (some k) → j = i) ∧
      (∀ name, Plain name → q.lib.disk (name ++ [47]) = (World.after ⟨[], d⟩ ops).disk name) := by
  obtain ⟨q, hq, I⟩ := (fresh_inv (fl := flip) (lost := lost) hd).run h
  refine ⟨q, hq, ?_, I.disk⟩
  intro i e he
  obtain ⟨k, hk, ht⟩ := I.tree_obj he
  exact ⟨k, hk, ht, fun j hj => I.inj j i k hj hk⟩

/-- **C139.**  In such a program, what is asked for next is done if it is allowed
and is an exception, never anything worse, if it is not: a data set that is
missing or is no uv data set, a new one whose name is taken, one too many, or a
call that fails. -/
theorem c139_raised (flip : Bool) (lost : ℕ) (disk d : Name → Option Data)
    (hd : ∀ name, Plain name → disk (name ++ [47]) = d name)
    (ops : List Op) (h : AllAllowed (25 - lost) ⟨[], d⟩ ops) (op : Op)
    (hop : Asked (World.after ⟨[], d⟩ ops) op) :
    ∃ q, run (fresh flip lost disk) ops = some q ∧
      ((Allowed (25 - lost) (World.after ⟨[], d⟩ ops) op ∧ ∃ r, step q op = .ok r) ∨
       (¬ Allowed (25 - lost) (World.after ⟨[], d⟩ ops) op ∧ ∃ r, step q op = .raised r)) := by
  obtain ⟨q, hq, I⟩ := (fresh_inv (fl := flip) (lost := lost) hd).run h
  refine ⟨q, hq, ?_⟩
  generalize World.after ⟨[], d⟩ ops = w at I hop ⊢
  by_cases ha : Allowed (25 - lost) w op
  · obtain ⟨r, hr, _⟩ := I.step ha
    exact Or.inl ⟨ha, r, hr⟩
  · refine Or.inr ⟨ha, ?_⟩
    cases op with
    | use i => exact absurd hop ha
    | del i => exact absurd hop ha
    | fail i =>
      obtain ⟨e, he⟩ := hop
      obtain ⟨k, hk, ht⟩ := I.tree_obj he
      have hto : treeOf q k = some (treeFor e) := by simp [treeOf, ht, treeFor]
      exact ⟨{ q with lib := bug q.lib }, by simp only [step, method, hk, hto, act]⟩
    | «open» name mode =>
      by_cases hl : w.live < 25 - lost
      · obtain ⟨k, _, _, hu⟩ := I.place hop hl mode
        have hdk := I.disk name hop
        cases hw : w.disk name with
        | none =>
          rw [hw] at hdk
          cases mode with
          | new => exact absurd ⟨hop, hw, hl⟩ ha
          | old => exact ⟨⟨bug q.lib, q.objs ++ [none]⟩, by simp only [step, hu, opened, hdk]⟩
          | append => exact ⟨⟨bug q.lib, q.objs ++ [none]⟩, by simp only [step, hu, opened, hdk]⟩
        | some x =>
          rw [hw] at hdk
          cases mode with
          | new => exact ⟨⟨bug q.lib, q.objs ++ [none]⟩, by simp only [step, hu, opened, hdk]⟩
          | old =>
            cases x with
            | uv n => exact absurd ⟨hop, ⟨n, hw⟩, hl⟩ ha
            | other =>
              exact ⟨⟨bug (put { q.lib with ntree := q.lib.ntree + 1 } k
                (some ⟨name ++ [47], .old, 0, 0, false⟩)), q.objs ++ [none]⟩,
                by simp only [step, hu, opened, hdk]⟩
          | append =>
            cases x with
            | uv n => exact absurd ⟨hop, ⟨n, hw⟩, hl⟩ ha
            | other =>
              exact ⟨⟨bug (put { q.lib with ntree := q.lib.ntree + 1 } k
                (some ⟨name ++ [47], .append, 0, 0, false⟩)), q.objs ++ [none]⟩,
                by simp only [step, hu, opened, hdk]⟩
      · have hc : 26 < q.lib.ntree + 1 := by rw [I.count]; omega
        have hu : uvopen q.lib name mode
            = (bug { q.lib with ntree := q.lib.ntree + 1 }, .raised) := by
          unfold uvopen; rw [if_neg hop.1, if_pos hc]
        exact ⟨⟨bug { q.lib with ntree := q.lib.ntree + 1 }, q.objs ++ [none]⟩, by simp only [step, hu]⟩

/-- **C139, violated.**  The first exception (and every second one after it)
takes all other data sets with it.  Whatever raised it, afterwards every data
set that was open is shut: reading, writing and even letting go of its object is
undefined behaviour; every data set that was being made is deleted from the
disk; what was appended is not there. -/
theorem c139_error_violated (lost : ℕ) (disk d : Name → Option Data)
    (hd : ∀ name, Plain name → disk (name ++ [47]) = d name)
    (ops : List Op) (h : AllAllowed (25 - lost) ⟨[], d⟩ ops) (q r : Py) (op : Op)
    (hq : run (fresh false lost disk) ops = some q) (hr : step q op = .raised r)
    (i : ℕ) (e : Entry) (he : (World.after ⟨[], d⟩ ops).sets[i]? = some (some e)) :
    step r (.use i) = .undefined ∧ step r (.del i) = .undefined ∧
    (e.mode = .new → r.lib.disk (e.name ++ [47]) = none) ∧
    (e.mode ≠ .new → r.lib.disk (e.name ++ [47]) = (World.after ⟨[], d⟩ ops).disk e.name) := by
  obtain ⟨q', hq', I⟩ := (fresh_inv (fl := false) (lost := lost) hd).run h
  rw [hq] at hq'
  obtain rfl := Option.some.inj hq'
  generalize World.after ⟨[], d⟩ ops = w at I he ⊢
  obtain ⟨s, hs, hf, hsd, hup, hdown, hnew, hobj⟩ := raised_form hr
  obtain ⟨k, hk, ht⟩ := I.tree_obj he
  have hk26 := (I.range i k hk).2
  rw [I.flip] at hf
  have hlib : r.lib = habort { s with flip := true } := by
    rw [hs]; simp [bug, hf]
  have htr : r.lib.tree k = none := by
    rw [hlib, habort, abort_tree, if_pos (List.mem_range.2 hk26)]
  have hto : treeOf r k = none := by simp [treeOf, htr]
  have hpl := I.plain i e he
  refine ⟨?_, ?_, ?_, ?_⟩
  · simp only [step, method, hobj i k hk, hto]
  · simp only [step, method, hobj i k hk, hto]
  · intro hm
    rw [hlib, habort]
    exact abort_disk_new _ { s with flip := true } k (treeFor e) (List.mem_range.2 hk26)
      (hup k _ ht) hm
  · intro hm
    rw [hlib, habort, abort_disk_kept]
    · show s.disk _ = _
      rw [hsd]; exact I.disk _ hpl
    · intro k' t ht' hmt hpath
      have hkt := hnew k' t ht' hmt
      obtain ⟨j, hj⟩ := I.own k' t hkt
      obtain ⟨f, hfj, htf⟩ := I.obj j k' hj
      rw [hkt] at htf
      obtain rfl := Option.some.inj htf
      have hname : f.name = e.name := app_inj hpath
      obtain ⟨n, hn⟩ := I.old1 i e he hm
      have := (I.new0 j f hfj hmt).2
      rw [hname, hn] at this
      cases this

/-- **C139 (partial).**  Finished data sets are never harmed by an exception:
whatever a name had on disk when nothing with that name was being made, it still
has. -/
theorem c139_kept_partial (flip : Bool) (lost : ℕ) (disk d : Name → Option Data)
    (hd : ∀ name, Plain name → disk (name ++ [47]) = d name)
    (ops : List Op) (h : AllAllowed (25 - lost) ⟨[], d⟩ ops) (q r : Py) (op : Op)
    (hq : run (fresh flip lost disk) ops = some q) (hr : step q op = .raised r)
    (name : Name) (hn : Plain name) (n : ℕ)
    (hu : (World.after ⟨[], d⟩ ops).disk name = some (.uv n)) :
    r.lib.disk (name ++ [47]) = some (.uv n) := by
  obtain ⟨q', hq', I⟩ := (fresh_inv (fl := flip) (lost := lost) hd).run h
  rw [hq] at hq'
  obtain rfl := Option.some.inj hq'
  generalize World.after ⟨[], d⟩ ops = w at I hu
  obtain ⟨s, hs, hf, hsd, hup, hdown, hnew, hobj⟩ := raised_form hr
  have hqd : q.lib.disk (name ++ [47]) = some (.uv n) := by rw [I.disk name hn, hu]
  rw [hs]
  cases hfl : s.flip with
  | true => simp only [bug, hfl, if_true]; rw [hsd]; exact hqd
  | false =>
    simp only [bug, hfl, Bool.false_eq_true, if_false, habort]
    rw [abort_disk_kept]
    · show s.disk _ = _
      rw [hsd]; exact hqd
    · intro k' t ht' hmt hpath
      have hkt := hnew k' t ht' hmt
      obtain ⟨j, hj⟩ := I.own k' t hkt
      obtain ⟨f, hfj, htf⟩ := I.obj j k' hj
      rw [hkt] at htf
      obtain rfl := Option.some.inj htf
      have hname : f.name = name := app_inj hpath
      have := (I.new0 j f hfj hmt).2
      rw [hname, hu] at this
      cases this

/-- **C139 (partial).**  The second exception (and every second one after it)
does what one expects: the other data sets stay open, with their places and
all that was written, and the disk is as it was. -/
theorem c139_second_partial (lost : ℕ) (disk d : Name → Option Data)
    (hd : ∀ name, Plain name → disk (name ++ [47]) = d name)
    (ops : List Op) (h : AllAllowed (25 - lost) ⟨[], d⟩ ops) (q r : Py) (op : Op)
    (hq : run (fresh true lost disk) ops = some q) (hr : step q op = .raised r) :
    r.lib.flip = false ∧ r.lib.disk = q.lib.disk ∧
    ∀ (i : ℕ) (e : Entry), (World.after ⟨[], d⟩ ops).sets[i]? = some (some e) →
      ∃ k, r.objs[i]? = some (some k) ∧
        r.lib.tree k = some ⟨e.name ++ [47], e.mode, e.base, e.n, true⟩ := by
  obtain ⟨q', hq', I⟩ := (fresh_inv (fl := true) (lost := lost) hd).run h
  rw [hq] at hq'
  obtain rfl := Option.some.inj hq'
  generalize World.after ⟨[], d⟩ ops = w at I ⊢
  obtain ⟨s, hs, hf, hsd, hup, hdown, hnew, hobj⟩ := raised_form hr
  rw [I.flip] at hf
  have hlib : r.lib = { s with flip := false } := by rw [hs]; simp [bug, hf]
  refine ⟨by rw [hlib], by rw [hlib]; exact hsd, ?_⟩
  intro i e he
  obtain ⟨k, hk, ht⟩ := I.tree_obj he
  exact ⟨k, hobj i k hk, by rw [hlib]; exact hup k _ ht⟩

/-- **C139, violated.**  With the table full, one data set more is refused, all
25 are shut, and a place is lost for good: the library is left as if one place
fewer were there. -/
theorem c139_overflow_violated (lost : ℕ) (disk d : Name → Option Data)
    (hd : ∀ name, Plain name → disk (name ++ [47]) = d name)
    (ops : List Op) (h : AllAllowed (25 - lost) ⟨[], d⟩ ops) (hlost : lost ≤ 25)
    (hfull : (World.after ⟨[], d⟩ ops).live = 25 - lost) (name : Name) (hn : Plain name)
    (mode : Mode) :
    ∃ q r disk', run (fresh false lost disk) ops = some q ∧
      step q (.open name mode) = .raised r ∧
      r.lib = (fresh true (lost + 1) disk').lib := by
  obtain ⟨q, hq, I⟩ := (fresh_inv (fl := false) (lost := lost) hd).run h
  generalize World.after ⟨[], d⟩ ops = w at I hfull
  have hc : 26 < q.lib.ntree + 1 := by rw [I.count, hfull]; omega
  have hu : uvopen q.lib name mode
      = (bug { q.lib with ntree := q.lib.ntree + 1 }, .raised) := by
    unfold uvopen; rw [if_neg hn.1, if_pos hc]
  refine ⟨q, ⟨bug { q.lib with ntree := q.lib.ntree + 1 }, q.objs ++ [none]⟩,
    (bug { q.lib with ntree := q.lib.ntree + 1 }).disk, hq, by simp only [step, hu], ?_⟩
  have hb : bug { q.lib with ntree := q.lib.ntree + 1 }
      = habort { q.lib with ntree := q.lib.ntree + 1, flip := true } := by
    simp [bug, I.flip]
  show bug { q.lib with ntree := q.lib.ntree + 1 } = _
  rw [hb]
  have h1 : (habort { q.lib with ntree := q.lib.ntree + 1, flip := true }).flip = true := by
    rw [habort, abort_flip]
  have h2 : (habort { q.lib with ntree := q.lib.ntree + 1, flip := true }).ntree
      = 1 + (lost + 1) := by
    rw [habort, abort_ntree _ _ List.nodup_range]
    show q.lib.ntree + 1 - (List.range 26).countP (fun h => (q.lib.tree h).isSome) = _
    rw [I.occupied, I.count]; omega
  have h3 : (habort { q.lib with ntree := q.lib.ntree + 1, flip := true }).tree = fun _ => none := by
    funext k
    rw [habort, abort_tree]
    by_cases hk : k ∈ List.range 26
    · rw [if_pos hk]
    · rw [if_neg hk]
      show q.lib.tree k = none
      cases ht : q.lib.tree k with
      | none => rfl
      | some t =>
        obtain ⟨i, hi⟩ := I.own k t ht
        exact absurd (List.mem_range.2 (I.range i k hi).2) hk
  exact lib_ext h1 h2 h3 rfl

/-- **C139, violated.**  When the exceptions so far are odd in number, opening a
directory that is no uv data set leaves a place taken that no object has, so
that nothing can give it back. -/
theorem c139_leak_violated (lost : ℕ) (disk d : Name → Option Data)
    (hd : ∀ name, Plain name → disk (name ++ [47]) = d name)
    (ops : List Op) (h : AllAllowed (25 - lost) ⟨[], d⟩ ops)
    (hroom : (World.after ⟨[], d⟩ ops).live < 25 - lost) (name : Name) (hn : Plain name)
    (hdir : (World.after ⟨[], d⟩ ops).disk name = some .other) :
    ∃ q r k t, run (fresh true lost disk) ops = some q ∧
      step q (.open name .old) = .raised r ∧ r.lib.ntree = q.lib.ntree + 1 ∧
      r.lib.tree k = some t ∧ ∀ (i : ℕ), r.objs[i]? ≠ some (some k) := by
  obtain ⟨q, hq, I⟩ := (fresh_inv (fl := true) (lost := lost) hd).run h
  generalize World.after ⟨[], d⟩ ops = w at I hroom hdir
  obtain ⟨k, hk, hf, hu⟩ := I.place hn hroom .old
  have hdk := I.disk name hn
  rw [hdir] at hdk
  have hfree : q.lib.tree k = none := by
    simp only [taken, Bool.or_eq_false_iff] at hf
    simpa using hf.2
  refine ⟨q, ⟨bug (put { q.lib with ntree := q.lib.ntree + 1 } k
      (some ⟨name ++ [47], .old, 0, 0, false⟩)), q.objs ++ [none]⟩, k,
      ⟨name ++ [47], .old, 0, 0, false⟩, hq, by simp only [step, hu, opened, hdk], ?_, ?_, ?_⟩
  · simp [bug, put, I.flip]
  · simp [bug, put, I.flip]
  · intro i hi
    rcases push_get hi with hi | ⟨_, ha⟩
    · obtain ⟨e, _, ht⟩ := I.obj i k hi
      rw [hfree] at ht; cases ht
    · cases ha

/-- **C139, violated.**  Open a data set, have a call fail, and open it again, as
a program that recovers from an exception would: the new object gets the number
of the old one, and letting go of the old one (which rebinding the variable
does) shuts the new one. -/
theorem c139_reopen_violated (disk : Name → Option Data) (name : Name) (hn : Plain name) (n : ℕ)
    (hd : disk (name ++ [47]) = some (.uv n)) :
    ∃ p q r s k, step (fresh false 0 disk) (.open name .old) = .ok p ∧
      step p (.fail 0) = .raised q ∧ step q (.open name .old) = .ok r ∧
      r.objs = [some k, some k] ∧ step r (.del 0) = .ok s ∧
      step s (.use 1) = .undefined := by
  have I := fresh_inv (fl := false) (lost := 0) (disk := disk)
    (d := fun nm => disk (nm ++ [47])) (fun _ _ => rfl)
  have hal : Allowed (25 - 0) ⟨[], fun nm => disk (nm ++ [47])⟩ (.open name .old) :=
    ⟨hn, ⟨n, hd⟩, by simp [World.live]⟩
  obtain ⟨k, hk, hf, hu⟩ := I.place hn (by simp [World.live]) .old
  have hpl : place (fresh false 0 disk).lib (name ++ [47]) = some k := by
    have h1 : uvopen (fresh false 0 disk).lib name .old = _ := hu
    unfold uvopen at h1
    have hc : ¬ 26 < (fresh false 0 disk).lib.ntree + 1 := by simp [fresh]
    rw [if_neg hn.1, if_neg hc, dtrans_plain hn] at h1
    have hdl : (fresh false 0 disk).lib.disk (name ++ [47]) = some (.uv n) := hd
    cases hp : place (fresh false 0 disk).lib (name ++ [47]) with
    | none => rw [hp] at h1; simp [opened, hdl] at h1
    | some k' =>
      rw [hp] at h1
      simp only [opened, hdl] at h1
      have := (Prod.mk.inj h1).2
      injection this with this
      rw [this]
  have hk0 : k ≠ 0 := by
    simp only [taken, Bool.or_eq_false_iff] at hf
    simpa using hf.1
  let T : Tree := ⟨name ++ [47], .old, n, 0, true⟩
  let L1 : Lib := ⟨false, 2, Function.update (fun _ => none) k (some T), disk⟩
  let L2 : Lib := ⟨true, 1, fun _ => none, disk⟩
  let L3 : Lib := ⟨true, 2, Function.update (fun _ => none) k (some T), disk⟩
  have hopen : ∀ (b : Bool), uvopen ⟨b, 1, fun _ => none, disk⟩ name .old
      = (⟨b, 2, Function.update (fun _ => none) k (some T), disk⟩, .handle k) := by
    intro b
    have hp : place ⟨b, 1, fun _ => none, disk⟩ (name ++ [47]) = some k := by
      rw [← hpl]; exact place_congr rfl rfl _
    unfold uvopen
    rw [if_neg hn.1, if_neg (by norm_num), dtrans_plain hn, hp]
    simp only [opened, hd, put, T]
  have hb : bug L1 = L2 := by
    have hx : bug L1 = habort ⟨true, 2, L1.tree, disk⟩ := by simp [bug, L1]
    rw [hx]
    have h1 : (habort ⟨true, 2, L1.tree, disk⟩).flip = true := by rw [habort, abort_flip]
    have h3 : (habort ⟨true, 2, L1.tree, disk⟩).tree = fun _ => none := by
      funext j
      rw [habort, abort_tree]
      by_cases hj : j ∈ List.range 26
      · rw [if_pos hj]
      · rw [if_neg hj]
        have : j ≠ k := by intro hc; subst hc; exact hj (List.mem_range.2 hk)
        simp [L1, this]
    have h2 : (habort ⟨true, 2, L1.tree, disk⟩).ntree = 1 := by
      rw [habort, abort_ntree _ _ List.nodup_range]
      have : (List.range 26).countP (fun h => (L1.tree h).isSome) = 1 := by
        have e : (fun h => (L1.tree h).isSome) = (fun h => h == k) := by
          funext j
          by_cases hj : j = k
          · subst hj; simp [L1]
          · simp [L1, hj]
        rw [e]
        show List.count k (List.range 26) = 1
        exact List.count_eq_one_of_mem List.nodup_range (List.mem_range.2 hk)
      show 2 - _ = 1
      rw [this]
    have h4 : (habort ⟨true, 2, L1.tree, disk⟩).disk = disk := by
      funext nm
      rw [habort, abort_disk_kept]
      intro j t ht hm
      by_cases hj : j = k
      · subst hj; simp [L1] at ht; subst ht; cases hm
      · simp [L1, hj] at ht
    exact lib_ext h1 h2 h3 h4
  refine ⟨⟨L1, [some k]⟩, ⟨L2, [some k]⟩, ⟨L3, [some k, some k]⟩,
    ⟨uvclose L3 k T, [none, some k]⟩, k, ?_, ?_, ?_, rfl, ?_, ?_⟩
  · have := hopen false
    show (match uvopen ⟨false, 1, fun _ => none, disk⟩ name .old with
      | (s, .handle h) => Res.ok ⟨s, [] ++ [some h]⟩
      | (s, .raised) => Res.raised ⟨s, [] ++ [none]⟩
      | (_, .undefined) => Res.undefined) = _
    rw [this]
    rfl
  · have hto : treeOf ⟨L1, [some k]⟩ k = some T := by simp [treeOf, L1, T]
    simp only [step, method, List.getElem?_cons_zero, hto, act, hb]
  · have := hopen true
    show (match uvopen ⟨true, 1, fun _ => none, disk⟩ name .old with
      | (s, .handle h) => Res.ok ⟨s, [some k] ++ [some h]⟩
      | (s, .raised) => Res.raised ⟨s, [some k] ++ [none]⟩
      | (_, .undefined) => Res.undefined) = _
    rw [this]
    rfl
  · have hto : treeOf ⟨L3, [some k, some k]⟩ k = some T := by simp [treeOf, L3, T]
    simp only [step, method, List.getElem?_cons_zero, hto, act, List.set_cons_zero]
  · have hto : treeOf ⟨uvclose L3 k T, [none, some k]⟩ k = none := by
      simp [treeOf, uvclose]
    simp only [step, method, List.getElem?_cons_succ, List.getElem?_cons_zero, hto]

/-- **C139, violated.**  A name with letters outside ASCII can make the hash
negative, and the table is then read before its start: undefined behaviour
where a data set was to be opened. -/
theorem c139_name_violated (flip : Bool) (disk : Name → Option Data) (name : Name) (mode : Mode)
    (h0 : name ≠ []) (hlast : name.getLast? ≠ some 47) (hneg : name.sum + 48 < 0)
    (hmod : ¬ (26 : ℤ) ∣ name.sum + 48) :
    step (fresh flip 0 disk) (.open name mode) = .undefined := by
  have hp : place (fresh flip 0 disk).lib (name ++ [47]) = none := by
    unfold place
    have e : ((fresh flip 0 disk).lib.ntree : ℤ) + (name ++ [47]).sum = name.sum + 48 := by
      simp [fresh]; omega
    rw [e, if_pos]
    have h1 := Int.tmod_add_mul_tdiv (name.sum + 48) 26
    have h2 : (name.sum + 48).tmod 26 ≠ 0 := fun hc => hmod (Int.dvd_of_tmod_eq_zero hc)
    have h3 : (name.sum + 48).tmod 26 ≤ 0 := by
      have := Int.tmod_nonneg (a := -(name.sum + 48)) 26 (by omega)
      rw [Int.neg_tmod] at this
      omega
    omega
  have hu : uvopen (fresh flip 0 disk).lib name mode = ((fresh flip 0 disk).lib, .undefined) := by
    unfold uvopen
    have hc : ¬ 26 < (fresh flip 0 disk).lib.ntree + 1 := by simp [fresh]
    have ht : dtrans name = name ++ [47] := by simp [dtrans, hlast]
    rw [if_neg h0, if_neg hc, ht, hp]
  simp only [step, hu]

/-! ## Cases that meet the hypotheses -/

/-- A disk with the data set `a` of five records and a directory `x`. -/
def demoDisk (path : Name) : Option Data :=
  if path = [97, 47] then some (.uv 5) else if path = [120, 47] then some .other else none

/-- The same by names. -/
def demoNames (name : Name) : Option Data :=
  if name = [97] then some (.uv 5) else if name = [120] then some .other else none

theorem demo_disk (name : Name) (h : Plain name) : demoDisk (name ++ [47]) = demoNames name := by
  have h1 : (name ++ [47] = [97, (47 : ℤ)]) ↔ name = [97] :=
    ⟨fun hc => app_inj (b := [97]) hc, fun hc => by rw [hc]; rfl⟩
  have h2 : (name ++ [47] = [120, (47 : ℤ)]) ↔ name = [120] :=
    ⟨fun hc => app_inj (b := [120]) hc, fun hc => by rw [hc]; rfl⟩
  simp only [demoDisk, demoNames, h1, h2]

/-- Read `a`, make `b`, append to `a`, write a record to each. -/
def demoOps : List Op :=
  [.open [97] .old, .open [98] .new, .open [97] .append, .use 0, .use 1, .use 2]

theorem demo_allowed (k : ℕ) (hk : 3 ≤ k) : AllAllowed k ⟨[], demoNames⟩ demoOps := by
  refine ⟨⟨by simp [Plain], ⟨5, by simp [demoNames]⟩, by simp [World.live]; omega⟩,
    ⟨by simp [Plain], by simp [World.next, demoNames], by simp [World.next, World.live]; omega⟩,
    ⟨by simp [Plain], ⟨5, by simp [World.next, demoNames]⟩, by simp [World.next, World.live]; omega⟩,
    ⟨_, rfl⟩, ⟨_, rfl⟩, ⟨_, rfl⟩, trivial⟩

-- the program runs: object 1 has written a record to `b`
example : ∃ q, run (fresh false 0 demoDisk) demoOps = some q ∧
    ∃ k, q.objs[1]? = some (some k) ∧ q.lib.tree k = some ⟨[98, 47], .new, 0, 1, true⟩ := by
  obtain ⟨q, hq, h, _⟩ := c139_sessions_partial false 0 demoDisk demoNames demo_disk demoOps
    (demo_allowed _ (by norm_num))
  obtain ⟨k, hk, ht, _⟩ := h 1 ⟨[98], .new, 0, 1⟩ rfl
  exact ⟨q, hq, k, hk, ht⟩

-- opening a missing data set next raises, deletes `b` and shuts `a`; what was
-- appended to `a` is lost, it still has five records
example : ∃ q r, run (fresh false 0 demoDisk) demoOps = some q ∧
    step q (.open [99] .old) = .raised r ∧ r.lib.disk [98, 47] = none ∧
    step r (.use 0) = .undefined ∧ r.lib.disk [97, 47] = some (.uv 5) := by
  obtain ⟨q, hq, h⟩ := c139_raised false 0 demoDisk demoNames demo_disk demoOps
    (demo_allowed _ (by norm_num)) (.open [99] .old) (by simp [Asked, Plain])
  rcases h with ⟨⟨_, ⟨n, hn⟩, _⟩, _⟩ | ⟨_, r, hr⟩
  · simp [World.after, World.next, demoOps, demoNames] at hn
  · have h1 := c139_error_violated 0 demoDisk demoNames demo_disk demoOps
      (demo_allowed _ (by norm_num)) q r _ hq hr 1 ⟨[98], .new, 0, 1⟩ rfl
    have h0 := c139_error_violated 0 demoDisk demoNames demo_disk demoOps
      (demo_allowed _ (by norm_num)) q r _ hq hr 0 ⟨[97], .old, 5, 0⟩ rfl
    have hk := c139_kept_partial false 0 demoDisk demoNames demo_disk demoOps
      (demo_allowed _ (by norm_num)) q r _ hq hr [97] (by simp [Plain]) 5
      (by simp [World.after, World.next, demoOps, demoNames])
    exact ⟨q, r, hq, hr, h1.2.2.1 rfl, h0.1, hk⟩

-- the second error leaves them
example : ∃ q r, run (fresh true 0 demoDisk) demoOps = some q ∧
    step q (.fail 0) = .raised r ∧
    ∃ k, r.objs[1]? = some (some k) ∧ r.lib.tree k = some ⟨[98, 47], .new, 0, 1, true⟩ := by
  obtain ⟨q, hq, h⟩ := c139_raised true 0 demoDisk demoNames demo_disk demoOps
    (demo_allowed _ (by norm_num)) (.fail 0) ⟨_, rfl⟩
  rcases h with ⟨hf, _⟩ | ⟨_, r, hr⟩
  · exact hf.elim
  · obtain ⟨_, _, h⟩ := c139_second_partial 0 demoDisk demoNames demo_disk demoOps
      (demo_allowed _ (by norm_num)) q r _ hq hr
    exact ⟨q, r, hq, hr, h 1 ⟨[98], .new, 0, 1⟩ rfl⟩

-- a directory that is no data set
example : (World.after ⟨[], demoNames⟩ demoOps).live < 25 - 0 ∧
    (World.after ⟨[], demoNames⟩ demoOps).disk [120] = some .other := by
  constructor
  · simp [World.after, World.next, demoOps, World.live]
  · simp [World.after, World.next, demoOps, demoNames]

-- with 22 places lost the table is full after three
example : AllAllowed (25 - 22) ⟨[], demoNames⟩ demoOps ∧
    (World.after ⟨[], demoNames⟩ demoOps).live = 25 - 22 :=
  ⟨demo_allowed _ (by norm_num), by simp [World.after, World.next, demoOps, World.live]⟩

-- `c139_reopen_violated` for the data set `a`
example : Plain [97] ∧ demoDisk ([97] ++ [47]) = some (.uv 5) := by simp [Plain, demoDisk]

-- the name "é" in UTF-8: bytes -61 and -87
example : step (fresh false 0 demoDisk) (.open [-61, -87] .old) = .undefined :=
  c139_name_violated false demoDisk [-61, -87] .old (by simp) (by simp) (by norm_num) (by norm_num)

end Verif.Mir.Handles
