import Mathlib.Data.List.Basic
import Mathlib.Data.List.Range
import Mathlib.Tactic.Ring
import Mathlib.Tactic.Linarith
import Mathlib.Tactic.NormNum
import Verif.Img.GridProps

/-!
# Property C138 : the compiled functions and views of arrays

A numpy array need not be contiguous: a column of a table, every other element of an array, a reversed or a transposed
array are views with strides.  The wrapper of Miriad (aipy/_miriad/miriad_wrap.cpp) and the gridding functions
(aipy/_dsp/dsp.c) read most of their arguments from the address of the first element onwards.
-/

set_option linter.unusedVariables false

namespace Verif.Mir.Views

/-! ## Arrays -/

/-- the types of arrays that matter here -/
inductive DT | f32 | f64 | c64 | c128 | i32 | i64
  deriving DecidableEq

/-- the number of 32-bit words of an item -/
def DT.words : DT → ℕ
  | .f32 => 1 | .f64 => 2 | .c64 => 2 | .c128 => 4 | .i32 => 1 | .i64 => 2

/-- an array with one axis: a memory of 32-bit words (`α`), where it starts, the distance of its elements, its length.
Simplified: types of less than 32 bits and strides that are not multiples of 32 bits are left out. -/
structure Arr (α : Type) where
  dt : DT
  mem : ℤ → α
  off : ℤ
  stride : ℤ
  len : ℕ

variable {α : Type}

/-- `IND1(a,i,type)`, miriad_wrap.h 25 (`PyArray_DATA(a) + i*PyArray_STRIDES(a)[0]`) -/
def ind1 (a : Arr α) (i : ℕ) : List α := (List.range a.dt.words).map fun (j : ℕ) => a.mem (a.off + i * a.stride + j)

/-- the first `n` words that C code finds at `PyArray_DATA(a)` -/
def flat (a : Arr α) (n : ℕ) : List α := (List.range n).map fun (j : ℕ) => a.mem (a.off + j)

/-! ## Variables -/

/-- the types of variables that hold numbers (`j`, 16 bits, is left out) -/
inductive VT | i | r | d | c
  deriving DecidableEq

/-- the type that an array must have, miriad_wrap.cpp 341-354 -/
def VT.needs : VT → DT
  | .i => .i64 | .r => .f32 | .d => .f64 | .c => .c128

/-- the number of 32-bit words that `uvputvr_c` takes for each number: those of `H_INT`, `H_REAL`, `H_DBLE`, `H_CMPLX` -/
def VT.takes : VT → ℕ
  | .i => 1 | .r => 1 | .d => 2 | .c => 2

/-- `_wrvr(name, type, array)`, miriad_wrap.cpp 311-313, 321-355: the words handed to `uvputvr_c`; `none` is the ValueError -/
def wrvr (t : VT) (a : Arr α) : Option (List α) := if a.dt = t.needs then some (flat a (a.len * t.takes)) else none

/-! ## Visibilities -/

/-- what `uvwrite_c` gets: u, v, w, the words of the data and of the flags -/
structure Sent (α : Type) where
  uvw : List (List α)
  data : List α
  flags : List α

/-- the test of the type of the flags, miriad_wrap.cpp 164-165; `same` is `sizeof(int) == sizeof(long)` -/
def flagsRefused (same : Bool) (t : DT) : Bool := t != .i32 && (same && t != .i64)

/-- `raw_write`, miriad_wrap.cpp 145-183; `none` is the ValueError -/
def rawWrite (same : Bool) (uvw data flags : Arr α) : Option (Sent α) :=
  if uvw.len ≠ 3 then none
  else if data.len ≠ flags.len then none
  else if uvw.dt ≠ .f64 then none
  else if data.dt ≠ .c64 then none
  else if flagsRefused same flags.dt then none
  else some ⟨[ind1 uvw 0, ind1 uvw 1, ind1 uvw 2], flat data (data.len * 2), flat flags flags.len⟩

/-- `a.astype(t)`: a new contiguous array; `conv` converts an item.  The memory around it is arbitrary (`rest`). -/
def astype (t : DT) (conv : List α → List α) (rest : ℤ → α) (a : Arr α) : Arr α :=
  ⟨t, fun p => if 0 ≤ p then (((List.range a.len).flatMap fun i => conv (ind1 a i))[p.toNat]?).getD (rest p) else rest p, 0, t.words, a.len⟩

/-- the end of `UV.write`, miriad.py 242 -/
def write (same : Bool) (toC toI : List α → List α) (rest : ℤ → α) (uvw data flags : Arr α) : Option (Sent α) :=
  rawWrite same uvw (astype .c64 toC rest data) (astype .i32 toI rest flags)

/-! ## Gridding -/

/-- an array with one axis whose items are numbers -/
structure Vec (β : Type) where
  mem : ℕ → β
  off : ℕ
  stride : ℕ
  len : ℕ

/-- a matrix of complex numbers; element (i, j) is at `i * s1 + j * s2` -/
structure Mat where
  mem : ℕ → ℂ
  rows : ℕ
  cols : ℕ
  s1 : ℕ
  s2 : ℕ

/-- the samples as `grid2D_c` reads them, grid.c 45-48 -/
def samples (u v : Vec ℝ) (d : Vec ℂ) : List ((ℝ × ℝ) × ℂ) :=
  (List.range d.len).map fun i => ((u.mem (u.off + i), v.mem (v.off + i)), d.mem (d.off + i))

/-- `grid2D_c(buf, ind1, ind2, dat, footprint)`, dsp.c 42-80: `none` is the ValueError or a write outside of the matrix; `h` is
`footprint/2` -/
noncomputable def gridCall (h : ℕ) (b : Mat) (u v : Vec ℝ) (d : Vec ℂ) : Option Mat :=
  if u.len ≠ d.len ∨ v.len ≠ d.len then none
  else (Img.grid2D b.rows b.cols h b.mem (samples u v d)).map fun m => { b with mem := m }

/-! ## Specification -/

/-- the numbers that numpy shows, as words -/
def shown (a : Arr α) : List α :=
  (List.range a.len).flatMap fun (k : ℕ) => (List.range a.dt.words).map fun (j : ℕ) => a.mem (a.off + a.stride * k + j)

/-- an element of a vector -/
def Vec.get {β : Type} (a : Vec β) (k : ℕ) : β := a.mem (a.off + a.stride * k)

/-- an element of a matrix -/
def Mat.get (b : Mat) (i j : ℕ) : ℂ := b.mem (i * b.s1 + j * b.s2)

/-! ## Lemmas -/

theorem flatMap_range {β : Type} (f : ℕ → ℕ → β) (w : ℕ) (hw : 0 < w) : ∀ n : ℕ,
    ((List.range n).flatMap fun k => (List.range w).map (f k)) = (List.range (n * w)).map fun p => f (p / w) (p % w)
  | 0 => by simp
  | n + 1 => by
    rw [List.range_succ, List.flatMap_append, flatMap_range f w hw n, Nat.succ_mul, List.range_add, List.map_append]
    congr 1
    simp only [List.flatMap_cons, List.flatMap_nil, List.append_nil, List.map_map]
    refine List.map_congr_left fun j hj => ?_
    have hj' := List.mem_range.1 hj
    simp only [Function.comp]
    rw [Nat.mul_comm n w, Nat.mul_add_div hw, Nat.div_eq_of_lt hj', Nat.mul_add_mod, Nat.mod_eq_of_lt hj', Nat.add_zero]

theorem words_pos (t : DT) : 0 < t.words := by cases t <;> decide

theorem shown_eq (a : Arr α) : shown a = (List.range (a.len * a.dt.words)).map fun (p : ℕ) =>
    a.mem (a.off + a.stride * (p / a.dt.words : ℕ) + (p % a.dt.words : ℕ)) := by
  unfold shown
  rw [flatMap_range (fun (k j : ℕ) => a.mem (a.off + a.stride * k + j)) _ (words_pos _)]

theorem shown_flat (a : Arr α) (h : a.stride = a.dt.words ∨ a.len ≤ 1) : shown a = flat a (a.len * a.dt.words) := by
  rw [shown_eq, flat]
  refine List.map_congr_left fun p hp => ?_
  congr 1
  have hp' := List.mem_range.1 hp
  have hw := words_pos a.dt
  rcases h with h | h
  · rw [h, add_assoc]
    congr 1
    exact_mod_cast Nat.div_add_mod p a.dt.words
  · have : p < a.dt.words := lt_of_lt_of_le hp' (by nlinarith)
    rw [Nat.div_eq_of_lt this, Nat.mod_eq_of_lt this]
    simp

theorem shown_items (a : Arr α) : shown a = (List.range a.len).flatMap (ind1 a) := by
  unfold shown ind1
  simp only [mul_comm]

/-! ## Variables -/

/-- the numbers of a variable fill their items -/
theorem takes_words (t : VT) (ht : t = .r ∨ t = .d) : t.takes = t.needs.words := by rcases ht with rfl | rfl <;> rfl

/-- **C138**: an array of single or double precision numbers is written as numpy shows it if it is contiguous (or has one number) -/
theorem c138_variable_partial (t : VT) (ht : t = .r ∨ t = .d) (a : Arr α) (hd : a.dt = t.needs)
    (h : a.stride = a.dt.words ∨ a.len ≤ 1) : wrvr t a = some (shown a) := by
  rw [wrvr, if_pos hd, shown_flat a h, takes_words t ht, hd]

example : wrvr .d (⟨.f64, fun p => p, 10, 2, 3⟩ : Arr ℤ) = some [10, 11, 12, 13, 14, 15] := by decide

/-- **C138, disagreement**: these are the only arrays for which the right numbers are written whatever the memory holds -/
theorem c138_variable_violated [Nontrivial α] (t : VT) (ht : t = .r ∨ t = .d) (off stride : ℤ) (len : ℕ) :
    (∀ mem : ℤ → α, wrvr t ⟨t.needs, mem, off, stride, len⟩ = some (shown ⟨t.needs, mem, off, stride, len⟩)) ↔
      stride = t.needs.words ∨ len ≤ 1 := by
  refine ⟨fun h => ?_, fun h mem => c138_variable_partial t ht _ rfl h⟩
  by_contra hc
  push Not at hc
  obtain ⟨h1, h2⟩ := hc
  obtain ⟨x, y, hxy⟩ := exists_pair_ne α
  classical
  have := h fun p => if p = off + stride then x else y
  rw [wrvr, if_pos rfl, shown_eq, flat, takes_words t ht] at this
  have hw := words_pos t.needs
  have hlt : t.needs.words < len * t.needs.words := by nlinarith
  have e := congrArg (fun l : List α => l[t.needs.words]?) (Option.some.inj this)
  simp only [List.getElem?_map, List.getElem?_range hlt, Option.map_some, Nat.div_self hw, Nat.mod_self] at e
  rw [if_neg (by omega), if_pos (by push_cast; ring)] at e
  exact hxy (Option.some.inj e).symm

/-- **C138, disagreement**: of column `j` of a table with `c` columns, the numbers written are those of the table read row by row from the
first number of the column on (`n` of them, as many as there are rows) -/
theorem c138_column_violated (t : VT) (ht : t = .r ∨ t = .d) (table : ℕ → ℕ → List α) (hs : ∀ i k, (table i k).length = t.needs.words)
    (off : ℤ) (n c j : ℕ) (hj : j < c) (mem : ℤ → α)
    (hm : ∀ i k, k < c → ∀ q < t.needs.words, (table i k)[q]? = some (mem (off + ((i * c + k) * t.needs.words + q : ℕ)))) :
    shown ⟨t.needs, mem, off + (j * t.needs.words : ℕ), (c * t.needs.words : ℕ), n⟩ = ((List.range n).flatMap fun i => table i j) ∧
    wrvr t ⟨t.needs, mem, off + (j * t.needs.words : ℕ), (c * t.needs.words : ℕ), n⟩ =
      some ((List.range n).flatMap fun k => table ((j + k) / c) ((j + k) % c)) := by
  have hc : 0 < c := by omega
  have hrow : ∀ i k, k < c → table i k = (List.range t.needs.words).map fun q => mem (off + ((i * c + k) * t.needs.words + q : ℕ)) := by
    intro i k hk
    refine List.ext_getElem? fun q => ?_
    by_cases hq : q < t.needs.words
    · rw [hm i k hk q hq]; simp [List.getElem?_range hq]
    · rw [List.getElem?_eq_none (by rw [hs]; omega), List.getElem?_eq_none (by simp; omega)]
  constructor
  · unfold shown
    refine List.flatMap_congr fun i _ => ?_
    rw [hrow i j hj]
    refine List.map_congr_left fun q _ => congrArg mem ?_
    push_cast; ring
  · rw [wrvr, if_pos rfl, flat, takes_words t ht]
    congr 1
    rw [show ((List.range n).flatMap fun k => table ((j + k) / c) ((j + k) % c)) = (List.range n).flatMap fun k =>
      (List.range t.needs.words).map fun q => mem (off + (((j + k) / c * c + (j + k) % c) * t.needs.words + q : ℕ)) from
        List.flatMap_congr fun k _ => hrow _ _ (Nat.mod_lt _ hc),
      flatMap_range (fun k q => mem (off + (((j + k) / c * c + (j + k) % c) * t.needs.words + q : ℕ))) _ (words_pos _)]
    refine List.map_congr_left fun p _ => congrArg mem ?_
    rw [Nat.div_add_mod']
    have e := Nat.div_add_mod p t.needs.words
    rw [Nat.mul_comm] at e
    have : (j + p / t.needs.words) * t.needs.words + p % t.needs.words = j * t.needs.words + p := by
      rw [Nat.add_mul]; omega
    rw [this]; push_cast; ring

/-- column 0 of `[[1, 2], [3, 4], [5, 6]]`: 1, 3, 5 is shown, and 1, 2, 3 is written -/
example : shown (⟨.f32, fun p => p, 1, 2, 3⟩ : Arr ℤ) = [1, 3, 5] ∧ wrvr .r (⟨.f32, fun p => p, 1, 2, 3⟩ : Arr ℤ) = some [1, 2, 3] := by decide

/-! ## Visibilities -/

/-- **C138**: `raw_write` sends what numpy shows if data and flags are contiguous and the flags are 32-bit integers; u, v, w may be any view -/
theorem c138_raw_partial (same : Bool) (uvw data flags : Arr α) (h3 : uvw.len = 3) (hn : data.len = flags.len) (hu : uvw.dt = .f64) (hd : data.dt = .c64)
    (hf : flags.dt = .i32) (hcd : data.stride = 2) (hcf : flags.stride = 1) :
    ∃ s, rawWrite same uvw data flags = some s ∧ s.uvw.flatten = shown uvw ∧ s.data = shown data ∧ s.flags = shown flags := by
  refine ⟨⟨[ind1 uvw 0, ind1 uvw 1, ind1 uvw 2], flat data (data.len * 2), flat flags flags.len⟩, ?_, ?_, ?_, ?_⟩
  · simp [rawWrite, h3, hn, hu, hd, hf, flagsRefused]
  · rw [shown_items, h3]; rfl
  · rw [shown_flat data (Or.inl (by rw [hcd, hd]; rfl)), hd]; rfl
  · rw [shown_flat flags (Or.inl (by rw [hcf, hf]; rfl)), hf]; simp [DT.words]

example : ∃ s, rawWrite false (⟨.f64, fun p => p, 104, -2, 3⟩ : Arr ℤ) ⟨.c64, fun p => p, 10, 2, 2⟩ ⟨.i32, fun p => p, 20, 1, 2⟩ = some s ∧
    s.uvw = [[104, 105], [102, 103], [100, 101]] ∧ s.data = [10, 11, 12, 13] ∧ s.flags = [20, 21] := ⟨_, rfl, by decide, by decide, by decide⟩

/-- **C138, disagreement**: where `long` is longer than `int` no type of flags is refused -/
theorem c138_flags_accepted_violated (t : DT) : flagsRefused false t = false := by cases t <;> rfl

/-- **C138, disagreement**: of 64-bit flags (low words first) every other sample gets the flag of the sample at half its number, the
others get 0 (which is 'bad') -/
theorem c138_flags_violated [Zero α] (uvw data flags : Arr α) (h3 : uvw.len = 3) (hn : data.len = flags.len) (hu : uvw.dt = .f64) (hd : data.dt = .c64)
    (hf : flags.dt = .i64) (hcf : flags.stride = 2) (f : ℕ → α) (hw : ∀ k < flags.len, ind1 flags k = [f k, 0]) :
    ∃ s, rawWrite false uvw data flags = some s ∧ s.flags.length = flags.len ∧
      ∀ k < flags.len, s.flags[k]? = some (if k % 2 = 0 then f (k / 2) else 0) := by
  refine ⟨⟨[ind1 uvw 0, ind1 uvw 1, ind1 uvw 2], flat data (data.len * 2), flat flags flags.len⟩, ?_, ?_, ?_⟩
  · simp [rawWrite, h3, hn, hu, hd, flagsRefused]
  · simp [flat]
  · intro k hk
    have h := hw (k / 2) (lt_of_le_of_lt (Nat.div_le_self _ _) hk)
    simp only [ind1, hf, DT.words, hcf] at h
    simp only [List.range_succ, List.range_zero, List.nil_append, List.map_cons, List.map_nil, List.cons_append, List.cons.injEq, and_true] at h
    simp only [flat, List.getElem?_map, List.getElem?_range hk, Option.map_some]
    rcases Nat.even_or_odd' k with ⟨m, rfl | rfl⟩
    · have e : 2 * m / 2 = m := by omega
      rw [e] at h
      rw [if_pos (by omega), e, ← h.1]
      congr 2; push_cast; ring
    · have e : (2 * m + 1) / 2 = m := by omega
      rw [e] at h
      rw [if_neg (by omega), ← h.2]
      congr 2; push_cast; ring

/-- four good samples (1) as 64-bit integers: the second and the fourth are written as bad -/
example : ∃ s, rawWrite false (⟨.f64, fun p => p, 0, 2, 3⟩ : Arr ℤ) ⟨.c64, fun p => p, 0, 2, 4⟩ ⟨.i64, fun p => if p % 2 = 0 then 1 else 0, 0, 2, 4⟩ = some s ∧
    s.flags = [1, 0, 1, 0] ∧ ∀ k < 4, ind1 (⟨.i64, fun p => if p % 2 = 0 then 1 else 0, 0, 2, 4⟩ : Arr ℤ) k = [1, 0] := ⟨_, rfl, by decide, by decide⟩

theorem astype_shown (t : DT) (conv : List α → List α) (hc : ∀ l, (conv l).length = t.words) (rest : ℤ → α) (a : Arr α) :
    shown (astype t conv rest a) = (List.range a.len).flatMap fun i => conv (ind1 a i) := by
  have hlen : ((List.range a.len).flatMap fun i => conv (ind1 a i)).length = a.len * t.words := by
    rw [List.length_flatMap]
    simp [hc]
  rw [shown_flat _ (Or.inl rfl)]
  refine List.ext_getElem? fun p => ?_
  simp only [flat, astype]
  by_cases hp : p < a.len * t.words
  · rw [List.getElem?_map, List.getElem?_range hp, Option.map_some, if_pos (by omega)]
    have : (0 + (p : ℤ)).toNat = p := by omega
    rw [this, List.getElem?_eq_getElem (by omega)]
    rfl
  · rw [List.getElem?_eq_none (by simp; omega), List.getElem?_eq_none (by omega)]

/-- **C138**: `UV.write` sends what numpy shows, converted item by item, whatever the views and the types -/
theorem c138_write (same : Bool) (toC toI : List α → List α) (hC : ∀ l, (toC l).length = 2) (hI : ∀ l, (toI l).length = 1) (rest : ℤ → α)
    (uvw data flags : Arr α) (h3 : uvw.len = 3) (hn : data.len = flags.len) (hu : uvw.dt = .f64) :
    ∃ s, write same toC toI rest uvw data flags = some s ∧ s.uvw.flatten = shown uvw ∧
      s.data = ((List.range data.len).flatMap fun i => toC (ind1 data i)) ∧ s.flags = (List.range data.len).flatMap fun i => toI (ind1 flags i) := by
  obtain ⟨s, h, e1, e2, e3⟩ := c138_raw_partial same uvw (astype .c64 toC rest data) (astype .i32 toI rest flags) h3 hn hu rfl rfl rfl rfl
  refine ⟨s, h, e1, ?_, ?_⟩
  · rw [e2, astype_shown .c64 toC hC]
  · rw [e3, astype_shown .i32 toI hI, hn]

/-- every other sample of an array of four, with 64-bit flags -/
example : ∃ s, write false (fun l => [l.getD 0 0, l.getD 1 0]) (fun l => [l.getD 0 0]) (fun _ => 99) (⟨.f64, fun p => p, 0, 2, 3⟩ : Arr ℤ)
    ⟨.c64, fun p => p, 0, 4, 2⟩ ⟨.i64, fun p => p, 50, 2, 2⟩ = some s ∧ s.data = [0, 1, 4, 5] ∧ s.flags = [50, 52] := ⟨_, rfl, by decide, by decide⟩

/-! ## Gridding -/

theorem samples_contiguous (u v : Vec ℝ) (d : Vec ℂ) (hu : u.stride = 1) (hv : v.stride = 1) (hd : d.stride = 1) :
    samples u v d = (List.range d.len).map fun i => ((u.get i, v.get i), d.get i) := by
  simp [samples, Vec.get, hu, hv, hd]

/-- **C138**: with contiguous arguments and a square matrix, each element of the matrix gets what the samples shown give it -/
theorem c138_grid_partial (n h : ℕ) (hn : n ≠ 0) (b : Mat) (hr : b.rows = n) (hc : b.cols = n) (h1 : b.s1 = n) (h2 : b.s2 = 1) (u v : Vec ℝ) (d : Vec ℂ)
    (hl : u.len = d.len ∧ v.len = d.len) (hu : u.stride = 1) (hv : v.stride = 1) (hd : d.stride = 1) :
    ∃ b', gridCall h b u v d = some b' ∧ ∀ i j, i < n → j < n →
      b'.get i j = b.get i j + Img.deposit n n h ((List.range d.len).map fun i => ((u.get i, v.get i), d.get i)) i j := by
  obtain ⟨m, e, hm, -⟩ := Img.c28_square_partial n h hn (samples u v d) b.mem
  refine ⟨{ b with mem := m }, ?_, fun i j hi hj => ?_⟩
  · simp [gridCall, hl, hr, hc, e]
  · rw [← samples_contiguous u v d hu hv hd]
    simpa [Mat.get, h1, h2] using hm i j hi hj

/-- **C138, disagreement**: into a transposed matrix (`m.T`) the samples are put with rows and columns exchanged -/
theorem c138_grid_violated (n h : ℕ) (hn : n ≠ 0) (b : Mat) (hr : b.rows = n) (hc : b.cols = n) (h1 : b.s1 = 1) (h2 : b.s2 = n) (u v : Vec ℝ) (d : Vec ℂ)
    (hl : u.len = d.len ∧ v.len = d.len) (hu : u.stride = 1) (hv : v.stride = 1) (hd : d.stride = 1) :
    ∃ b', gridCall h b u v d = some b' ∧ ∀ i j, i < n → j < n →
      b'.get i j = b.get i j + Img.deposit n n h ((List.range d.len).map fun i => ((u.get i, v.get i), d.get i)) j i := by
  obtain ⟨m, e, hm, -⟩ := Img.c28_square_partial n h hn (samples u v d) b.mem
  refine ⟨{ b with mem := m }, ?_, fun i j hi hj => ?_⟩
  · simp [gridCall, hl, hr, hc, e]
  · rw [← samples_contiguous u v d hu hv hd]
    simpa [Mat.get, h1, h2, Nat.add_comm] using hm j i hj hi

/-- a sample at (1, 0) of a matrix of two by two: element (1, 0) should get it, and (0, 1) does -/
example : ∃ b', gridCall 0 ⟨fun _ => 0, 2, 2, 1, 2⟩ ⟨fun _ => ((1 : ℤ) : ℝ), 0, 1, 1⟩ ⟨fun _ => ((0 : ℤ) : ℝ), 0, 1, 1⟩ ⟨fun _ => 1, 0, 1, 1⟩ = some b' ∧
    b'.get 0 1 = (Img.wgt 0 0 : ℂ) ∧ b'.get 1 0 = 0 := by
  obtain ⟨b', e, h⟩ := c138_grid_violated 2 0 (by decide) ⟨fun _ => 0, 2, 2, 1, 2⟩ rfl rfl rfl rfl ⟨fun _ => ((1 : ℤ) : ℝ), 0, 1, 1⟩
    ⟨fun _ => ((0 : ℤ) : ℝ), 0, 1, 1⟩ ⟨fun _ => 1, 0, 1, 1⟩ ⟨rfl, rfl⟩ rfl rfl rfl
  refine ⟨b', e, ?_, ?_⟩
  · rw [h 0 1 (by decide) (by decide)]
    simp only [Vec.get, Mat.get, List.range_succ, List.range_zero, List.nil_append, List.map_cons, List.map_nil, Img.deposit, List.sum_cons, List.sum_nil,
      Img.deposit1, Img.around_int, Finset.sum_singleton]
    norm_num
  · rw [h 1 0 (by decide) (by decide)]
    simp only [Vec.get, Mat.get, List.range_succ, List.range_zero, List.nil_append, List.map_cons, List.map_nil, Img.deposit, List.sum_cons, List.sum_nil,
      Img.deposit1, Img.around_int, Finset.sum_singleton]
    norm_num

/-- **C138, disagreement**: if the coordinates are the columns of a table of pairs (`uv[:,0]`, `uv[:,1]`), the second sample is put at
(v of the first, u of the second) -/
theorem c138_grid_columns_violated (n h : ℕ) (hn : n ≠ 0) (b : Mat) (hr : b.rows = n) (hc : b.cols = n) (h1 : b.s1 = n) (h2 : b.s2 = 1) (pairs : ℕ → ℝ)
    (u v : Vec ℝ) (hu : u = ⟨pairs, 0, 2, 2⟩) (hv : v = ⟨pairs, 1, 2, 2⟩) (d : Vec ℂ) (hd : d.stride = 1) (hl : d.len = 2) :
    ∃ b', gridCall h b u v d = some b' ∧ ∀ i j, i < n → j < n →
      b'.get i j = b.get i j + Img.deposit n n h [((u.get 0, v.get 0), d.get 0), ((v.get 0, u.get 1), d.get 1)] i j := by
  obtain ⟨m, e, hm, -⟩ := Img.c28_square_partial n h hn (samples u v d) b.mem
  refine ⟨{ b with mem := m }, ?_, fun i j hi hj => ?_⟩
  · simp [gridCall, hu, hv, hl, hr, hc]
    simpa [hu, hv] using e
  · have : samples u v d = [((u.get 0, v.get 0), d.get 0), ((v.get 0, u.get 1), d.get 1)] := by
      subst hu hv
      simp [samples, Vec.get, hl, hd, List.range_succ]
    rw [← this]
    simpa [Mat.get, h1, h2] using hm i j hi hj

end Verif.Mir.Views
