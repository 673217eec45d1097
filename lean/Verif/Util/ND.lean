/-!
# numpy arrays: shape, broadcasting, squeeze, reshape

An array is a shape and a function of index lists; only indices inside the shape matter.  Operations follow the rules of
numpy (broadcasting aligns shapes at the right; an axis of length one is stretched).  `none` is the `ValueError` of shapes
that do not fit.
-/
namespace Verif.ND

structure Arr (α : Type) where
  shape : List Nat
  get : List Nat → α

/-- broadcast shape, from the last axis on -/
def bshapeR : List Nat → List Nat → Option (List Nat)
  | [], y => some y
  | x, [] => some x
  | a :: x, b :: y =>
    match bshapeR x y with
    | none => none
    | some r => if a = b ∨ b = 1 then some (a :: r) else if a = 1 then some (b :: r) else none

/-- the index into an operand of the given shape (both from the last axis on) -/
def pickR : List Nat → List Nat → List Nat
  | n :: s, i :: is => (if n = 1 then 0 else i) :: pickR s is
  | _, _ => []

def bshape (x y : List Nat) : Option (List Nat) := (bshapeR x.reverse y.reverse).map List.reverse

def pick (s i : List Nat) : List Nat := (pickR s.reverse i.reverse).reverse

variable {α β γ : Type}

/-- a function applied to every element -/
def Arr.map (f : α → β) (x : Arr α) : Arr β := ⟨x.shape, fun i => f (x.get i)⟩

/-- an elementwise operation of two arrays -/
def map2 (f : α → β → γ) (x : Arr α) (y : Arr β) : Option (Arr γ) :=
  (bshape x.shape y.shape).map fun s => ⟨s, fun i => f (x.get (pick x.shape i)) (y.get (pick y.shape i))⟩

/-- an operation in place (`x *= y`): the result must have the shape of the first -/
def inplace (f : α → β → α) (x : Arr α) (y : Arr β) : Option (Arr α) :=
  if bshape x.shape y.shape = some x.shape then some ⟨x.shape, fun i => f (x.get i) (y.get (pick y.shape i))⟩ else none

/-- a number -/
def scalar (a : α) : Arr α := ⟨[], fun _ => a⟩

/-- `squeeze`: axes of length one are removed -/
def expand : List Nat → List Nat → List Nat
  | [], _ => []
  | n :: s, is => if n = 1 then 0 :: expand s is else
    match is with
    | [] => []
    | i :: is => i :: expand s is

def Arr.squeeze (x : Arr α) : Arr α := ⟨x.shape.filter (· ≠ 1), fun i => x.get (expand x.shape i)⟩

def size (s : List Nat) : Nat := s.foldr (· * ·) 1

/-- position of an element in memory (C order) -/
def flat : List Nat → List Nat → Nat
  | _ :: s, i :: is => i * size s + flat s is
  | _, _ => 0

/-- the index of an element from its position -/
def unflat : List Nat → Nat → List Nat
  | [], _ => []
  | _ :: s, k => k / size s :: unflat s (k % size s)

/-- assignment to `shape` -/
def Arr.reshape (x : Arr α) (s : List Nat) : Option (Arr α) :=
  if size s = size x.shape then some ⟨s, fun i => x.get (unflat x.shape (flat s i))⟩ else none

/-- the positions a condition selects -/
def kept (c : List Bool) : List Nat := (List.range c.length).filter fun k => c.getD k false

/-- `compress` of a condition along the first axis; a true value beyond the end raises -/
def Arr.compress (x : Arr α) (c : List Bool) : Option (Arr α) :=
  match x.shape with
  | [] => none
  | n :: s =>
    if (kept c).all (· < n) then
      some ⟨(kept c).length :: s, fun i => match i with
        | [] => x.get []
        | k :: is => x.get ((kept c).getD k 0 :: is)⟩
    else none

/-! ## Arrays of one and two axes -/

/-- a matrix -/
structure IsMat (x : Arr α) (m n : Nat) (F : Nat → Nat → α) : Prop where
  shape : x.shape = [m, n]
  get : ∀ k c, k < m → c < n → x.get [k, c] = F k c

/-- a vector -/
structure IsVec (x : Arr α) (n : Nat) (F : Nat → α) : Prop where
  shape : x.shape = [n]
  get : ∀ c, c < n → x.get [c] = F c

theorem IsMat.map {x : Arr α} {m n : Nat} {F : Nat → Nat → α} (h : IsMat x m n F) (f : α → β) :
    IsMat (x.map f) m n (fun k c => f (F k c)) :=
  ⟨h.shape, fun k c hk hc => congrArg f (h.get k c hk hc)⟩

theorem pick2 (m n k c : Nat) : pick [m, n] [k, c] = [if m = 1 then 0 else k, if n = 1 then 0 else c] := rfl

theorem pick1 (n k c : Nat) : pick [n] [k, c] = [if n = 1 then 0 else c] := rfl

theorem pick0 (i : List Nat) : pick [] i = [] := by
  unfold pick
  cases i.reverse <;> rfl

theorem inside {n c : Nat} (h : c < n) : (if n = 1 then 0 else c) = c := by
  split <;> omega

theorem bshape_same (m n : Nat) : bshape [m, n] [m, n] = some [m, n] := by
  simp [bshape, bshapeR]

/-- matrices of one shape -/
theorem mat_mat {x : Arr α} {y : Arr β} {m n : Nat} {F : Nat → Nat → α} {G : Nat → Nat → β} (f : α → β → γ)
    (hx : IsMat x m n F) (hy : IsMat y m n G) :
    ∃ z, map2 f x y = some z ∧ IsMat z m n (fun k c => f (F k c) (G k c)) := by
  unfold map2
  rw [hx.shape, hy.shape, bshape_same]
  refine ⟨_, rfl, rfl, ?_⟩
  intro k c hk hc
  show f (x.get (pick [m, n] [k, c])) (y.get (pick [m, n] [k, c])) = _
  rw [pick2, inside hk, inside hc, hx.get k c hk hc, hy.get k c hk hc]

theorem bshape_col (m n : Nat) : bshape [m, 1] [m, n] = some [m, n] ∧ bshape [m, n] [m, 1] = some [m, n] := by
  by_cases h : n = 1
  · subst h; exact ⟨bshape_same m 1, bshape_same m 1⟩
  · simp [bshape, bshapeR, Ne.symm h, h]

/-- a column and a matrix -/
theorem col_mat {x : Arr α} {y : Arr β} {m n : Nat} {F : Nat → α} {G : Nat → Nat → β} (f : α → β → γ)
    (hx : IsMat x m 1 (fun k _ => F k)) (hy : IsMat y m n G) :
    ∃ z, map2 f x y = some z ∧ IsMat z m n (fun k c => f (F k) (G k c)) := by
  unfold map2
  rw [hx.shape, hy.shape, (bshape_col m n).1]
  refine ⟨_, rfl, rfl, ?_⟩
  intro k c hk hc
  show f (x.get (pick [m, 1] [k, c])) (y.get (pick [m, n] [k, c])) = _
  rw [pick2, pick2, inside hk, inside hc, if_pos rfl, hx.get k 0 hk (by omega), hy.get k c hk hc]

theorem mat_col {x : Arr α} {y : Arr β} {m n : Nat} {F : Nat → Nat → α} {G : Nat → β} (f : α → β → γ)
    (hx : IsMat x m n F) (hy : IsMat y m 1 (fun k _ => G k)) :
    ∃ z, map2 f x y = some z ∧ IsMat z m n (fun k c => f (F k c) (G k)) := by
  unfold map2
  rw [hx.shape, hy.shape, (bshape_col m n).2]
  refine ⟨_, rfl, rfl, ?_⟩
  intro k c hk hc
  show f (x.get (pick [m, n] [k, c])) (y.get (pick [m, 1] [k, c])) = _
  rw [pick2, pick2, inside hk, inside hc, if_pos rfl, hy.get k 0 hk (by omega), hx.get k c hk hc]

theorem bshape_row (m n : Nat) : bshape [1, n] [m, n] = some [m, n] ∧ bshape [m, n] [1, n] = some [m, n] := by
  by_cases h : m = 1
  · subst h; exact ⟨bshape_same 1 n, bshape_same 1 n⟩
  · simp [bshape, bshapeR, Ne.symm h, h]

/-- a row and a matrix -/
theorem row_mat {x : Arr α} {y : Arr β} {m n : Nat} {F : Nat → α} {G : Nat → Nat → β} (f : α → β → γ)
    (hx : IsMat x 1 n (fun _ c => F c)) (hy : IsMat y m n G) :
    ∃ z, map2 f x y = some z ∧ IsMat z m n (fun k c => f (F c) (G k c)) := by
  unfold map2
  rw [hx.shape, hy.shape, (bshape_row m n).1]
  refine ⟨_, rfl, rfl, ?_⟩
  intro k c hk hc
  show f (x.get (pick [1, n] [k, c])) (y.get (pick [m, n] [k, c])) = _
  rw [pick2, pick2, inside hk, inside hc, if_pos rfl, hx.get 0 c (by omega) hc, hy.get k c hk hc]

theorem mat_row {x : Arr α} {y : Arr β} {m n : Nat} {F : Nat → Nat → α} {G : Nat → β} (f : α → β → γ)
    (hx : IsMat x m n F) (hy : IsMat y 1 n (fun _ c => G c)) :
    ∃ z, map2 f x y = some z ∧ IsMat z m n (fun k c => f (F k c) (G c)) := by
  unfold map2
  rw [hx.shape, hy.shape, (bshape_row m n).2]
  refine ⟨_, rfl, rfl, ?_⟩
  intro k c hk hc
  show f (x.get (pick [m, n] [k, c])) (y.get (pick [1, n] [k, c])) = _
  rw [pick2, pick2, inside hk, inside hc, if_pos rfl, hy.get 0 c (by omega) hc, hx.get k c hk hc]

theorem bshape_vec (m n : Nat) : bshape [m, n] [n] = some [m, n] := by
  simp [bshape, bshapeR]

/-- a matrix and a vector along its rows -/
theorem mat_vec {x : Arr α} {y : Arr β} {m n : Nat} {F : Nat → Nat → α} {G : Nat → β} (f : α → β → γ)
    (hx : IsMat x m n F) (hy : IsVec y n G) :
    ∃ z, map2 f x y = some z ∧ IsMat z m n (fun k c => f (F k c) (G c)) := by
  unfold map2
  rw [hx.shape, hy.shape, bshape_vec]
  refine ⟨_, rfl, rfl, ?_⟩
  intro k c hk hc
  show f (x.get (pick [m, n] [k, c])) (y.get (pick [n] [k, c])) = _
  rw [pick2, pick1, inside hk, inside hc, hx.get k c hk hc, hy.get c hc]

theorem bshape_nil (s : List Nat) : bshape [] s = some s ∧ bshape s [] = some s := by
  constructor
  · simp [bshape, bshapeR]
  · unfold bshape
    cases h : s.reverse with
    | nil => have : s = [] := by simpa using h
             subst this; rfl
    | cons a l =>
      rw [List.reverse_nil]
      simp only [bshapeR, Option.map_some, Option.some.injEq]
      rw [← h, List.reverse_reverse]

/-- a number and a matrix -/
theorem num_mat {a : α} {y : Arr β} {m n : Nat} {G : Nat → Nat → β} (f : α → β → γ) (hy : IsMat y m n G) :
    ∃ z, map2 f (scalar a) y = some z ∧ IsMat z m n (fun k c => f a (G k c)) := by
  unfold map2 scalar
  rw [hy.shape, (bshape_nil _).1]
  refine ⟨_, rfl, rfl, ?_⟩
  intro k c hk hc
  show f a (y.get (pick [m, n] [k, c])) = _
  rw [pick2, inside hk, inside hc, hy.get k c hk hc]

theorem mat_num {x : Arr α} {b : β} {m n : Nat} {F : Nat → Nat → α} (f : α → β → γ) (hx : IsMat x m n F) :
    ∃ z, map2 f x (scalar b) = some z ∧ IsMat z m n (fun k c => f (F k c) b) := by
  unfold map2 scalar
  rw [hx.shape, (bshape_nil _).2]
  refine ⟨_, rfl, rfl, ?_⟩
  intro k c hk hc
  show f (x.get (pick [m, n] [k, c])) b = _
  rw [pick2, inside hk, inside hc, hx.get k c hk hc]

/-- in place, both of one shape -/
theorem inplace_mat {x : Arr α} {y : Arr β} {m n : Nat} {F : Nat → Nat → α} {G : Nat → Nat → β} (f : α → β → α)
    (hx : IsMat x m n F) (hy : IsMat y m n G) :
    ∃ z, inplace f x y = some z ∧ IsMat z m n (fun k c => f (F k c) (G k c)) := by
  unfold inplace
  rw [hx.shape, hy.shape, if_pos (bshape_same m n)]
  refine ⟨_, rfl, rfl, ?_⟩
  intro k c hk hc
  show f (x.get [k, c]) (y.get (pick [m, n] [k, c])) = _
  rw [pick2, inside hk, inside hc, hx.get k c hk hc, hy.get k c hk hc]

/-- `x *= y.squeeze()`: the same, unless there is one column and more than one row -/
theorem inplace_squeeze {x : Arr α} {y : Arr β} {m n : Nat} {F : Nat → Nat → α} {G : Nat → Nat → β} (f : α → β → α)
    (hx : IsMat x m n F) (hy : IsMat y m n G) (h : n ≠ 1 ∨ m = 1) :
    ∃ z, inplace f x y.squeeze = some z ∧ IsMat z m n (fun k c => f (F k c) (G k c)) := by
  by_cases hm : m = 1
  · subst hm
    by_cases hn : n = 1
    · subst hn
      have hs : y.squeeze.shape = [] := by simp [Arr.squeeze, hy.shape]
      unfold inplace
      rw [hs, (bshape_nil _).2, if_pos rfl]
      refine ⟨_, rfl, hx.shape, ?_⟩
      intro k c hk hc
      have h1 : k = 0 := by omega
      have h2 : c = 0 := by omega
      subst h1 h2
      show f (x.get [0, 0]) (y.get (expand y.shape (pick [] [0, 0]))) = _
      rw [hx.get 0 0 hk hc, hy.shape]
      show f _ (y.get [0, 0]) = _
      rw [hy.get 0 0 hk hc]
    · have hs : y.squeeze.shape = [n] := by simp [Arr.squeeze, hy.shape, hn]
      unfold inplace
      rw [hs, hx.shape, bshape_vec, if_pos rfl]
      refine ⟨_, rfl, rfl, ?_⟩
      intro k c hk hc
      have h1 : k = 0 := by omega
      subst h1
      show f (x.get [0, c]) (y.get (expand y.shape (pick [n] [0, c]))) = _
      rw [pick1, inside hc, hx.get 0 c hk hc, hy.shape]
      have : expand [1, n] [c] = [0, c] := by
        unfold expand; rw [if_pos rfl]; unfold expand; rw [if_neg hn]; rfl
      rw [this, hy.get 0 c hk hc]
  · have hn : n ≠ 1 := by omega
    have hs : y.squeeze.shape = [m, n] := by simp [Arr.squeeze, hy.shape, hm, hn]
    unfold inplace
    rw [hs, hx.shape, if_pos (bshape_same m n)]
    refine ⟨_, rfl, rfl, ?_⟩
    intro k c hk hc
    show f (x.get [k, c]) (y.get (expand y.shape (pick [m, n] [k, c]))) = _
    rw [pick2, inside hk, inside hc, hx.get k c hk hc, hy.shape]
    have : expand [m, n] [k, c] = [k, c] := by
      unfold expand; rw [if_neg hm]; simp only; unfold expand; rw [if_neg hn]; rfl
    rw [this, hy.get k c hk hc]

/-- with one column and more than one row it raises -/
theorem inplace_squeeze_raises {x : Arr α} {y : Arr β} {m : Nat} {F : Nat → Nat → α} {G : Nat → Nat → β} (f : α → β → α)
    (hx : IsMat x m 1 F) (hy : IsMat y m 1 G) (h : m ≠ 1) : inplace f x y.squeeze = none := by
  have hs : y.squeeze.shape = [m] := by simp [Arr.squeeze, hy.shape, h]
  unfold inplace
  rw [hs, hx.shape, if_neg]
  have hb : bshape [m, 1] [m] = some [m, m] := by
    simp [bshape, bshapeR, h, Ne.symm h]
  rw [hb]
  simp [h]

/-- assignment of the same shape to the squeezed matrix gives it back -/
theorem squeeze_reshape {x : Arr α} {m n : Nat} {F : Nat → Nat → α} (hx : IsMat x m n F) (h : m ≠ 1 ∨ n ≠ 1) :
    ∃ z, x.squeeze.reshape [m, n] = some z ∧ IsMat z m n F := by
  have hsize : size x.squeeze.shape = m * n := by
    show size (x.shape.filter (· ≠ 1)) = _
    rw [hx.shape]
    by_cases hm : m = 1 <;> by_cases hn : n = 1 <;> simp [hm, hn, size]
  unfold Arr.reshape
  rw [if_pos (by rw [hsize]; simp [size])]
  refine ⟨_, rfl, rfl, ?_⟩
  intro k c hk hc
  show x.get (expand x.shape (unflat (x.shape.filter (· ≠ 1)) (flat [m, n] [k, c]))) = F k c
  rw [hx.shape]
  have hflat : flat [m, n] [k, c] = k * n + c := by simp [flat, size]
  rw [hflat, ← hx.get k c hk hc]
  congr 1
  by_cases hm : m = 1
  · have hn : n ≠ 1 := by omega
    have h1 : k = 0 := by omega
    subst hm h1
    simp [hn, unflat, size, expand]
  · by_cases hn : n = 1
    · have h1 : c = 0 := by omega
      subst hn h1
      simp [hm, unflat, size, expand]
    · have hdiv : (k * n + c) / n = k := by
        rw [Nat.mul_comm, Nat.mul_add_div (by omega), Nat.div_eq_of_lt hc]; omega
      have hmod : (k * n + c) % n = c := by
        rw [Nat.mul_comm, Nat.mul_add_mod, Nat.mod_eq_of_lt hc]
      simp [hm, hn, unflat, size, expand, hdiv, hmod]

/-- a vector made a column -/
theorem vec_column {x : Arr α} {m : Nat} {F : Nat → α} (hx : IsVec x m F) :
    ∃ z, x.reshape [m, 1] = some z ∧ IsMat z m 1 (fun k _ => F k) := by
  unfold Arr.reshape
  rw [if_pos (by rw [hx.shape]; simp [size])]
  refine ⟨_, rfl, rfl, ?_⟩
  intro k c hk hc
  have : c = 0 := by omega
  subst this
  show x.get (unflat x.shape (flat [m, 1] [k, 0])) = _
  rw [hx.shape]
  simp [flat, unflat, size, hx.get k hk]

/-- a column stays one -/
theorem column_column {x : Arr α} {m : Nat} {F : Nat → Nat → α} (hx : IsMat x m 1 F) :
    ∃ z, x.reshape [m, 1] = some z ∧ IsMat z m 1 F := by
  unfold Arr.reshape
  rw [if_pos (by rw [hx.shape])]
  refine ⟨_, rfl, rfl, ?_⟩
  intro k c hk hc
  have : c = 0 := by omega
  subst this
  show x.get (unflat x.shape (flat [m, 1] [k, 0])) = _
  rw [hx.shape]
  simp [flat, unflat, size, hx.get k 0 hk hc, Nat.mod_one]

theorem kept_lt {c : List Bool} : ∀ k ∈ kept c, k < c.length := by
  intro k hk
  simp only [kept, List.mem_filter, List.mem_range] at hk
  exact hk.1

theorem kept_getD {c : List Bool} {k : Nat} (h : k < (kept c).length) : (kept c).getD k 0 < c.length := by
  rw [List.getD_eq_getElem?_getD, List.getElem?_eq_getElem h]
  exact kept_lt _ (List.getElem_mem h)

theorem compress_mat {x : Arr α} {m n : Nat} {F : Nat → Nat → α} (hx : IsMat x m n F) {c : List Bool} (hc : c.length = m) :
    ∃ z, x.compress c = some z ∧ IsMat z (kept c).length n (fun k j => F ((kept c).getD k 0) j) := by
  unfold Arr.compress
  rw [hx.shape]
  simp only
  rw [if_pos (by simp only [List.all_eq_true, decide_eq_true_eq]; intro k hk; rw [← hc]; exact kept_lt k hk)]
  refine ⟨_, rfl, rfl, ?_⟩
  intro k j hk hj
  exact hx.get _ j (by rw [← hc]; exact kept_getD hk) hj

theorem compress_vec {x : Arr α} {m : Nat} {F : Nat → α} (hx : IsVec x m F) {c : List Bool} (hc : c.length = m) :
    ∃ z, x.compress c = some z ∧ IsVec z (kept c).length (fun k => F ((kept c).getD k 0)) := by
  unfold Arr.compress
  rw [hx.shape]
  simp only
  rw [if_pos (by simp only [List.all_eq_true, decide_eq_true_eq]; intro k hk; rw [← hc]; exact kept_lt k hk)]
  refine ⟨_, rfl, rfl, ?_⟩
  intro k hk
  exact hx.get _ (by rw [← hc]; exact kept_getD hk)

/-- the elements selected by a condition computed from the elements -/
theorem kept_filter (l : List α) (p : α → Bool) (d : α) :
    (kept (l.map p)).map (fun k => l.getD k d) = l.filter p := by
  unfold kept
  rw [List.length_map]
  have key : ∀ n, n ≤ l.length → ((List.range n).filter fun k => (l.map p).getD k false).map (fun k => l.getD k d) =
      (l.take n).filter p := by
    intro n
    induction n with
    | zero => intro _; rfl
    | succ n ih =>
      intro hn
      have hlt : n < l.length := hn
      have e1 : (l.map p).getD n false = p l[n] := by
        rw [List.getD_eq_getElem?_getD, List.getElem?_map, List.getElem?_eq_getElem hlt]; rfl
      have e2 : l.getD n d = l[n] := by
        rw [List.getD_eq_getElem?_getD, List.getElem?_eq_getElem hlt]; rfl
      rw [List.range_succ, List.filter_append, List.map_append, ih (by omega), List.take_add_one,
        List.getElem?_eq_getElem hlt, List.filter_append]
      congr 1
      by_cases h : p l[n] = true
      · rw [List.filter_cons, if_pos (by rw [e1]; exact h), List.filter_nil, List.map_cons, e2]
        simp [h]
      · rw [List.filter_cons, if_neg (by rw [e1]; exact h), List.filter_nil]
        simp [h]
  have := key l.length (Nat.le_refl _)
  rwa [List.take_length] at this

end Verif.ND
