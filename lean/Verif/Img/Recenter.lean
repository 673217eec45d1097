import Mathlib.Data.List.Rotate
import Mathlib.Data.Int.ModEq
import Mathlib.Tactic.Ring
/-!
# Property C22 : `recenter`

Model of `/repo/aipy/img.py` 47-59.  A matrix is a list of rows; element type arbitrary (for masked arrays the pair of
value and mask, which `np.ma.concatenate` moves together).  Only integer centres are modelled.
-/
namespace Verif.Img

/-- a matrix of shape (rows, cols) -/
def HasShape {α : Type} (a : List (List α)) (rows cols : Nat) : Prop := a.length = rows ∧ ∀ r ∈ a, r.length = cols

/-- `np.concatenate([l[c:], l[:c]])` -/
def slide {α : Type} (c : Nat) (l : List α) : List α := l.drop c ++ l.take c

/-- `recenter(a, c)`, img.py 47-59; `s` is `a.shape`; `none` is the ZeroDivisionError of an empty axis -/
def recenter {α : Type} (s : Nat × Nat) (a : List (List α)) (c : Int × Int) : Option (List (List α)) :=
  if s.1 = 0 ∨ s.2 = 0 then none
  else some ((slide (c.1 % s.1).toNat a).map (slide (c.2 % s.2).toNat))

/-! ## Specification: element access -/

/-- `a[i,j]` -/
def at2 {α : Type} (a : List (List α)) (i j : Nat) : Option α := (a[i]?).bind (fun r => r[j]?)

/-! ## Lemmas -/

theorem slide_length {α : Type} (c : Nat) (l : List α) : (slide c l).length = l.length := by
  unfold slide; rw [List.length_append, List.length_drop, List.length_take]; omega

theorem slide_getElem? {α : Type} (c : Nat) (l : List α) (hc : c < l.length) (i : Nat) (hi : i < l.length) :
    (slide c l)[i]? = l[(i + c) % l.length]? := by
  unfold slide
  by_cases h : i < l.length - c
  · rw [List.getElem?_append_left (by simpa using h), List.getElem?_drop, Nat.mod_eq_of_lt (by omega), Nat.add_comm]
  · rw [List.getElem?_append_right (by simpa using h), List.length_drop, List.getElem?_take]
    have h1 : i - (l.length - c) = (i + c) % l.length := by
      rw [Nat.mod_eq_sub_mod (by omega), Nat.mod_eq_of_lt (by omega)]; omega
    rw [← h1, if_pos (by omega)]

theorem slide_perm {α : Type} (c : Nat) (l : List α) : (slide c l).Perm l := by
  unfold slide
  refine List.perm_append_comm.trans ?_
  rw [List.take_append_drop]

theorem emod_lt_nat {c : Int} {n : Nat} (h : n ≠ 0) : (c % n).toNat < n := by
  have h1 := Int.emod_nonneg c (by exact_mod_cast h : (n : Int) ≠ 0)
  have h2 := Int.emod_lt_of_pos c (by omega : (0 : Int) < n)
  omega

theorem recenter_some {α : Type} {s : Nat × Nat} {a b : List (List α)} {c : Int × Int}
    (h : recenter s a c = some b) :
    s.1 ≠ 0 ∧ s.2 ≠ 0 ∧ b = (slide (c.1 % s.1).toNat a).map (slide (c.2 % s.2).toNat) := by
  unfold recenter at h
  split at h
  · cases h
  · rename_i hs
    cases h
    exact ⟨fun e => hs (Or.inl e), fun e => hs (Or.inr e), rfl⟩

theorem at2_ext {α : Type} {a b : List (List α)} {r k : Nat} (ha : HasShape a r k) (hb : HasShape b r k)
    (h : ∀ i < r, ∀ j < k, at2 a i j = at2 b i j) : a = b := by
  apply List.ext_getElem (by rw [ha.1, hb.1])
  intro i h1 h2
  have la : a[i].length = k := ha.2 _ (List.getElem_mem _)
  have lb : b[i].length = k := hb.2 _ (List.getElem_mem _)
  apply List.ext_getElem (by rw [la, lb])
  intro j h3 h4
  have := h i (by rw [← ha.1]; exact h1) j (by rw [← la]; exact h3)
  unfold at2 at this
  rw [List.getElem?_eq_getElem h1, List.getElem?_eq_getElem h2] at this
  simp only [Option.bind_some] at this
  rw [List.getElem?_eq_getElem h3, List.getElem?_eq_getElem h4] at this
  exact Option.some.inj this

theorem shift_index (i : Nat) (c : Int) (n : Nat) (hn : n ≠ 0) :
    (i + (c % n).toNat) % n = ((i + c) % n).toNat := by
  have h1 := Int.emod_nonneg c (by exact_mod_cast hn : (n : Int) ≠ 0)
  have h2 := Int.emod_nonneg (i + c) (by exact_mod_cast hn : (n : Int) ≠ 0)
  apply Int.natCast_inj.1
  rw [Int.toNat_of_nonneg h2]
  push_cast
  rw [Int.toNat_of_nonneg h1, Int.add_emod_emod]

/-! ## C22 -/

/-- C22: `recenter` succeeds on every non-empty matrix and every centre, and keeps the shape. -/
theorem c22_total {α : Type} (a : List (List α)) (r k : Nat) (ha : HasShape a r k) (hr : r ≠ 0) (hk : k ≠ 0)
    (c : Int × Int) : ∃ b, recenter (r, k) a c = some b ∧ HasShape b r k := by
  unfold recenter
  rw [if_neg (by simp [hr, hk])]
  refine ⟨_, rfl, ?_, ?_⟩
  · rw [List.length_map, slide_length]; exact ha.1
  · intro row hrow
    rw [List.mem_map] at hrow
    obtain ⟨row', h1, rfl⟩ := hrow
    rw [slide_length]
    exact ha.2 _ ((slide_perm _ _).mem_iff.1 h1)

/-- C22: element (i,j) of the result is element (i+c₀ mod rows, j+c₁ mod columns) of the input; in particular the
origin of the result is `a[c]`. -/
theorem c22_element {α : Type} (a b : List (List α)) (r k : Nat) (ha : HasShape a r k) (c : Int × Int)
    (h : recenter (r, k) a c = some b) (i j : Nat) (hi : i < r) (hj : j < k) :
    at2 b i j = at2 a ((i + c.1) % r).toNat ((j + c.2) % k).toNat := by
  obtain ⟨hr, hk, rfl⟩ := recenter_some h
  simp only at hr hk
  unfold at2
  rw [List.getElem?_map, slide_getElem? _ _ (by rw [ha.1]; exact emod_lt_nat hr) _ (by rw [ha.1]; exact hi), ha.1]
  simp only
  rw [shift_index i c.1 r hr]
  cases hrow : a[((i + c.1) % r).toNat]? with
  | none => rfl
  | some row =>
    have hlen : row.length = k := ha.2 row (List.mem_of_getElem? hrow)
    simp only [Option.map_some, Option.bind_some]
    rw [slide_getElem? _ _ (by rw [hlen]; exact emod_lt_nat hk) _ (by rw [hlen]; exact hj), hlen, shift_index j c.2 k hk]

/-- C22: nothing is lost or duplicated: the pixels of the result are a permutation of the pixels of the input. -/
theorem c22_permutation {α : Type} (a b : List (List α)) (s : Nat × Nat) (c : Int × Int)
    (h : recenter s a c = some b) : b.flatten.Perm a.flatten := by
  obtain ⟨_, _, rfl⟩ := recenter_some h
  have h1 : ∀ (l : List (List α)) n, (l.map (slide n)).flatten.Perm l.flatten := by
    intro l n
    induction l with
    | nil => exact List.Perm.refl _
    | cons x l ih => simp only [List.map_cons, List.flatten_cons]; exact (slide_perm n x).append ih
  exact (h1 _ _).trans (slide_perm _ _).flatten

/-- C22: recentring by `c` and then by `d` is recentring by `c + d`. -/
theorem c22_compose {α : Type} (a b e : List (List α)) (r k : Nat) (ha : HasShape a r k) (c d : Int × Int)
    (h1 : recenter (r, k) a c = some b) (h2 : recenter (r, k) b d = some e) :
    recenter (r, k) a (c.1 + d.1, c.2 + d.2) = some e := by
  obtain ⟨hr, hk, _⟩ := recenter_some h1
  simp only at hr hk
  obtain ⟨b', hb1, hb2⟩ := c22_total a r k ha hr hk c
  rw [h1] at hb1; cases hb1
  obtain ⟨e', he1, he2⟩ := c22_total b r k hb2 hr hk d
  rw [h2] at he1; cases he1
  obtain ⟨f, hf1, hf2⟩ := c22_total a r k ha hr hk (c.1 + d.1, c.2 + d.2)
  rw [hf1]
  congr 1
  apply at2_ext hf2 he2
  intro i hi j hj
  rw [c22_element a f r k ha _ hf1 i j hi hj, c22_element b e r k hb2 _ h2 i j hi hj,
    c22_element a b r k ha _ h1 _ _ (emod_lt_nat hr) (emod_lt_nat hk)]
  have hz : ∀ (x y : Int) (z n : Nat), n ≠ 0 →
      ((((((z : Int) + y) % n).toNat : Int) + x) % n).toNat = (((z : Int) + (x + y)) % n).toNat := by
    intro x y z n hn
    rw [Int.toNat_of_nonneg (Int.emod_nonneg _ (by exact_mod_cast hn)), Int.emod_add_emod]
    congr 2; ring
  rw [hz c.1 d.1 i r hr, hz c.2 d.2 j k hk]

/-- C22: recentring by `-c` undoes recentring by `c`. -/
theorem c22_undo {α : Type} (a b : List (List α)) (r k : Nat) (ha : HasShape a r k) (c : Int × Int)
    (h : recenter (r, k) a c = some b) : recenter (r, k) b (-c.1, -c.2) = some a := by
  obtain ⟨hr, hk, _⟩ := recenter_some h
  simp only at hr hk
  obtain ⟨b', hb1, hb2⟩ := c22_total a r k ha hr hk c
  rw [h] at hb1; cases hb1
  obtain ⟨e, he1, he2⟩ := c22_total b r k hb2 hr hk (-c.1, -c.2)
  rw [he1]
  have := c22_compose a b e r k ha c (-c.1, -c.2) h he1
  simp only [add_neg_cancel] at this
  obtain ⟨_, _, rfl⟩ := recenter_some this
  congr 1
  have hs : (slide 0 : List α → List α) = id := by funext l; simp [slide]
  have hs' : (slide 0 : List (List α) → List (List α)) = id := by funext l; simp [slide]
  simp [hs, hs']

/-- C22: where a pixel goes: the pixel at (i,j) of the input is found at (i-c₀, j-c₁) modulo the shape.  The docstring
("slide the (0,0) point to a new location tuple c") says c instead of -c; see `c22_docstring_violated`. -/
theorem c22_moves {α : Type} (a b : List (List α)) (r k : Nat) (ha : HasShape a r k) (c : Int × Int)
    (h : recenter (r, k) a c = some b) (i j : Nat) (hi : i < r) (hj : j < k) :
    at2 b ((i - c.1) % r).toNat ((j - c.2) % k).toNat = at2 a i j := by
  obtain ⟨hr, hk, _⟩ := recenter_some h
  simp only at hr hk
  obtain ⟨b', hb1, hb2⟩ := c22_total a r k ha hr hk c
  rw [h] at hb1; cases hb1
  have := c22_element b a r k hb2 _ (c22_undo a b r k ha c h) i j hi hj
  simp only [← sub_eq_add_neg] at this
  exact this.symm

/-- the pixel at the origin does not go to `c` as the docstring says: in a 1×3 image recentred at (0,1) it is found at
column 2 -/
theorem c22_docstring_violated :
    recenter (1, 3) [[10, 20, 30]] (0, 1) = some [[20, 30, 10]] ∧ at2 [[20, 30, 10]] 0 1 ≠ at2 [[10, 20, 30]] 0 0 := by
  decide

/-- the hypotheses are met by ordinary matrices; negative and out of range centres included -/
example : HasShape [[1, 2, 3], [4, 5, 6]] 2 3 ∧
    recenter (2, 3) [[1, 2, 3], [4, 5, 6]] (1, -1) = some [[6, 4, 5], [3, 1, 2]] ∧
    recenter (2, 3) [[1, 2, 3], [4, 5, 6]] (7, 5) = some [[6, 4, 5], [3, 1, 2]] := by
  unfold HasShape; decide

end Verif.Img
