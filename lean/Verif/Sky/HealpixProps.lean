import Verif.Sky.HealpixModel
import Mathlib.Data.List.Nodup
import Mathlib.Algebra.Order.Ring.Nat
/-!
# Properties C30, C31, C61 : assignment to HEALPix maps, changes of ordering and resolution
-/
namespace Verif.Sky
open Verif.Img

/-! ## Specification -/

open Classical in
/-- the sum of the values given for pixel `i` -/
noncomputable def sumFor {V : Type} [AddCommMonoid V] (n : Nat) (px : List Int) (vals : List V) (i : Nat) : V :=
  (((px.zip vals).filter (fun e => decide (Idx n e.1 i))).map Prod.snd).sum

/-- pixel numbers within the range of a C `int`, maps with fewer than 2^31 pixels -/
def Small (n : Nat) (px : List Int) : Prop := n < 2147483648 ∧ ∀ p ∈ px, -2147483648 ≤ p ∧ p < 2147483648

/-! ## Lemmas -/

theorem denotes1 (n : Nat) (p : Int) (i : Nat) : Denotes [n] [p] [i] ↔ Idx n p i := by
  constructor
  · intro h
    cases h with
    | cons h _ => exact h
  · intro h
    exact .cons h .nil

theorem valid1 (n : Nat) (is : List Nat) (h : Valid [n] is) : ∃ i, i < n ∧ is = [i] := by
  cases h with
  | cons h1 h2 =>
    cases h2
    exact ⟨_, h1, rfl⟩

theorem npIndex_iff (n : Nat) (x : Int) (i : Nat) : npIndex n x = some i ↔ Idx n x i := by
  unfold npIndex Idx
  split
  · rw [Option.some.injEq]
    split <;> omega
  · simp only [reduceCtorEq, false_iff]
    omega

theorem fits1 {V : Type} [Zero V] (l : List V) (px : List Int) (vals : List V) (h : Small l.length px) :
    Fits (ofList l) ((args1 px vals).ind.zip (args1 px vals).data) := by
  refine ⟨?_, ?_⟩
  · have := c26_contiguous_wf [l.length] (fun p => l.getD p.toNat 0) (by simpa using h.1)
    exact this
  · intro s hs
    have hm := (List.of_mem_zip hs).1
    simp only [args1, List.mem_map] at hm
    obtain ⟨p, hp, he⟩ := hm
    rw [← he]
    refine ⟨rfl, ?_⟩
    intro x hx
    rw [List.mem_singleton] at hx
    rw [hx]
    exact h.2 p hp

theorem total1 {V : Type} [AddCommMonoid V] (n : Nat) (px : List Int) (vals : List V) (i : Nat) :
    total [n] ((args1 px vals).ind.zip (args1 px vals).data) [i] = sumFor n px vals i := by
  classical
  unfold total sumFor args1
  simp only
  rw [List.zip_map_left, List.filter_map, List.map_map]
  congr 1
  have : (List.filter ((fun s : List Int × V => decide (Denotes [n] s.1 [i])) ∘ Prod.map (fun p => [p]) id) (px.zip vals)) =
      List.filter (fun e => decide (Idx n e.1 i)) (px.zip vals) := by
    apply List.filter_congr
    intro e _
    simp [denotes1]
  rw [this]
  apply List.map_congr_left
  intro e _
  rfl

theorem get1 {V : Type} (shape : List Nat) (m : Int → V) (i : Nat) : (⟨shape, [1], m⟩ : NdArr V).get [i] = m i := by
  unfold NdArr.get dot dot
  simp

theorem add1 {V : Type} [AddCommMonoid V] (l : List V) (px : List Int) (vals : List V) (hs : Small l.length px)
    (h : (add2array (ofList (l.map (fun _ => (0 : V)))) (args1 px vals)).2 = none) (i : Nat) (hi : i < l.length) :
    (add2array (ofList (l.map (fun _ => (0 : V)))) (args1 px vals)).1.mem i = sumFor l.length px vals i := by
  have hs' : Small (l.map (fun _ => (0 : V))).length px := by rw [List.length_map]; exact hs
  have hf := fits1 (l.map (fun _ => (0 : V))) px vals hs'
  obtain ⟨a1, _⟩ := c26_accumulates _ _ hf h
  have hv : Valid (ofList (l.map (fun _ => (0 : V)))).shape [i] := by
    refine .cons ?_ .nil
    rw [List.length_map]; exact hi
  have hg := a1 [i] hv
  have hst : (add2array (ofList (l.map (fun _ => (0 : V)))) (args1 px vals)).1.strides = [1] := by
    unfold add2array addResult
    split
    · rfl
    · exact (addloop_shape _ _).2
  have e1 : (add2array (ofList (l.map (fun _ => (0 : V)))) (args1 px vals)).1.get [i] =
      (add2array (ofList (l.map (fun _ => (0 : V)))) (args1 px vals)).1.mem i := by
    unfold NdArr.get
    rw [hst]
    simp [dot]
  rw [← e1, hg]
  have e2 : (ofList (l.map (fun _ => (0 : V)))).shape = [l.length] := by simp [ofList]
  rw [e2, total1]
  have e3 : (ofList (l.map (fun _ => (0 : V)))).get [i] = 0 := by
    unfold ofList
    rw [get1]
    rw [List.map_const']
    simp only [List.getD, Int.toNat_natCast]
    rw [List.getElem?_replicate]
    split <;> rfl
  rw [e3, zero_add]

theorem sumFor_bool (n : Nat) (px : List Int) {V : Type} (vals : List V) (hl : px.length = vals.length) (i : Nat) :
    sumFor n px (vals.map (fun _ => true)) i = true ↔ ∃ p ∈ px, Idx n p i := by
  unfold sumFor
  induction px generalizing vals with
  | nil => simp
  | cons p px ih =>
    cases vals with
    | nil => simp at hl
    | cons v vals =>
      rw [List.map_cons, List.zip_cons_cons, List.filter_cons]
      have hl' : px.length = vals.length := by simpa using hl
      by_cases h : Idx n p i
      · simp only [h, decide_true, if_true, List.map_cons, List.sum_cons]
        constructor
        · intro _; exact ⟨p, by simp, h⟩
        · intro _
          exact Bool.true_or _
      · simp only [h, decide_false, Bool.false_eq_true, if_false]
        rw [ih vals hl']
        constructor
        · rintro ⟨q, hq, hi⟩; exact ⟨q, by simp [hq], hi⟩
        · rintro ⟨q, hq, hi⟩
          rw [List.mem_cons] at hq
          rcases hq with rfl | hq
          · exact absurd hi h
          · exact ⟨q, hq, hi⟩

theorem args_check {V : Type} (l : List V) [Zero V] (px : List Int) (vals : List V) (hl : px.length = vals.length) :
    (args1 px vals).indRank = 2 ∧ (args1 px vals).dataRank = 1 ∧ (args1 px vals).ind.length = (args1 px vals).data.length ∧
      (args1 px vals).indCols = (ofList l).shape.length ∧ (args1 px vals).indIsLong = true ∧ (args1 px vals).sameType = true ∧
      (args1 px vals).supported = true := by
  refine ⟨rfl, rfl, ?_, rfl, rfl, rfl, rfl⟩
  simp [args1, hl]

/-- when `add2array` on a map accepts its arguments -/
theorem add1_ok {V : Type} [AddCommMonoid V] (l : List V) (px : List Int) (vals : List V) (hs : Small l.length px) :
    (add2array (ofList l) (args1 px vals)).2 = none ↔ px.length = vals.length ∧ ∀ p ∈ px, ∃ i, Idx l.length p i := by
  by_cases hl : px.length = vals.length
  · rw [c26_raises_iff _ _ (fits1 l px vals hs) (args_check l px vals hl)]
    constructor
    · intro h
      refine ⟨hl, ?_⟩
      intro p hp
      obtain ⟨is, hd⟩ := h [p] (by simp only [args1, List.mem_map]; exact ⟨p, hp, rfl⟩)
      obtain ⟨i, _, rfl⟩ := valid1 _ _ (denotes_valid hd)
      exact ⟨i, (denotes1 _ _ _).1 hd⟩
    · rintro ⟨_, h⟩ row hr
      simp only [args1, List.mem_map] at hr
      obtain ⟨p, hp, rfl⟩ := hr
      obtain ⟨i, hi⟩ := h p hp
      exact ⟨[i], (denotes1 _ _ _).2 hi⟩
  · constructor
    · intro h
      exfalso
      unfold add2array at h
      have : addCheck (ofList l) (args1 px vals) = some .dim0 := by
        unfold addCheck args1
        simp [hl]
      rw [this] at h
      cases h
    · rintro ⟨h, _⟩; exact absurd h hl

theorem whereMap_getElem? {V : Type} (cnt : Int → Bool) (m : Int → V) (old : List V) (i : Nat) :
    (whereMap cnt m old)[i]? = (old[i]?).map (fun v => if cnt i then m i else v) := by
  unfold whereMap
  rw [List.getElem?_map, List.getElem?_zipIdx]
  cases old[i]? <;> simp

/-! ## C30 -/

open Classical in
/-- C30: after an assignment that is accepted, each addressed pixel holds the sum of the values given for it and all
others are as before. -/
theorem c30_assign {V : Type} [AddCommMonoid V] (map map' : List V) (px : List Int) (val : Val V) (hs : Small map.length px)
    (h : setPx map px val = some map') :
    map'.length = map.length ∧ px.length = val.toList.length ∧ ∀ i, i < map.length →
      map'[i]? = if ∃ p ∈ px, Idx map.length p i then some (sumFor map.length px val.toList i) else map[i]? := by
  have many : setMany map px val.toList = some map' → map'.length = map.length ∧ px.length = val.toList.length ∧
      ∀ i, i < map.length → map'[i]? = if ∃ p ∈ px, Idx map.length p i then some (sumFor map.length px val.toList i) else map[i]? := by
    intro h
    unfold setMany at h
    simp only at h
    cases hm : (add2array (ofList (map.map (fun _ => (0 : V)))) (args1 px val.toList)).2 with
    | some e => rw [hm] at h; cases h
    | none =>
      rw [hm] at h
      simp only at h
      cases hc : (add2array (ofList (map.map (fun _ => false))) (args1 px (val.toList.map (fun _ => true)))).2 with
      | some e => rw [hc] at h; cases h
      | none =>
        rw [hc] at h
        simp only [Option.some.injEq] at h
        have hs' : Small (map.map (fun _ => (0 : V))).length px := by rw [List.length_map]; exact hs
        obtain ⟨hl, _⟩ := (add1_ok _ px val.toList hs').1 hm
        refine ⟨by rw [← h]; unfold whereMap; simp, hl, ?_⟩
        intro i hi
        rw [← h, whereMap_getElem?, List.getElem?_eq_getElem hi, Option.map_some]
        have hb := add1 (map.map (fun _ => false)) px (val.toList.map (fun _ => true))
          (by rw [List.length_map]; exact hs) (by rw [List.map_map]; exact hc) i (by simpa using hi)
        rw [List.map_map] at hb
        have hb' : (add2array (ofList (map.map (fun _ => false))) (args1 px (val.toList.map (fun _ => true)))).1.mem i =
            sumFor map.length px (val.toList.map (fun _ => true)) i := by
          rw [List.length_map] at hb
          exact hb
        have hbi := sumFor_bool map.length px val.toList hl i
        rw [hb', add1 map px val.toList hs hm i hi]
        by_cases he : ∃ p ∈ px, Idx map.length p i
        · rw [if_pos he, if_pos (hbi.2 he)]
        · rw [if_neg he, if_neg (fun hh => he (hbi.1 hh))]
  unfold setPx at h
  split at h
  · rename_i p
    unfold setOne at h
    split at h
    · rename_i v hv
      rw [hv]
      cases hx : npIndex map.length p with
      | none => rw [hx] at h; cases h
      | some k =>
        rw [hx] at h
        simp only [Option.map_some, Option.some.injEq] at h
        have hk := (npIndex_iff _ _ _).1 hx
        refine ⟨by rw [← h, List.length_set], rfl, ?_⟩
        intro i hi
        rw [← h]
        by_cases hik : k = i
        · subst hik
          rw [List.getElem?_set_self hi, if_pos ⟨p, by simp, hk⟩]
          unfold sumFor
          simp [hk]
        · rw [List.getElem?_set_ne hik, if_neg]
          rintro ⟨q, hq, hqi⟩
          rw [List.mem_singleton] at hq
          subst hq
          unfold Idx at hk hqi
          omega
    · cases h
  · exact many h

/-- C30: an assignment is refused exactly when the numbers of pixels and values differ or a pixel does not exist. -/
theorem c30_raises_iff {V : Type} [AddCommMonoid V] (map : List V) (px : List Int) (val : Val V) (hs : Small map.length px) :
    setPx map px val = none ↔ px.length ≠ val.toList.length ∨ ∃ p ∈ px, ∀ i, ¬ Idx map.length p i := by
  have many : setMany map px val.toList = none ↔ px.length ≠ val.toList.length ∨ ∃ p ∈ px, ∀ i, ¬ Idx map.length p i := by
    have h1 := add1_ok (map.map (fun _ => (0 : V))) px val.toList (by rw [List.length_map]; exact hs)
    have h2 := add1_ok (map.map (fun _ => false)) px (val.toList.map (fun _ => true)) (by rw [List.length_map]; exact hs)
    rw [List.length_map] at h1 h2
    rw [List.length_map] at h2
    have hneg : (px.length ≠ val.toList.length ∨ ∃ p ∈ px, ∀ i, ¬ Idx map.length p i) ↔
        ¬ (px.length = val.toList.length ∧ ∀ p ∈ px, ∃ i, Idx map.length p i) := by
      rw [not_and_or]
      constructor
      · rintro (h | ⟨p, hp, h⟩)
        · exact Or.inl h
        · right
          intro hc
          obtain ⟨i, hi⟩ := hc p hp
          exact h i hi
      · rintro (h | h)
        · exact Or.inl h
        · right
          simpa using h
    rw [hneg]
    unfold setMany
    simp only
    cases hm : (add2array (ofList (map.map (fun _ => (0 : V)))) (args1 px val.toList)).2 with
    | some e =>
      rw [hm] at h1
      simp only [true_iff]
      intro hc
      cases h1.2 hc
    | none =>
      rw [hm] at h1
      have := h1.1 rfl
      cases hc : (add2array (ofList (map.map (fun _ => false))) (args1 px (val.toList.map (fun _ => true)))).2 with
      | some e => rw [hc] at h2; cases h2.2 this
      | none => simp only [reduceCtorEq, false_iff, not_not]; exact this
  unfold setPx
  split
  · rename_i p
    unfold setOne
    split
    · rename_i v hv
      rw [hv, Option.map_eq_none_iff]
      constructor
      · intro h
        right
        refine ⟨p, by simp, fun i hi => ?_⟩
        rw [(npIndex_iff _ _ _).2 hi] at h
        cases h
      · rintro (h | ⟨q, hq, h⟩)
        · simp at h
        · rw [List.mem_singleton] at hq
          subst hq
          cases hx : npIndex map.length q with
          | none => rfl
          | some i => exact absurd ((npIndex_iff _ _ _).1 hx) (h i)
    · rename_i hv
      simp only [true_iff]
      left
      intro hc
      cases hl : val.toList with
      | nil => rw [hl] at hc; simp at hc
      | cons v t =>
        cases t with
        | nil => exact hv v hl
        | cons w t => rw [hl] at hc; simp at hc
  · exact many

theorem getPx_eq {V : Type} (map : List V) (px : List Int) (f : Int → V)
    (h : ∀ p ∈ px, ∃ i, Idx map.length p i ∧ map[i]? = some (f p)) : getPx map px = some (px.map f) := by
  unfold getPx
  induction px with
  | nil => rfl
  | cons p px ih =>
    obtain ⟨i, hi, he⟩ := h p (by simp)
    rw [List.mapM_cons, (npIndex_iff _ _ _).2 hi, Option.bind_some, he, ih (fun q hq => h q (by simp [hq]))]
    rfl

/-- C30: reading the assigned pixels back gives, for each, the sum of the values given for it. -/
theorem c30_readback {V : Type} [AddCommMonoid V] (map map' : List V) (px : List Int) (val : Val V) (hs : Small map.length px)
    (h : setPx map px val = some map') :
    ∃ f : Int → V, getPx map' px = some (px.map f) ∧ ∀ p ∈ px, ∀ i, Idx map.length p i → f p = sumFor map.length px val.toList i := by
  classical
  obtain ⟨h1, h2, h3⟩ := c30_assign map map' px val hs h
  have hex : ∀ p ∈ px, ∃ i, Idx map.length p i := by
    intro p hp
    by_contra hc
    have := (c30_raises_iff map px val hs).2 (Or.inr ⟨p, hp, fun i hi => hc ⟨i, hi⟩⟩)
    rw [this] at h
    cases h
  refine ⟨fun p => sumFor map.length px val.toList ((npIndex map.length p).getD 0), ?_, ?_⟩
  · apply getPx_eq
    intro p hp
    obtain ⟨i, hi⟩ := hex p hp
    refine ⟨i, by rw [h1]; exact hi, ?_⟩
    rw [h3 i hi.1, if_pos ⟨p, hp, hi⟩, (npIndex_iff _ _ _).2 hi]
    rfl
  · intro p _ i hi
    simp only
    rw [(npIndex_iff _ _ _).2 hi]
    rfl

/-- C30: the order of the (pixel, value) pairs does not matter. -/
theorem c30_order {V : Type} [AddCommMonoid V] (map map1 map2 : List V) (px1 px2 : List Int) (vs1 vs2 : List V)
    (hs1 : Small map.length px1) (hp : (px1.zip vs1).Perm (px2.zip vs2)) (h1 : setPx map px1 (.arr vs1) = some map1)
    (h2 : setPx map px2 (.arr vs2) = some map2) : map1 = map2 := by
  classical
  have len1 : px1.length = vs1.length := by
    by_contra hc
    have := (c30_raises_iff map px1 (.arr vs1) hs1).2 (Or.inl hc)
    rw [this] at h1; cases h1
  have fst_perm : ∀ p, p ∈ px1 → p ∈ px2 := by
    intro p hp'
    obtain ⟨k, hk, rfl⟩ := List.getElem_of_mem hp'
    have : (px1[k], vs1[k]) ∈ px1.zip vs1 := by
      rw [List.mem_iff_getElem]
      exact ⟨k, by simp; omega, by simp⟩
    exact (List.of_mem_zip (hp.subset this)).1
  have hs2len : px2.length = vs2.length ∨ px2.length ≠ vs2.length := em _
  -- the second list of pixels is in range too
  have len2 : px2.length = vs2.length := by
    unfold setPx at h2
    split at h2
    · unfold setOne at h2
      split at h2
      · rename_i v hv
        have : vs2 = [v] := hv
        rw [this]; rfl
      · cases h2
    · unfold setMany at h2
      simp only at h2
      by_contra hc
      have : (add2array (ofList (map.map (fun _ => (0 : V)))) (args1 px2 (Val.arr vs2).toList)).2 = some .dim0 := by
        unfold add2array
        have : addCheck (ofList (map.map (fun _ => (0 : V)))) (args1 px2 (Val.arr vs2).toList) = some .dim0 := by
          unfold addCheck args1
          have : px2.length ≠ (Val.arr vs2).toList.length := hc
          simp [this]
        rw [this]
      rw [this] at h2
      cases h2
  have fst_perm' : ∀ p, p ∈ px2 → p ∈ px1 := by
    intro p hp'
    obtain ⟨k, hk, rfl⟩ := List.getElem_of_mem hp'
    have : (px2[k], vs2[k]) ∈ px2.zip vs2 := by
      rw [List.mem_iff_getElem]
      exact ⟨k, by simp; omega, by simp⟩
    exact (List.of_mem_zip (hp.symm.subset this)).1
  have hs2 : Small map.length px2 := ⟨hs1.1, fun p h => hs1.2 p (fst_perm' p h)⟩
  obtain ⟨a1, _, a3⟩ := c30_assign map map1 px1 (.arr vs1) hs1 h1
  obtain ⟨b1, _, b3⟩ := c30_assign map map2 px2 (.arr vs2) hs2 h2
  apply List.ext_getElem?
  intro i
  by_cases hi : i < map.length
  · rw [a3 i hi, b3 i hi]
    have e1 : (∃ p ∈ px1, Idx map.length p i) ↔ ∃ p ∈ px2, Idx map.length p i :=
      ⟨fun ⟨p, hp, h⟩ => ⟨p, fst_perm p hp, h⟩, fun ⟨p, hp, h⟩ => ⟨p, fst_perm' p hp, h⟩⟩
    have e2 : sumFor map.length px1 (Val.arr vs1).toList i = sumFor map.length px2 (Val.arr vs2).toList i :=
      ((hp.filter _).map _).sum_eq
    rw [e2]
    by_cases hc : ∃ p ∈ px1, Idx map.length p i
    · rw [if_pos hc, if_pos (e1.1 hc)]
    · rw [if_neg hc, if_neg (fun h => hc (e1.2 h))]
  · rw [List.getElem?_eq_none (by omega), List.getElem?_eq_none (by omega)]

/-- two values for pixel 1 of four, one for the last -/
example : setPx [10, 20, 30, 40] [1, -1, 1] (.arr [3, 5, (3 : Nat)]) = some [10, 6, 30, 5] := by decide

end Verif.Sky
