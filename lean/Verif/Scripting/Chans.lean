import Verif.Scripting.Model
/-!
# Property C05 : channel lists
-/
namespace Verif.Scripting
open Verif.Util

theorem mapM_some_of {α β : Type} {f : α → Option β} {g : α → β} :
    ∀ {l : List α}, (∀ x ∈ l, f x = some (g x)) → l.mapM f = some (l.map g)
  | [], _ => rfl
  | a :: l, h => by
    rw [List.mapM_cons, h a (by simp), mapM_some_of (fun x hx => h x (List.mem_cons_of_mem _ hx))]
    rfl

theorem mapM_none_of {α β : Type} {f : α → Option β} :
    ∀ {l : List α}, (∃ x ∈ l, f x = none) → l.mapM f = none
  | [], h => by obtain ⟨x, hx, _⟩ := h; cases hx
  | a :: l, h => by
    rw [List.mapM_cons]
    obtain ⟨x, hx, hn⟩ := h
    rcases List.mem_cons.1 hx with e | e
    · subst e; rw [hn]; rfl
    · cases f a with
      | none => rfl
      | some b =>
        have : l.mapM f = none := mapM_none_of ⟨x, e, hn⟩
        simp [this]

/-! ## Specification -/

/-- an item of a channel list as the user thinks of it -/
inductive ChanSpec where
  | one (n : Int)
  | range (a b : Int)
  | strided (a b s : Int)

/-- how the item is typed -/
def ChanSpec.text : ChanSpec → List Char
  | .one n => printInt n
  | .range a b => printInt a ++ '_' :: printInt b
  | .strided a b s => printInt a ++ '_' :: (printInt b ++ '_' :: printInt s)

/-- `L` is the list of channels the item stands for: ascending, end points included. -/
def ChanSpec.Means : ChanSpec → List Int → Prop
  | .one n, L => L = [n]
  | .range a b, L => L.Pairwise (· < ·) ∧ ∀ x, x ∈ L ↔ a ≤ x ∧ x ≤ b
  | .strided a b s, L => L.Pairwise (· < ·) ∧ ∀ x, x ∈ L ↔ a ≤ x ∧ x ≤ b ∧ s ∣ x - a

/-- strides are positive (what the help text describes as "counting by") -/
def ChanSpec.Ok : ChanSpec → Prop
  | .strided _ _ s => 0 < s
  | _ => True

/-- a comma separated channel list -/
def chanText (items : List ChanSpec) : List Char := joinWith ',' (items.map ChanSpec.text)

/-! ## Proofs -/

def ChanSpec.fields : ChanSpec → List Int
  | .one n => [n]
  | .range a b => [a, b]
  | .strided a b s => [a, b, s]

theorem text_eq (c : ChanSpec) : c.text = joinWith '_' (c.fields.map printInt) := by
  cases c <;> rfl

theorem fields_parse (c : ChanSpec) :
    (splitOn '_' c.text).mapM parseInt = some c.fields := by
  rw [text_eq, splitOn_joinWith]
  · have := mapM_some_of (f := parseInt) (g := fun cs => (parseInt cs).getD 0)
      (l := c.fields.map printInt) (by
        intro x hx
        rw [List.mem_map] at hx
        obtain ⟨z, _, rfl⟩ := hx
        rw [parseInt_printInt]; rfl)
    rw [this, List.map_map]
    congr 1
    conv => rhs; rw [← List.map_id c.fields]
    apply List.map_congr_left
    intro z _
    simp [parseInt_printInt]
  · cases c <;> simp [ChanSpec.fields]
  · intro p hp
    rw [List.mem_map] at hp
    obtain ⟨z, _, rfl⟩ := hp
    exact printInt_not_mem z (by decide) (by decide)

theorem comma_not_in_text (c : ChanSpec) : ',' ∉ c.text := by
  rw [text_eq]
  apply joinWith_not_mem (by decide)
  intro p hp
  rw [List.mem_map] at hp
  obtain ⟨z, _, rfl⟩ := hp
  exact printInt_not_mem z (by decide) (by decide)

theorem arange_pos {a b s : Int} (hs : 0 < s) :
    ∃ L, arange a (b + 1) s = some L ∧ L.Pairwise (· < ·) ∧
      ∀ x, x ∈ L ↔ a ≤ x ∧ x ≤ b ∧ s ∣ x - a := by
  unfold arange
  rw [if_neg (by omega), if_pos (by omega)]
  refine ⟨_, rfl, ?_, ?_⟩
  · rw [List.pairwise_map]
    apply List.Pairwise.imp _ List.pairwise_lt_range
    intro k l h
    have : (k : Int) * s < (l : Int) * s := Int.mul_lt_mul_of_pos_right (by omega) hs
    omega
  · intro x
    rw [List.mem_map]
    constructor
    · rintro ⟨k, hk, rfl⟩
      rw [List.mem_range] at hk
      have h0 : 0 ≤ (k : Int) * s := Int.mul_nonneg (by omega) (by omega)
      have hk' : (k : Int) < (b + 1 - a + s - 1) / s := by omega
      have h2 : ((k : Int) + 1) * s ≤ b + 1 - a + s - 1 :=
        (Int.le_ediv_iff_mul_le hs).1 (by omega)
      rw [Int.add_mul] at h2
      refine ⟨by omega, by omega, k, ?_⟩
      rw [Int.mul_comm]; omega
    · rintro ⟨h1, h2, ⟨k, hk⟩⟩
      have hk0 : 0 ≤ k := by
        by_cases h : 0 ≤ k
        · exact h
        · have : s * k < 0 := Int.mul_neg_of_pos_of_neg hs (by omega)
          omega
      refine ⟨k.toNat, ?_, ?_⟩
      · rw [List.mem_range]
        have : k + 1 ≤ (b + 1 - a + s - 1) / s := by
          rw [Int.le_ediv_iff_mul_le hs, Int.add_mul, Int.mul_comm]
          omega
        omega
      · rw [Int.toNat_of_nonneg hk0, Int.mul_comm]; omega

theorem chanItem_means (c : ChanSpec) (hc : c.Ok) :
    ∃ L, chanItem c.fields = some L ∧ c.Means L := by
  cases c with
  | one n => exact ⟨[n], rfl, rfl⟩
  | range a b =>
    obtain ⟨L, h1, h2, h3⟩ := arange_pos (a := a) (b := b) (s := 1) (by decide)
    refine ⟨L, h1, h2, fun x => ?_⟩
    rw [h3 x]
    constructor
    · rintro ⟨p, q, _⟩; exact ⟨p, q⟩
    · rintro ⟨p, q⟩; exact ⟨p, q, ⟨x - a, by omega⟩⟩
  | strided a b s =>
    obtain ⟨L, h1, h2, h3⟩ := arange_pos (a := a) (b := b) (s := s) hc
    exact ⟨L, h1, h2, h3⟩

theorem joinWith_head {sep : Char} {ps : List (List Char)} {p : List Char} {c : Char}
    {cs : List Char} (h : p = c :: cs) : ∃ t, joinWith sep (p :: ps) = c :: t := by
  subst h
  cases ps with
  | nil => exact ⟨cs, rfl⟩
  | cons q qs => exact ⟨_, rfl⟩

theorem not_startsWith_all (items : List ChanSpec) (hne : items ≠ []) :
    startsWith "all".toList (chanText items) = false := by
  cases items with
  | nil => exact absurd rfl hne
  | cons c cs =>
    unfold chanText
    have : ∃ z t, c.fields = z :: t := by cases c <;> exact ⟨_, _, rfl⟩
    obtain ⟨z, t, hz⟩ := this
    have hne2 : ∃ d ds, printInt z = d :: ds ∧ d ≠ 'a' := by
      cases hp : printInt z with
      | nil => exact absurd hp (printInt_ne_nil z)
      | cons d ds =>
        refine ⟨d, ds, rfl, ?_⟩
        rcases printInt_chars z d (by rw [hp]; simp) with h | h
        · exact isDigit_ne h (by decide)
        · subst h; decide
    obtain ⟨d, ds, hd, hda⟩ := hne2
    obtain ⟨t2, ht2⟩ : ∃ t2, c.text = d :: t2 := by
      rw [text_eq, hz, List.map_cons]
      exact joinWith_head hd
    obtain ⟨t3, ht3⟩ := joinWith_head (sep := ',') (ps := cs.map ChanSpec.text) ht2
    rw [List.map_cons, ht3]
    show ((['a','l','l'] : List Char).isPrefixOf (d :: t3)) = false
    rw [List.isPrefixOf]
    have : ('a' == d) = false := by
      rw [beq_eq_false_iff_ne]; exact fun e => hda e.symm
    rw [this]; rfl

/-- C05: a channel list means the concatenation, in order, of what its items mean. -/
theorem c05_chan_list (items : List ChanSpec) (nchan : Nat) (hne : items ≠ [])
    (hok : ∀ c ∈ items, c.Ok) :
    ∃ Ls : List (List Int), Ls.length = items.length ∧
      (∀ p ∈ items.zip Ls, p.1.Means p.2) ∧
      parseChans (chanText items) nchan = some Ls.flatten := by
  have hL : ∀ c ∈ items, chanItem c.fields = some ((chanItem c.fields).getD []) ∧
      c.Means ((chanItem c.fields).getD []) := by
    intro c hc
    obtain ⟨L, h1, h2⟩ := chanItem_means c (hok c hc)
    rw [h1]; exact ⟨rfl, h2⟩
  refine ⟨items.map (fun c => (chanItem c.fields).getD []), by simp, ?_, ?_⟩
  · intro p hp
    rw [List.zip_map_right, List.mem_map] at hp
    obtain ⟨⟨c, c'⟩, hq, rfl⟩ := hp
    have : c = c' ∧ c ∈ items := by
      have hz : items.zip items = items.map (fun x => (x, x)) := by
        have : ∀ l : List ChanSpec, l.zip l = l.map (fun x => (x, x)) := by
          intro l; induction l with
          | nil => rfl
          | cons a l ih => rw [List.zip_cons_cons, ih]; rfl
        exact this items
      rw [hz, List.mem_map] at hq
      obtain ⟨x, hx, e⟩ := hq
      cases e; exact ⟨rfl, hx⟩
    obtain ⟨rfl, hc⟩ := this
    exact (hL c hc).2
  · unfold parseChans
    rw [not_startsWith_all items hne]
    simp only [Bool.false_eq_true, if_false]
    have hs : splitOn ',' (chanText items) = items.map ChanSpec.text := by
      unfold chanText
      apply splitOn_joinWith
      · simpa using hne
      · intro p hp
        rw [List.mem_map] at hp
        obtain ⟨c, _, rfl⟩ := hp
        exact comma_not_in_text c
    rw [hs]
    rw [List.mapM_map]
    rw [mapM_some_of (g := fun c => (chanItem c.fields).getD [])]
    · rfl
    · intro c hc
      simp only [Function.comp, fields_parse]
      exact (hL c hc).1

example : parseChans "0_10_5,3,5_7".toList 1024 = some [0, 5, 10, 3, 5, 6, 7] := by decide
example : (ChanSpec.strided 0 11 5).Ok ∧ (ChanSpec.strided 0 11 5).Means [0, 5, 10] := by
  refine ⟨by show (0:Int) < 5; decide, by decide, fun x => ?_⟩
  constructor
  · intro h
    simp at h
    rcases h with rfl | rfl | rfl <;> decide
  · rintro ⟨h1, h2, k, hk⟩
    have : k = 0 ∨ k = 1 ∨ k = 2 := by omega
    simp; omega

/-- C05: anything starting with `all` gives each channel below `nchan` exactly once, in order. -/
theorem c05_all (rest : List Char) (nchan : Nat) :
    ∃ L, parseChans ("all".toList ++ rest) nchan = some L ∧ L.Pairwise (· < ·) ∧
      ∀ x : Int, x ∈ L ↔ 0 ≤ x ∧ x < nchan := by
  refine ⟨_, if_pos rfl, ?_, ?_⟩
  · rw [List.pairwise_map]
    exact List.Pairwise.imp (fun h => by omega) List.pairwise_lt_range
  · intro x
    rw [List.mem_map]
    constructor
    · rintro ⟨k, hk, rfl⟩; rw [List.mem_range] at hk; omega
    · rintro ⟨h1, h2⟩
      exact ⟨x.toNat, by rw [List.mem_range]; omega, by omega⟩

example : parseChans "all".toList 3 = some [0, 1, 2] := by decide

/-- C05: a list containing an item with more than three fields is rejected, whatever else it contains. -/
theorem c05_too_many_fields_rejected (pre post : List (List Char)) (fields : List Int) (nchan : Nat)
    (hlen : 3 < fields.length) (hpre : ∀ p ∈ pre, ',' ∉ p) (hpost : ∀ p ∈ post, ',' ∉ p)
    (hall : startsWith "all".toList
      (joinWith ',' (pre ++ joinWith '_' (fields.map printInt) :: post)) = false) :
    parseChans (joinWith ',' (pre ++ joinWith '_' (fields.map printInt) :: post)) nchan = none := by
  have hc : ',' ∉ joinWith '_' (fields.map printInt) := by
    apply joinWith_not_mem (by decide)
    intro p hp
    rw [List.mem_map] at hp
    obtain ⟨z, _, rfl⟩ := hp
    exact printInt_not_mem z (by decide) (by decide)
  unfold parseChans
  rw [hall, splitOn_joinWith (by simp)]
  · rw [mapM_none_of]
    · rfl
    · refine ⟨joinWith '_' (fields.map printInt), by simp, ?_⟩
      rw [splitOn_joinWith]
      · rw [List.mapM_map, mapM_some_of (g := id)]
        · match fields, hlen with
          | _ :: _ :: _ :: _ :: _, _ => rfl
        · intro z _
          simp [parseInt_printInt]
      · intro h
        rw [List.map_eq_nil_iff] at h; subst h; simp at hlen
      · intro p hp
        rw [List.mem_map] at hp
        obtain ⟨z, _, rfl⟩ := hp
        exact printInt_not_mem z (by decide) (by decide)
  · intro p hp
    rw [List.mem_append, List.mem_cons] at hp
    rcases hp with h | h | h
    · exact hpre p h
    · subst h; exact hc
    · exact hpost p h

example : parseChans "1,2_3_4_5,6".toList 1024 = none := by decide

/-- C05 limit: with a negative stride the end point is not included (`30_20_-1` stops at 22), so the
positivity hypothesis of `c05_chan_list` is needed. -/
theorem c05_negative_stride_misses_end :
    parseChans "30_20_-1".toList 1024 = some [30, 29, 28, 27, 26, 25, 24, 23, 22] := by decide

/-- C05: a zero stride raises. -/
theorem c05_zero_stride_raises (a b : Int) : chanItem [a, b, 0] = none := rfl

end Verif.Scripting
