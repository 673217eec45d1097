import Verif.Miriad.SelectSpec
/-!
# Lemmas for record selection
-/
namespace Verif.Miriad

theorem tri_succ (n : Nat) (h : 1 ≤ n) : ((n + 1) * n) / 2 = (n * (n - 1)) / 2 + n := by
  obtain ⟨m, rfl⟩ : ∃ m, n = m + 1 := ⟨n - 1, by omega⟩
  have : (m + 1 + 1) * (m + 1) = (m + 1) * m + (m + 1) * 2 := by
    rw [Nat.mul_comm (m + 1 + 1), ← Nat.mul_add]
  rw [this, Nat.add_mul_div_right _ _ (by decide)]
  simp

theorem triT_mono {a b : Nat} (ha : 1 ≤ a) (h : a < b) :
    (a * (a - 1)) / 2 + a ≤ (b * (b - 1)) / 2 := by
  induction b with
  | zero => omega
  | succ b ih =>
    have hs := tri_succ b (by omega)
    rw [show b + 1 - 1 = b by omega, hs]
    rcases Nat.lt_or_ge a b with h2 | h2
    · have := ih h2; omega
    · have : a = b := by omega
      subst this; omega

theorem tri_inj {a b c d : Nat} (hb : 1 ≤ b) (hab : b ≤ a) (hd : 1 ≤ d) (hcd : d ≤ c)
    (h : tri a b = tri c d) : a = c ∧ b = d := by
  unfold tri at h
  rcases Nat.lt_trichotomy a c with hl | he | hl
  · have := triT_mono (by omega) hl; omega
  · subst he; omega
  · have := triT_mono (by omega) hl; omega

theorem setMany_apply (d : Bool) (idx : List Nat) (t : Nat → Bool) (k : Nat) :
    setMany d idx t k = if k ∈ idx then d else t k := by
  unfold setMany
  induction idx generalizing t with
  | nil => simp
  | cons i idx ih =>
    rw [List.foldl_cons, ih]
    by_cases h : k ∈ idx
    · simp [h]
    · by_cases h2 : k = i
      · simp [h2]
      · simp [h, h2]

/-! ### groups of operations -/

/-- discard flag of a group of operations of one type -/
def groupDiscard (r : Rec) (g : List Oper) : Bool :=
  match g with
  | [] => false
  | f :: _ => g.foldl (fun d op => if op.test r then op.discard else d) (!f.discard)

def toOper (c : Cond) : Oper := ⟨c.ty, !c.incl, c.test⟩

theorem foldl_find (r : Rec) (d : Bool) (g : List Cond) :
    (g.map toOper).foldl (fun d op => if op.test r then op.discard else d) d =
      match g.reverse.find? (fun c => c.test r) with
      | some c => !c.incl
      | none => d := by
  induction g generalizing d with
  | nil => rfl
  | cons c g ih =>
    rw [List.map_cons, List.foldl_cons, ih, List.reverse_cons, List.find?_append]
    cases h : g.reverse.find? (fun c => c.test r) with
    | some x => simp
    | none =>
      by_cases ht : c.test r = true
      · simp [ht, toOper]
      · simp [ht, toOper]

theorem groupDiscard_eq (r : Rec) (g : List Cond) :
    groupDiscard r (g.map toOper) = !groupKeeps r g := by
  cases g with
  | nil => rfl
  | cons c g =>
    have := foldl_find r (c.incl) (c :: g)
    unfold groupDiscard groupKeeps
    simp only [List.map_cons] at this ⊢
    have e : (!(toOper c).discard) = c.incl := by simp [toOper]
    rw [e, this]
    cases (c :: g).reverse.find? (fun c => c.test r) <;> simp

/-! ### sorted insertion -/

abbrev SortedOps (l : List Oper) : Prop := l.Pairwise (fun a b => a.ty ≤ b.ty)

theorem takeWhile_all {α : Type} (p : α → Bool) : ∀ l : List α, ∀ x ∈ l.takeWhile p, p x = true
  | [], x, h => by simp at h
  | a :: l, x, h => by
    rw [List.takeWhile_cons] at h
    split at h
    · rcases List.mem_cons.1 h with e | e
      · subst e; assumption
      · exact takeWhile_all p l x e
    · simp at h

theorem addOper_split (o : Oper) (l : List Oper) :
    ∃ front tail, l = front ++ tail ∧ addOper o l = front ++ o :: tail ∧
      (∀ p ∈ tail, p.ty > o.ty) ∧ (∀ p, front.getLast? = some p → p.ty ≤ o.ty) := by
  refine ⟨(l.reverse.dropWhile (fun p => decide (p.ty > o.ty))).reverse,
    (l.reverse.takeWhile (fun p => decide (p.ty > o.ty))).reverse, ?_, rfl, ?_, ?_⟩
  · rw [← List.reverse_append, List.takeWhile_append_dropWhile, List.reverse_reverse]
  · intro p hp
    rw [List.mem_reverse] at hp
    have := takeWhile_all _ _ p hp
    simpa using this
  · intro p hp
    rw [List.getLast?_reverse] at hp
    have := List.head?_dropWhile_not (fun p => decide (p.ty > o.ty)) l.reverse
    rw [hp] at this
    simpa using this

theorem addOper_sorted (o : Oper) (l : List Oper) (h : SortedOps l) : SortedOps (addOper o l) := by
  obtain ⟨front, tail, rfl, e, ht, hf⟩ := addOper_split o l
  rw [e]
  rw [SortedOps, List.pairwise_append] at h ⊢
  obtain ⟨h1, h2, h3⟩ := h
  have hfront : ∀ p ∈ front, p.ty ≤ o.ty := by
    intro p hp
    have hne : front ≠ [] := by intro e; subst e; cases hp
    have hl := hf (front.getLast hne) (List.getLast?_eq_some_getLast hne)
    have hd := List.dropLast_concat_getLast hne
    rw [← hd] at hp h1
    rw [List.pairwise_append] at h1
    rcases List.mem_append.1 hp with hp | hp
    · have := h1.2.2 p hp (front.getLast hne) (by simp)
      omega
    · simp at hp; subst hp; exact hl
  refine ⟨h1, ?_, ?_⟩
  · rw [List.pairwise_cons]
    exact ⟨fun p hp => Nat.le_of_lt (ht p hp), h2⟩
  · intro a ha b hb
    rcases List.mem_cons.1 hb with rfl | hb
    · exact hfront a ha
    · exact h3 a ha b hb

theorem addOper_filter (o : Oper) (l : List Oper) (t : Nat) :
    (addOper o l).filter (fun p => decide (p.ty = t)) =
      (l ++ [o]).filter (fun p => decide (p.ty = t)) := by
  obtain ⟨front, tail, rfl, e, ht, _⟩ := addOper_split o l
  rw [e]
  simp only [List.filter_append, List.filter_cons, List.filter_nil, List.append_assoc]
  congr 1
  by_cases h : o.ty = t
  · have : tail.filter (fun p => decide (p.ty = t)) = [] := by
      rw [List.filter_eq_nil_iff]
      intro p hp
      have := ht p hp
      simp; omega
    simp [h, this]
  · simp [h]

theorem addOper_mem (o : Oper) (l : List Oper) (p : Oper) :
    p ∈ addOper o l ↔ p = o ∨ p ∈ l := by
  obtain ⟨front, tail, rfl, e, _, _⟩ := addOper_split o l
  rw [e]
  simp only [List.mem_append, List.mem_cons]
  constructor
  · rintro (h | h | h) <;> simp [h]
  · rintro (h | h | h) <;> simp [h]

/-! ### the check sequence -/

theorem runGroup_eq (t : Nat) (r : Rec) : ∀ (ops : List Oper) (d : Bool), SortedOps ops →
    (∀ p ∈ ops, t ≤ p.ty) →
    runGroup t d r ops =
      ((ops.filter (fun p => decide (p.ty = t))).foldl
        (fun d op => if op.test r then op.discard else d) d,
       ops.filter (fun p => decide (p.ty ≠ t)))
  | [], _, _, _ => rfl
  | op :: ops, d, hs, hge => by
    rw [SortedOps, List.pairwise_cons] at hs
    rw [runGroup]
    by_cases h : op.ty = t
    · rw [if_pos h, runGroup_eq t r ops _ hs.2 (fun p hp => hge p (List.mem_cons_of_mem _ hp))]
      simp [h]
    · rw [if_neg h]
      have h1 : op.ty > t := by have := hge op (by simp); omega
      have hno : ∀ p ∈ op :: ops, p.ty ≠ t := by
        intro p hp
        rcases List.mem_cons.1 hp with rfl | hp
        · exact h
        · have := hs.1 p hp; omega
      have e1 : (op :: ops).filter (fun p => decide (p.ty = t)) = [] := by
        rw [List.filter_eq_nil_iff]
        intro p hp; simp [hno p hp]
      have e2 : (op :: ops).filter (fun p => decide (p.ty ≠ t)) = op :: ops := by
        rw [List.filter_eq_self]
        intro p hp; simp [hno p hp]
      rw [e1, e2]
      rfl

theorem runOps_nil (r : Rec) (ts : List Nat) : runOps r ts [] = false := by
  cases ts <;> rfl

theorem runOps_sorted (r : Rec) : ∀ (ts : List Nat) (ops : List Oper), ts.Pairwise (· < ·) →
    SortedOps ops → (∀ p ∈ ops, p.ty ∈ ts) →
    runOps r ts ops = ts.any (fun t => groupDiscard r (ops.filter (fun p => decide (p.ty = t))))
  | [], ops, _, _, _ => rfl
  | t :: ts, [], _, _, _ => by
    rw [runOps]; symm; rw [List.any_eq_false]; intro x _; simp [groupDiscard]
  | t :: ts, op :: ops, hts, hs, hm => by
    have hge : ∀ p ∈ op :: ops, t ≤ p.ty := by
      intro p hp
      rcases List.mem_cons.1 (hm p hp) with h | h
      · omega
      · rw [List.pairwise_cons] at hts
        exact Nat.le_of_lt (hts.1 _ h)
    have hts' := (List.pairwise_cons.1 hts)
    rw [runOps]
    by_cases h : op.ty = t
    · rw [if_pos h, runGroup_eq t r (op :: ops) _ hs hge]
      simp only
      have hgd : groupDiscard r ((op :: ops).filter (fun p => decide (p.ty = t))) =
          ((op :: ops).filter (fun p => decide (p.ty = t))).foldl
            (fun d op => if op.test r then op.discard else d) (!op.discard) := by
        have : (op :: ops).filter (fun p => decide (p.ty = t)) =
          op :: ops.filter (fun p => decide (p.ty = t)) := by simp [h]
        rw [this]; rfl
      rw [← hgd]
      set_option linter.unusedSimpArgs false in
      have hrest : ts.any (fun u => groupDiscard r
            (((op :: ops).filter (fun p => decide (p.ty ≠ t))).filter (fun p => decide (p.ty = u)))) =
          ts.any (fun u => groupDiscard r ((op :: ops).filter (fun p => decide (p.ty = u)))) := by
        rw [Bool.eq_iff_iff, List.any_eq_true, List.any_eq_true]
        have key : ∀ u ∈ ts, (((op :: ops).filter (fun p => decide (p.ty ≠ t))).filter
            (fun p => decide (p.ty = u))) = (op :: ops).filter (fun p => decide (p.ty = u)) := by
          intro u hu
          rw [List.filter_filter]
          apply List.filter_congr
          intro p _
          have : t < u := hts'.1 u hu
          by_cases hpu : p.ty = u
          · simp [hpu]; omega
          · simp [hpu]
        constructor
        · rintro ⟨u, hu, h⟩; rw [key u hu] at h; exact ⟨u, hu, h⟩
        · rintro ⟨u, hu, h⟩; rw [← key u hu] at h; exact ⟨u, hu, h⟩
      rw [List.any_cons]
      cases hd : groupDiscard r ((op :: ops).filter (fun p => decide (p.ty = t))) with
      | true => simp
      | false =>
        simp only [Bool.false_or]
        by_cases hr : ((op :: ops).filter (fun p => decide (p.ty ≠ t))) = []
        · rw [← hrest, hr]
          rw [if_pos (by rfl)]
          symm; rw [List.any_eq_false]; intro x _; simp [groupDiscard]
        · rw [if_neg (by simpa using hr)]
          rw [runOps_sorted r ts _ hts'.2 (List.Pairwise.filter _ hs)]
          · exact hrest
          · intro p hp
            rw [List.mem_filter] at hp
            rcases List.mem_cons.1 (hm p hp.1) with h | h
            · have := hp.2; simp at this; exact absurd h this
            · exact h
    · rw [if_neg h, List.any_cons]
      have hno : ∀ p ∈ op :: ops, p.ty ≠ t := by
        intro p hp
        rw [SortedOps, List.pairwise_cons] at hs
        have h1 := hge op (by simp)
        rcases List.mem_cons.1 hp with rfl | hp
        · exact h
        · have := hs.1 p hp; omega
      have e1 : (op :: ops).filter (fun p => decide (p.ty = t)) = [] := by
        rw [List.filter_eq_nil_iff]
        intro p hp; simp [hno p hp]
      rw [e1]
      simp only [groupDiscard, Bool.false_or]
      rw [runOps_sorted r ts (op :: ops) hts'.2 hs]
      · rfl
      · intro p hp
        rcases List.mem_cons.1 (hm p hp) with h | h
        · exact absurd h (hno p hp)
        · exact h

/-- type checks for which there is no operation do nothing -/
theorem runOps_skip (r : Rec) (q : Nat → Bool) : ∀ (ts : List Nat) (ops : List Oper),
    (∀ p ∈ ops, q p.ty = true) → runOps r ts ops = runOps r (ts.filter q) ops
  | [], _, _ => rfl
  | t :: ts, [], _ => by rw [runOps_nil, runOps_nil]
  | t :: ts, op :: ops, h => by
    rw [List.filter_cons]
    have hop := h op (by simp)
    by_cases hq : q t = true
    · rw [if_pos hq, runOps, runOps]
      by_cases ht : op.ty = t
      · rw [if_pos ht, if_pos ht]
        have hsub : ∀ p ∈ (runGroup t (!op.discard) r (op :: ops)).2, q p.ty = true := by
          have : ∀ (l : List Oper) (d : Bool), (∀ p ∈ l, q p.ty = true) →
              ∀ p ∈ (runGroup t d r l).2, q p.ty = true := by
            intro l
            induction l with
            | nil => intro d _ p hp; simp [runGroup] at hp
            | cons o l ih =>
              intro d hl p hp
              rw [runGroup] at hp
              split at hp
              · exact ih _ (fun p hp => hl p (List.mem_cons_of_mem _ hp)) p hp
              · exact hl p hp
          exact this _ _ h
        simp only
        split
        · rfl
        · exact runOps_skip r q ts _ hsub
      · rw [if_neg ht, if_neg ht]
        exact runOps_skip r q ts _ h
    · rw [if_neg hq, runOps, if_neg (by intro e; rw [e] at hop; exact hq hop)]
      exact runOps_skip r q ts _ h

theorem runOps_checkOrder (r : Rec) (ops : List Oper) (hs : SortedOps ops)
    (hm : ∀ p ∈ ops, 1 ≤ p.ty ∧ p.ty ≤ 19) :
    runOps r checkOrder ops = true ↔
      ∃ t, 1 ≤ t ∧ groupDiscard r (ops.filter (fun p => decide (p.ty = t))) = true := by
  rw [runOps_skip r (fun t => decide (1 ≤ t ∧ t ≤ 19)) checkOrder ops
    (fun p hp => by simpa using hm p hp)]
  have e : checkOrder.filter (fun t => decide (1 ≤ t ∧ t ≤ 19)) =
    [1, 2, 3, 4, 5, 6, 7, 8, 9, 10, 11, 12, 13, 14, 15, 16, 17, 18, 19] := by decide
  rw [e, runOps_sorted r _ ops (by decide) hs]
  · rw [List.any_eq_true]
    constructor
    · rintro ⟨t, ht, h⟩
      refine ⟨t, ?_, h⟩
      have hall : ∀ n ∈ [1, 2, 3, 4, 5, 6, 7, 8, 9, 10, 11, 12, 13, 14, 15, 16, 17, 18, 19],
        1 ≤ n := by decide
      exact hall t ht
    · rintro ⟨t, h1, h⟩
      refine ⟨t, ?_, h⟩
      have : ∃ p ∈ ops, p.ty = t := by
        have hne : ops.filter (fun p => decide (p.ty = t)) ≠ [] := by
          intro e; rw [e] at h; simp [groupDiscard] at h
        obtain ⟨p, hp⟩ := List.exists_mem_of_ne_nil _ hne
        rw [List.mem_filter] at hp
        exact ⟨p, hp.1, by simpa using hp.2⟩
      obtain ⟨p, hp, rfl⟩ := this
      have h2 := hm p hp
      have hall : ∀ n, n ≤ 19 → 1 ≤ n →
          n ∈ [1, 2, 3, 4, 5, 6, 7, 8, 9, 10, 11, 12, 13, 14, 15, 16, 17, 18, 19] := by decide
      exact hall _ h2.2 h2.1
  · intro p hp
    have hall : ∀ n, n ≤ 19 → 1 ≤ n →
          n ∈ [1, 2, 3, 4, 5, 6, 7, 8, 9, 10, 11, 12, 13, 14, 15, 16, 17, 18, 19] := by decide
    exact hall _ (hm p hp).2 (hm p hp).1

/-! ### antenna table -/

/-- updating the table by an antenna selection sets exactly the entries naming the record -/
theorem antennae_table {p1 p2 : Int} {incl : Bool} (h1 : 0 ≤ p1) (h2 : p1 ≤ 2048) (h3 : 0 ≤ p2)
    (h4 : p2 ≤ 2048) (cl : Clause) {r : Rec} (hr : OrderedRec r) :
    ∃ t, applyToClause (.antennae p1 p2 incl) cl = some { cl with ants := some t } ∧
      t (tri r.i2 r.i1) = if namesBaseline p1 p2 r then !incl
        else initAnts (!incl) cl.ants (tri r.i2 r.i1) := by
  obtain ⟨hr1, hr2, hr3⟩ := hr
  have hM : maxAnt = 2048 := rfl
  unfold applyToClause
  simp only
  rw [if_neg (show ¬ (max p1 p2 < 0 ∨ max p1 p2 > maxAnt) by omega),
    if_neg (show ¬ (min p1 p2 < 0 ∨ min p1 p2 > maxAnt) by omega)]
  by_cases hz : (max p1 p2).toNat = 0
  · rw [if_pos hz]
    refine ⟨_, rfl, ?_⟩
    have ha : p1 = 0 := by omega
    have hb : p2 = 0 := by omega
    subst ha; subst hb
    simp [namesBaseline]
  · rw [if_neg hz]
    by_cases hz2 : (min p1 p2).toNat = 0
    · rw [if_pos hz2]
      refine ⟨_, rfl, ?_⟩
      rw [setMany_apply, setMany_apply]
      generalize hm : (max p1 p2).toNat = m at *
      have hname : namesBaseline p1 p2 r = decide (m = r.i1 ∨ m = r.i2) := by
        rw [Bool.eq_iff_iff]
        unfold namesBaseline
        simp only [Bool.or_eq_true, Bool.and_eq_true, beq_iff_eq, decide_eq_true_eq]
        omega
      have hmem : (tri r.i2 r.i1 ∈ (List.range (maxAnt - m)).map (fun i => tri (m + 1 + i) m) ∨
          tri r.i2 r.i1 ∈ (List.range m).map (fun i => tri m (i + 1))) ↔ (m = r.i1 ∨ m = r.i2) := by
        simp only [List.mem_map, List.mem_range]
        constructor
        · rintro (⟨i, hi, h⟩ | ⟨i, hi, h⟩)
          · have := tri_inj (by omega) (by omega) (by omega) (by omega) h; omega
          · have := tri_inj (by omega) (by omega) (by omega) (by omega) h; omega
        · rintro (h | h)
          · rcases Nat.lt_or_ge m r.i2 with h5 | h5
            · left
              exact ⟨r.i2 - m - 1, by omega, by rw [show m + 1 + (r.i2 - m - 1) = r.i2 by omega, h]⟩
            · right
              have : r.i2 = m := by omega
              exact ⟨r.i1 - 1, by omega, by rw [this, show r.i1 - 1 + 1 = r.i1 by omega]⟩
          · right
            exact ⟨r.i1 - 1, by omega, by rw [h, show r.i1 - 1 + 1 = r.i1 by omega]⟩
      by_cases hk : m = r.i1 ∨ m = r.i2
      · simp only [hname, hk, decide_true, if_true]
        rcases hmem.2 hk with h | h
        · rw [if_pos h]
        · by_cases h' : tri r.i2 r.i1 ∈ (List.range (maxAnt - m)).map (fun i => tri (m + 1 + i) m)
          · rw [if_pos h']
          · rw [if_neg h', if_pos h]
      · have hk1 : ¬ _ := fun h => hk (hmem.1 (Or.inl h))
        have hk2 : ¬ _ := fun h => hk (hmem.1 (Or.inr h))
        rw [if_neg hk1, if_neg hk2, hname]
        simp [hk]
    · rw [if_neg hz2]
      refine ⟨_, rfl, ?_⟩
      rw [setMany_apply]
      have hname : namesBaseline p1 p2 r =
          decide ((max p1 p2).toNat = r.i2 ∧ (min p1 p2).toNat = r.i1) := by
        rw [Bool.eq_iff_iff]
        unfold namesBaseline
        simp only [Bool.or_eq_true, Bool.and_eq_true, beq_iff_eq, decide_eq_true_eq]
        omega
      rw [hname]
      simp only [List.mem_singleton]
      by_cases hk : (max p1 p2).toNat = r.i2 ∧ (min p1 p2).toNat = r.i1
      · rw [hk.1, hk.2]; simp
      · have : ¬ tri r.i2 r.i1 = tri (max p1 p2).toNat (min p1 p2).toNat := by
          intro h
          have := tri_inj (by omega) (by omega) (by omega) (by omega) h
          omega
        simp [this, hk]

theorem auto_table {incl : Bool} (cl : Clause) {r : Rec} (hr : OrderedRec r) :
    ∃ t, applyToClause (.auto incl) cl = some { cl with ants := some t } ∧
      t (tri r.i2 r.i1) = if r.i1 == r.i2 then !incl
        else initAnts (!incl) cl.ants (tri r.i2 r.i1) := by
  obtain ⟨hr1, hr2, hr3⟩ := hr
  refine ⟨_, rfl, ?_⟩
  rw [setMany_apply]
  have e : ∀ i, ((i + 1) * i) / 2 + i = tri (i + 1) (i + 1) := by
    intro i; unfold tri; simp
  have hmem : tri r.i2 r.i1 ∈ (List.range maxAnt).map (fun i => ((i + 1) * i) / 2 + i) ↔ r.i1 = r.i2 := by
    have hM : maxAnt = 2048 := rfl
    simp only [List.mem_map, List.mem_range, e]
    constructor
    · rintro ⟨i, hi, h⟩
      have := tri_inj (by omega) (by omega) (by omega) (by omega) h; omega
    · intro h
      exact ⟨r.i2 - 1, by omega, by rw [h, show r.i2 - 1 + 1 = r.i2 by omega]⟩
  by_cases h : r.i1 = r.i2
  · rw [if_pos (hmem.2 h)]; simp [h]
  · rw [if_neg (fun e => h (hmem.1 e))]; simp [h]

/-! ### refinement relation between a clause of the code and a clause of the specification -/

structure Rel (r : Rec) (cl : Clause) (s : SpecClause) : Prop where
  conj : cl.conj = s.conj
  antsNone : cl.ants = none → s.conds.filter (fun x => decide (x.ty = 0)) = []
  antsSome : ∀ t, cl.ants = some t → s.conds.filter (fun x => decide (x.ty = 0)) ≠ [] ∧
    t (tri r.i2 r.i1) = !groupKeeps r (s.conds.filter (fun x => decide (x.ty = 0)))
  sorted : SortedOps cl.opers
  types : ∀ p ∈ cl.opers, 1 ≤ p.ty ∧ p.ty ≤ 19
  opers : ∀ t, 1 ≤ t → cl.opers.filter (fun p => decide (p.ty = t)) =
    (s.conds.filter (fun x => decide (x.ty = t))).map toOper

theorem Rel.new (r : Rec) (b : Bool) : Rel r (newClause b) ⟨b, []⟩ where
  conj := rfl
  antsNone := fun _ => rfl
  antsSome := fun t h => by cases h
  sorted := List.Pairwise.nil
  types := fun p hp => by cases hp
  opers := fun _ _ => rfl

/-- last matching condition wins -/
theorem groupKeeps_snoc (r : Rec) (g : List Cond) (c : Cond) :
    groupKeeps r (g ++ [c]) = if c.test r then c.incl else
      (if g = [] then !c.incl else groupKeeps r g) := by
  cases g with
  | nil => by_cases h : c.test r = true <;> simp [groupKeeps, h]
  | cons a g =>
    unfold groupKeeps
    simp only [List.cons_append]
    rw [← List.cons_append, List.reverse_append]
    simp only [List.reverse_cons, List.reverse_nil, List.nil_append, List.cons_append,
      List.find?_cons]
    by_cases h : c.test r = true
    · simp [h]
    · simp [h]

/-- adding an antenna-type condition -/
theorem Rel.addAnt {r : Rec} {cl : Clause} {s : SpecClause} (h : Rel r cl s) {incl : Bool}
    {test : Rec → Bool} {t : Nat → Bool}
    (ht : t (tri r.i2 r.i1) = if test r then !incl else initAnts (!incl) cl.ants (tri r.i2 r.i1)) :
    Rel r { cl with ants := some t } ⟨s.conj, s.conds ++ [⟨0, incl, test⟩]⟩ where
  conj := h.conj
  antsNone := fun e => by cases e
  antsSome := fun t' e => by
    cases e
    rw [List.filter_append]
    simp only [List.filter_cons, decide_true, if_true, List.filter_nil]
    refine ⟨by simp, ?_⟩
    rw [ht, groupKeeps_snoc]
    by_cases htest : test r = true
    · simp [htest]
    · simp only [htest, Bool.false_eq_true, if_false]
      cases ha : cl.ants with
      | none =>
        have := h.antsNone ha
        rw [this]; simp [initAnts]
      | some t0 =>
        obtain ⟨h1, h2⟩ := h.antsSome t0 ha
        rw [if_neg h1]
        simp only [initAnts]
        exact h2
  sorted := h.sorted
  types := h.types
  opers := fun u hu => by
    rw [List.filter_append]
    have : ¬ (0 = u) := by omega
    simp [this, h.opers u hu]

/-- adding an operation -/
theorem Rel.addOper {r : Rec} {cl : Clause} {s : SpecClause} (h : Rel r cl s) {incl : Bool}
    {test : Rec → Bool} {ty : Nat} (h1 : 1 ≤ ty) (h2 : ty ≤ 19) :
    Rel r { cl with opers := addOper ⟨ty, !incl, test⟩ cl.opers }
      ⟨s.conj, s.conds ++ [⟨ty, incl, test⟩]⟩ where
  conj := h.conj
  antsNone := fun e => by
    have h0 : ¬ ty = 0 := by omega
    rw [List.filter_append, h.antsNone e]; simp [h0]
  antsSome := fun t e => by
    have h0 : ¬ ty = 0 := by omega
    rw [List.filter_append]; simp only [List.filter_cons, h0, decide_false, Bool.false_eq_true,
      if_false, List.filter_nil, List.append_nil]
    exact h.antsSome t e
  sorted := addOper_sorted _ _ h.sorted
  types := fun p hp => by
    rcases (addOper_mem _ _ p).1 hp with rfl | hp
    · exact ⟨h1, h2⟩
    · exact h.types p hp
  opers := fun u hu => by
    rw [addOper_filter, List.filter_append, List.filter_append, h.opers u hu]
    by_cases e : ty = u
    · simp [e, toOper]
    · simp [e]

/-- the clause of the code discards exactly what the specification does not keep -/
theorem Rel.discard {r : Rec} {cl : Clause} {s : SpecClause} (h : Rel r cl s) (hr : OrderedRec r) :
    clauseDiscard r cl = false ↔ s.Keeps r := by
  obtain ⟨hr1, hr2, hr3⟩ := hr
  have hants : antsDiscard r cl =
      !groupKeeps r (s.conds.filter (fun x => decide (x.ty = 0))) := by
    unfold antsDiscard
    cases ha : cl.ants with
    | none => rw [h.antsNone ha]; rfl
    | some t =>
      have hM : maxAnt = 2048 := rfl
      simp only
      rw [if_neg (by omega)]
      exact (h.antsSome t ha).2
  have hops : (runOps r checkOrder cl.opers = false) ↔
      ∀ t, 1 ≤ t → groupKeeps r (s.conds.filter (fun x => decide (x.ty = t))) = true := by
    rw [← Bool.not_eq_true, runOps_checkOrder r cl.opers h.sorted h.types]
    constructor
    · intro hn t ht
      cases hk : groupKeeps r (s.conds.filter (fun x => decide (x.ty = t))) with
      | true => rfl
      | false => exact absurd ⟨t, ht, by rw [h.opers t ht, groupDiscard_eq, hk]; rfl⟩ hn
    · rintro hk ⟨t, ht, hd⟩
      rw [h.opers t ht, groupDiscard_eq, hk t ht] at hd
      cases hd
  unfold clauseDiscard
  rw [hants]
  unfold SpecClause.Keeps
  cases hk : groupKeeps r (s.conds.filter (fun x => decide (x.ty = 0))) with
  | false =>
    simp only [Bool.not_false, if_true]
    constructor
    · intro h; cases h
    · intro hall; rw [hall 0] at hk; cases hk
  | true =>
    simp only [Bool.not_true, Bool.false_eq_true, if_false]
    rw [hops]
    constructor
    · intro hall t
      rcases Nat.eq_zero_or_pos t with rfl | hp
      · exact hk
      · exact hall t hp
    · intro hall t _; exact hall t

/-! ### lists of clauses -/

/-- pointwise relation -/
inductive RelList (r : Rec) : List Clause → List SpecClause → Prop
  | nil : RelList r [] []
  | cons {c s cs ss} : Rel r c s → RelList r cs ss → RelList r (c :: cs) (s :: ss)

theorem RelList.append {r : Rec} {a b} {s t} (h1 : RelList r a s) (h2 : RelList r b t) :
    RelList r (a ++ b) (s ++ t) := by
  induction h1 with
  | nil => exact h2
  | cons h _ ih => exact .cons h ih

theorem RelList.nil_iff {r : Rec} {a s} (h : RelList r a s) : a = [] ↔ s = [] := by
  cases h <;> simp

theorem selected_step {r : Rec} {a s} (h : RelList r a s) (hr : OrderedRec r) (b : Bool) (p : Prop)
    (hbp : b = true ↔ p) :
    (a.foldl (fun selprev cl =>
      if (!selprev && cl.conj) || (selprev && !cl.conj) then selprev
      else !(clauseDiscard r cl)) b = true) ↔
    s.foldl (fun (p : Prop) c => if c.conj then p ∧ c.Keeps r else p ∨ c.Keeps r) p := by
  induction h generalizing b p with
  | nil => exact hbp
  | @cons c s' cs ss h _ ih =>
    rw [List.foldl_cons, List.foldl_cons]
    apply ih
    have hd := h.discard hr
    have hc := h.conj
    rw [← hc]
    cases b <;> cases hcc : c.conj <;> simp [hd, ← hbp]

theorem addCond_append (c : Cond) (ss : List SpecClause) (s : SpecClause) :
    addCond c (ss ++ [s]) = ss ++ [⟨s.conj, s.conds ++ [c]⟩] := by
  induction ss with
  | nil => rfl
  | cons a ss ih =>
    cases ss with
    | nil => rfl
    | cons b ss => exact congrArg (a :: ·) ih

theorem RelList.snoc_inv {r : Rec} : ∀ {cs c ss}, RelList r (cs ++ [c]) ss →
    ∃ ss' s, ss = ss' ++ [s] ∧ RelList r cs ss' ∧ Rel r c s
  | [], c, _, .cons h .nil => ⟨[], _, rfl, .nil, h⟩
  | a :: cs, c, _, .cons (s := s0) h hs => by
    obtain ⟨ss', s, rfl, h1, h2⟩ := RelList.snoc_inv hs
    exact ⟨s0 :: ss', s, rfl, .cons h h1, h2⟩

/-- applying a condition call to related clause lists -/
theorem apply_last {r : Rec} {call : SelCall} {cond : Cond}
    (hap : ∀ cl s, Rel r cl s → ∃ cl', applyToClause call cl = some cl' ∧
      Rel r cl' ⟨s.conj, s.conds ++ [cond]⟩)
    (hsel : ∀ sel, uvselect call sel =
      match (if sel.isEmpty then [newClause true] else sel).getLast? with
      | none => none
      | some cl => (applyToClause call cl).map
        (fun cl' => (if sel.isEmpty then [newClause true] else sel).dropLast ++ [cl']))
    {a s} (h : RelList r a s) :
    ∃ a', uvselect call a = some a' ∧ RelList r a' (addCond cond s) := by
  rw [hsel a]
  have hcase : a = [] ∨ ∃ cs c, a = cs ++ [c] := by
    rcases List.eq_nil_or_concat a with h | ⟨l, b, h⟩
    · exact Or.inl h
    · exact Or.inr ⟨l, b, by simpa using h⟩
  rcases hcase with rfl | ⟨cs, c, rfl⟩
  · have hs : s = [] := h.nil_iff.1 rfl
    subst hs
    obtain ⟨cl', e, hr⟩ := hap (newClause true) ⟨true, []⟩ (Rel.new r true)
    simp only [List.isEmpty_nil, if_true, List.getLast?_singleton, e, Option.map_some,
      List.dropLast_singleton, List.nil_append]
    exact ⟨[cl'], rfl, .cons hr .nil⟩
  · obtain ⟨ss', s0, rfl, h1, h2⟩ := RelList.snoc_inv h
    obtain ⟨cl', e, hr⟩ := hap c s0 h2
    have hne : (cs ++ [c]).isEmpty = false := by simp
    rw [hne]
    simp only [Bool.false_eq_true, if_false, List.getLast?_concat, e, Option.map_some,
      List.dropLast_concat]
    exact ⟨cs ++ [cl'], rfl, by rw [addCond_append]; exact h1.append (.cons hr .nil)⟩

theorem step_rel {r : Rec} (hr : OrderedRec r) (c : SelCall) (hc : OkCall c) {a s}
    (h : RelList r a s) : ∃ a', uvselect c a = some a' ∧ RelList r a' (specStep s c) := by
  cases c with
  | clear => exact ⟨[], rfl, .nil⟩
  | conj =>
    unfold uvselect specStep
    by_cases e : a = []
    · have := h.nil_iff.1 e; subst this; subst e; exact ⟨[], by simp, .nil⟩
    · have e2 : s ≠ [] := fun e2 => e (h.nil_iff.2 e2)
      simp only [e, if_false, List.isEmpty_iff, e2]
      exact ⟨_, rfl, h.append (.cons (Rel.new r true) .nil)⟩
  | disj =>
    unfold uvselect specStep
    by_cases e : a = []
    · have := h.nil_iff.1 e; subst this; subst e; exact ⟨[], by simp, .nil⟩
    · have e2 : s ≠ [] := fun e2 => e (h.nil_iff.2 e2)
      simp only [e, if_false, List.isEmpty_iff, e2]
      exact ⟨_, rfl, h.append (.cons (Rel.new r false) .nil)⟩
  | antennae p1 p2 incl =>
    obtain ⟨h1, h2, h3, h4⟩ := hc
    refine apply_last (cond := ⟨0, incl, namesBaseline p1 p2⟩) ?_ (fun _ => rfl) h
    intro cl s' hrel
    obtain ⟨t, e, ht⟩ := antennae_table h1 h2 h3 h4 cl hr (incl := incl)
    exact ⟨_, e, hrel.addAnt ht⟩
  | auto incl =>
    refine apply_last (cond := ⟨0, incl, fun r => r.i1 == r.i2⟩) ?_ (fun _ => rfl) h
    intro cl s' hrel
    obtain ⟨t, e, ht⟩ := auto_table cl hr (incl := incl)
    exact ⟨_, e, hrel.addAnt (test := fun r => r.i1 == r.i2) ht⟩
  | oper ty test incl =>
    obtain ⟨h1, h2⟩ := hc
    refine apply_last (cond := ⟨ty, incl, test⟩) ?_ (fun _ => rfl) h
    intro cl s' hrel
    exact ⟨_, rfl, hrel.addOper h1 h2⟩

theorem run_rel {r : Rec} (hr : OrderedRec r) : ∀ (cs : List SelCall), (∀ c ∈ cs, OkCall c) →
    ∀ {a s}, RelList r a s → ∃ a', cs.foldlM (fun sel c => uvselect c sel) a = some a' ∧
      RelList r a' (cs.foldl specStep s)
  | [], _, a, _, h => ⟨a, rfl, h⟩
  | c :: cs, hok, a, s, h => by
    obtain ⟨a1, e1, h1⟩ := step_rel hr c (hok c (by simp)) h
    obtain ⟨a2, e2, h2⟩ := run_rel hr cs (fun c hc => hok c (List.mem_cons_of_mem _ hc)) h1
    refine ⟨a2, ?_, h2⟩
    rw [List.foldlM_cons, e1]
    exact e2

end Verif.Miriad
