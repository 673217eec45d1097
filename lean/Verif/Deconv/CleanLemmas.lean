import Verif.Deconv.Clean
import Mathlib.Algebra.BigOperators.Group.Finset.Basic
import Mathlib.Algebra.BigOperators.Group.Finset.Piecewise
import Mathlib.Algebra.Order.BigOperators.Group.Finset
import Mathlib.Algebra.BigOperators.Pi
import Mathlib.Data.Fintype.BigOperators
import Mathlib.Data.Fintype.Card
import Mathlib.Tactic.Ring
import Mathlib.Tactic.Linarith
import Mathlib.Tactic.Abel

/-! Helper lemmas about the CLEAN model: closed forms of its loops. -/

namespace Verif.Deconv

set_option linter.unusedSectionVars false

variable {ι K R : Type} [AddCommGroup ι] [DecidableEq ι] [Field K] [Field R] [LinearOrder R]

/-- A loop that rewrites one wrapped position per step. -/
theorem fold_update (a : ι) (f : ι → K → K) (l : List ι) (hl : l.Nodup) (r : ι → K) (x : ι) :
    (l.foldl (fun r n => Function.update r (n + a) (f n (r (n + a)))) r) x =
      if x - a ∈ l then f (x - a) (r x) else r x := by
  induction l generalizing r with
  | nil => simp
  | cons n l ih =>
    rw [List.nodup_cons] at hl
    rw [List.foldl_cons, ih hl.2]
    by_cases h : x = n + a
    · subst h
      have : n + a - a = n := by abel
      simp [this, hl.1]
    · have hx : x - a ≠ n := by
        intro h'; apply h; rw [← h']; abel
      simp [Function.update_of_ne h, hx]

theorem scan_fold_res (c : Cfg ι K R) (a : ι) (st : K) (l : List ι) (s : Scan ι K R) :
    (l.foldl (scanStep c a st) s).res =
      l.foldl (fun r n => Function.update r (n + a) (r (n + a) - c.ker n * st)) s.res := by
  induction l generalizing s with
  | nil => rfl
  | cons n l ih =>
    rw [List.foldl_cons, List.foldl_cons, ih]
    congr 1
    unfold scanStep
    dsimp only
    split <;> rfl

variable {c : Cfg ι K R}

theorem scan_res (hn : c.order.Nodup) (hc : ∀ x, x ∈ c.order) (s : St ι K R) (x : ι) :
    (scan c s).res x = s.res x - c.ker (x - s.argmax) * stepOf c s := by
  unfold scan
  rw [scan_fold_res, fold_update s.argmax (fun n v => v - c.ker n * stepOf c s) _ hn]
  simp [hc]

theorem undoRes_apply (hn : c.order.Nodup) (hc : ∀ x, x ∈ c.order) (a : ι) (st : K) (r : ι → K) (x : ι) :
    undoRes c a st r x = r x + c.ker (x - a) * st := by
  unfold undoRes
  rw [fold_update a (fun n v => v + c.ker n * st) _ hn]
  simp [hc]

theorem save_fold (a : ι) (st : K) (res mdl : ι → K) (l : List ι) (b : (ι → K) × (ι → K)) :
    l.foldl (fun (b : (ι → K) × (ι → K)) n =>
      (Function.update b.1 (n + a) (res (n + a) + c.ker n * st), Function.update b.2 n (mdl n))) b =
    (l.foldl (fun r n => Function.update r (n + a) (res (n + a) + c.ker n * st)) b.1,
     l.foldl (fun r n => Function.update r n (mdl n)) b.2) := by
  induction l generalizing b with
  | nil => rfl
  | cons n l ih => rw [List.foldl_cons, ih]; rfl

theorem saveBest_fst (hn : c.order.Nodup) (hc : ∀ x, x ∈ c.order) (a : ι) (st : K) (res mdl : ι → K)
    (b : (ι → K) × (ι → K)) (x : ι) :
    (saveBest c a st res mdl b).1 x = res x + c.ker (x - a) * st := by
  unfold saveBest
  rw [save_fold]
  dsimp only
  rw [fold_update a (fun n _ => res (n + a) + c.ker n * st) _ hn]
  simp [hc]

theorem saveBest_snd (hn : c.order.Nodup) (hc : ∀ x, x ∈ c.order) (a : ι) (st : K) (res mdl : ι → K)
    (b : (ι → K) × (ι → K)) :
    (saveBest c a st res mdl b).2 = Function.update mdl a (mdl a - st) := by
  unfold saveBest
  rw [save_fold]
  dsimp only
  have key : (c.order.foldl (fun r n => Function.update r n (mdl n)) b.2) = mdl := by
    funext x
    have := fold_update (K := K) 0 (fun n _ => mdl n) c.order hn b.2 x
    simp only [add_zero, sub_zero, hc, if_true] at this
    exact this
  rw [key]

/-- The score the loop adds up is a sum over all positions. -/
theorem scan_fold_nscore (a : ι) (st : K) (l : List ι) (hl : l.Nodup) (s : Scan ι K R) :
    (l.foldl (scanStep c a st) s).nscore =
      s.nscore + (l.map fun n => c.mag2 (s.res (n + a) - c.ker n * st)).sum := by
  induction l generalizing s with
  | nil => simp
  | cons n l ih =>
    rw [List.nodup_cons] at hl
    rw [List.foldl_cons, ih hl.2]
    have h1 : (scanStep c a st s n).nscore = s.nscore + c.mag2 (s.res (n + a) - c.ker n * st) := by
      unfold scanStep; dsimp only; split <;> rfl
    have h2 : (scanStep c a st s n).res =
        Function.update s.res (n + a) (s.res (n + a) - c.ker n * st) := by
      unfold scanStep; dsimp only; split <;> rfl
    rw [h1, h2, List.map_cons, List.sum_cons, add_assoc]
    congr 2
    apply congrArg
    apply List.map_congr_left
    intro m hm
    have : m + a ≠ n + a := by
      intro h; apply hl.1; rwa [← add_right_cancel h]
    rw [Function.update_of_ne this]

theorem sum_order [Fintype ι] (hn : c.order.Nodup) (hc : ∀ x, x ∈ c.order) (f : ι → R) :
    (c.order.map f).sum = ∑ x, f x := by
  have h : c.order.toFinset = Finset.univ := by ext; simp [hc]
  rw [← h, List.sum_toFinset _ hn]

theorem length_order [Fintype ι] (hn : c.order.Nodup) (hc : ∀ x, x ∈ c.order) :
    c.order.length = Fintype.card ι := by
  have h : c.order.toFinset = Finset.univ := by ext; simp [hc]
  rw [← List.toFinset_card_of_nodup hn, h, Finset.card_univ]

theorem scan_nscore [Fintype ι] (hn : c.order.Nodup) (hc : ∀ x, x ∈ c.order) (s : St ι K R) :
    (scan c s).nscore = ∑ x, c.mag2 ((scan c s).res x) := by
  have h : (scan c s).nscore =
      (c.order.map fun n => c.mag2 ((scan c s).res (n + s.argmax))).sum := by
    conv_lhs => unfold scan
    rw [scan_fold_nscore _ _ _ hn]
    simp only [zero_add]
    apply congrArg
    apply List.map_congr_left
    intro n _
    rw [scan_res hn hc]
    congr 3
    abel_nf
  rw [h, sum_order hn hc]
  exact Fintype.sum_equiv (Equiv.addRight s.argmax) _ _ (fun x => rfl)

/-- What the inner loop knows about the maximum after having visited a list of positions. -/
theorem scan_fold_max [IsStrictOrderedRing R] (a : ι) (st : K)
    (l : List ι) (hl : l.Nodup) (s : Scan ι K R) :
    let t := l.foldl (scanStep c a st) s
    s.mmax ≤ t.mmax ∧
    ((t.max = s.max ∧ t.nargmax = s.nargmax ∧ t.mmax = s.mmax) ∨
      (∃ n ∈ l, t.nargmax = n + a ∧ t.max = s.res (n + a) - c.ker n * st ∧ t.mmax = c.mag2 t.max ∧
        c.area (n + a) = true ∧ (c.posDef = true → c.isPos t.max = true))) ∧
    (∀ n ∈ l, c.area (n + a) = true → (c.posDef = true → c.isPos (s.res (n + a) - c.ker n * st) = true) →
      c.mag2 (s.res (n + a) - c.ker n * st) ≤ t.mmax) := by
  induction l generalizing s with
  | nil => simp
  | cons n l ih =>
    rw [List.nodup_cons] at hl
    have h2 : (scanStep c a st s n).res =
        Function.update s.res (n + a) (s.res (n + a) - c.ker n * st) := by
      unfold scanStep; dsimp only; split <;> rfl
    have hne : ∀ m ∈ l, (scanStep c a st s n).res (m + a) = s.res (m + a) := by
      intro m hm
      rw [h2, Function.update_of_ne]
      intro h; apply hl.1; rwa [← add_right_cancel h]
    obtain ⟨i1, i2, i3⟩ := ih hl.2 (scanStep c a st s n)
    dsimp only [List.foldl_cons]
    have hstep : (s.mmax < c.mag2 (s.res (n + a) - c.ker n * st) ∧
          (c.posDef = true → c.isPos (s.res (n + a) - c.ker n * st) = true) ∧ c.area (n + a) = true ∧
          (scanStep c a st s n).mmax = c.mag2 (s.res (n + a) - c.ker n * st) ∧
          (scanStep c a st s n).max = s.res (n + a) - c.ker n * st ∧
          (scanStep c a st s n).nargmax = n + a) ∨
        (¬ (s.mmax < c.mag2 (s.res (n + a) - c.ker n * st) ∧
          (c.posDef = true → c.isPos (s.res (n + a) - c.ker n * st) = true) ∧ c.area (n + a) = true) ∧
          (scanStep c a st s n).mmax = s.mmax ∧ (scanStep c a st s n).max = s.max ∧
          (scanStep c a st s n).nargmax = s.nargmax) := by
      unfold scanStep
      dsimp only
      split
      · rename_i h
        simp only [Bool.and_eq_true, decide_eq_true_eq, Bool.or_eq_true, Bool.not_eq_true'] at h
        left
        refine ⟨h.1.1, ?_, h.2, rfl, rfl, rfl⟩
        intro hp
        rcases h.1.2 with h' | h'
        · rw [hp] at h'; cases h'
        · exact h'
      · rename_i h
        simp only [Bool.and_eq_true, decide_eq_true_eq, Bool.or_eq_true, Bool.not_eq_true'] at h
        right
        refine ⟨?_, rfl, rfl, rfl⟩
        rintro ⟨h1, h2, h3⟩
        apply h
        refine ⟨⟨h1, ?_⟩, h3⟩
        cases hp : c.posDef
        · left; rfl
        · right; exact h2 hp
    refine ⟨?_, ?_, ?_⟩
    · rcases hstep with ⟨h, -, -, he, -⟩ | ⟨-, he, -⟩
      · rw [he] at i1; exact le_trans (le_of_lt h) i1
      · rw [he] at i1; exact i1
    · rcases i2 with ⟨e1, e2, e3⟩ | ⟨m, hm, e1, e2, e3, e4, e5⟩
      · rcases hstep with ⟨h, hp, ha, he, hx, hg⟩ | ⟨-, he, hx, hg⟩
        · right
          refine ⟨n, List.mem_cons_self, ?_, ?_, ?_, ha, ?_⟩
          · rw [e2, hg]
          · rw [e1, hx]
          · rw [e3, e1, hx, he]
          · rw [e1, hx]; exact hp
        · left
          exact ⟨e1.trans hx, e2.trans hg, e3.trans he⟩
      · right
        refine ⟨m, List.mem_cons_of_mem _ hm, e1, ?_, e3, e4, e5⟩
        rw [e2, hne m hm]
    · intro m hm ha hp
      rcases List.mem_cons.mp hm with h | h
      · subst h
        rcases hstep with ⟨_, -, -, he, -⟩ | ⟨h', he, -⟩
        · rw [← he]; exact i1
        · by_contra hlt
          apply h'
          refine ⟨?_, hp, ha⟩
          rw [← he]
          exact lt_of_le_of_lt i1 (not_le.mp hlt)
      · rw [← hne m h]
        exact i3 m h ha (by rw [hne m h]; exact hp)

/-- The new maximum: either nothing eligible was seen and `max`, `argmax` keep their old values, or it is
an eligible position of largest magnitude. -/
theorem scan_max [IsStrictOrderedRing R] (hm : ∀ x, 0 ≤ c.mag2 x) (hn : c.order.Nodup)
    (hc : ∀ x, x ∈ c.order) (s : St ι K R) :
    (((scan c s).max = s.max ∧ (scan c s).nargmax = s.argmax ∧
        ∀ x, c.area x = true → (c.posDef = true → c.isPos ((scan c s).res x) = true) → False) ∨
      ((scan c s).max = (scan c s).res (scan c s).nargmax ∧ c.area (scan c s).nargmax = true ∧
        (c.posDef = true → c.isPos (scan c s).max = true) ∧
        ∀ x, c.area x = true → (c.posDef = true → c.isPos ((scan c s).res x) = true) →
          c.mag2 ((scan c s).res x) ≤ c.mag2 ((scan c s).max))) := by
  have hres : ∀ n, (scan c s).res (n + s.argmax) = s.res (n + s.argmax) - c.ker n * stepOf c s := by
    intro n; rw [scan_res hn hc]; congr 3; abel
  obtain ⟨i1, i2, i3⟩ := scan_fold_max (c := c) s.argmax (stepOf c s) c.order hn
    { res := s.res, nscore := 0, mmax := -1, max := s.max, nargmax := s.argmax }
  change -1 ≤ (scan c s).mmax at i1
  change ((scan c s).max = s.max ∧ (scan c s).nargmax = s.argmax ∧ (scan c s).mmax = -1) ∨ _ at i2
  have i3' : ∀ x, c.area x = true → (c.posDef = true → c.isPos ((scan c s).res x) = true) →
      c.mag2 ((scan c s).res x) ≤ (scan c s).mmax := by
    intro x ha hp
    have hx : x = (x - s.argmax) + s.argmax := by abel
    rw [hx] at ha hp ⊢
    rw [hres] at hp ⊢
    exact i3 _ (hc _) ha hp
  rcases i2 with ⟨e1, e2, e3⟩ | ⟨n, -, e1, e2, e3, e4, e5⟩
  · left
    refine ⟨e1, e2, ?_⟩
    intro x ha hp
    have h1 := i3' x ha hp
    rw [e3] at h1
    have h2 := hm ((scan c s).res x)
    linarith
  · right
    change (scan c s).nargmax = _ at e1
    change (scan c s).max = _ at e2
    change (scan c s).mmax = c.mag2 (scan c s).max at e3
    change c.posDef = true → c.isPos (scan c s).max = true at e5
    refine ⟨?_, ?_, e5, ?_⟩
    · rw [e1, e2, hres]
    · rw [e1]; exact e4
    · intro x ha hp
      rw [← e3]; exact i3' x ha hp

/-- Induction over the turns of the loop. -/
theorem run_induct {P : St ι K R → Prop} {Q : Out ι K → Prop}
    (hstop : ∀ s o, P s → turn c s = .inl o → Q o)
    (hgo : ∀ s s', P s → turn c s = .inr s' → P s') :
    ∀ (fuel : Nat) (s : St ι K R) (o : Out ι K), P s → run c fuel s = some o → Q o := by
  intro fuel
  induction fuel with
  | zero => intro s o _ h; cases h
  | succ fuel ih =>
    intro s o hs h
    unfold run at h
    cases ht : turn c s with
    | inl o' =>
      rw [ht] at h
      have : o' = o := by injection h
      subst this
      exact hstop s _ hs ht
    | inr s' =>
      rw [ht] at h
      exact ih s' o (hgo s s' hs ht) h

/-- The three ways in which the function returns. -/
theorem turn_inl {s : St ι K R} {o : Out ι K} (h : turn c s = .inl o) :
    (¬ (s.i : Int) < c.maxiter ∧ o = finish c s) ∨
    ((s.i : Int) < c.maxiter ∧ 0 < s.score ∧ s.score < nscoreOf c s ∧ c.stopIfDiv = true ∧
      o = { res := undoRes c s.argmax (stepOf c s) (scan c s).res,
            mdl := Function.update (addComp c s) s.argmax (addComp c s s.argmax - stepOf c s),
            code := -(s.i : Int), exit := .divergence }) ∨
    ((s.i : Int) < c.maxiter ∧ 0 < s.score ∧ nscoreOf c s ≤ s.score ∧
      (s.score - nscoreOf c s) / firstOf c s < c.tol ∧
      o = { res := (scan c s).res, mdl := addComp c s, code := s.i, exit := .tolerance }) := by
  unfold turn at h
  split at h
  · rename_i hi
    unfold iter at h
    split at h
    · rename_i hd
      split at h
      · rename_i hs
        right; left
        injection h with h
        exact ⟨hi, hd.1, hd.2, hs, h.symm⟩
      · split at h <;> cases h
    · rename_i hd
      split at h
      · rename_i ht
        right; right
        injection h with h
        exact ⟨hi, ht.1, not_lt.mp fun hlt => hd ⟨ht.1, hlt⟩, ht.2, h.symm⟩
      · split at h <;> cases h
  · rename_i hi
    left
    injection h with h
    exact ⟨hi, h.symm⟩

/-- The ways in which the loop goes on: after a divergence (with or without saving), or after an
improvement (with or without resetting the counter). -/
theorem turn_inr {s s' : St ι K R} (h : turn c s = .inr s') :
    (s.i : Int) < c.maxiter ∧
    ((0 < s.score ∧ s.score < nscoreOf c s ∧ c.stopIfDiv = false ∧
        (s.bestScore < 0 ∨ s.score < s.bestScore) ∧
        s' = { advance c s with
               bestRes := (saveBest c s.argmax (stepOf c s) (scan c s).res (addComp c s)
                 (s.bestRes, s.bestMdl)).1
               bestMdl := (saveBest c s.argmax (stepOf c s) (scan c s).res (addComp c s)
                 (s.bestRes, s.bestMdl)).2
               bestScore := s.score, i := 0 + 1 }) ∨
     (0 < s.score ∧ s.score < nscoreOf c s ∧ c.stopIfDiv = false ∧
        ¬ (s.bestScore < 0 ∨ s.score < s.bestScore) ∧ s' = advance c s) ∨
     ((0 < s.score → nscoreOf c s ≤ s.score ∧ c.tol ≤ (s.score - nscoreOf c s) / firstOf c s) ∧
        c.stopIfDiv = false ∧ (s.bestScore < 0 ∨ nscoreOf c s < s.bestScore) ∧
        s' = { advance c s with i := 0 + 1 }) ∨
     ((0 < s.score → nscoreOf c s ≤ s.score ∧ c.tol ≤ (s.score - nscoreOf c s) / firstOf c s) ∧
        ¬ (c.stopIfDiv = false ∧ (s.bestScore < 0 ∨ nscoreOf c s < s.bestScore)) ∧
        s' = advance c s)) := by
  unfold turn at h
  split at h
  · rename_i hi
    refine ⟨hi, ?_⟩
    unfold iter at h
    split at h
    · rename_i hd
      split at h
      · cases h
      · rename_i hs
        have hs' : c.stopIfDiv = false := by simpa using hs
        split at h
        · rename_i hb
          left
          injection h with h
          exact ⟨hd.1, hd.2, hs', hb, h.symm⟩
        · rename_i hb
          right; left
          injection h with h
          exact ⟨hd.1, hd.2, hs', hb, h.symm⟩
    · rename_i hd
      split at h
      · cases h
      · rename_i ht
        have key : 0 < s.score → nscoreOf c s ≤ s.score ∧
            c.tol ≤ (s.score - nscoreOf c s) / firstOf c s := fun hp =>
          ⟨not_lt.mp fun hlt => hd ⟨hp, hlt⟩, not_lt.mp fun hlt => ht ⟨hp, hlt⟩⟩
        split at h
        · rename_i hr
          right; right; left
          injection h with h
          exact ⟨key, hr.1, hr.2, h.symm⟩
        · rename_i hr
          right; right; right
          injection h with h
          exact ⟨key, hr, h.symm⟩
  · cases h

end Verif.Deconv
