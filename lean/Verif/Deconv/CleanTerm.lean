import Verif.Deconv.CleanScore
import Mathlib.Order.WellFounded
import Mathlib.Data.Finset.Card

/-!
# When CLEAN stops (C39), and whether it returns the best it has seen (C64)
-/

namespace Verif.Deconv

set_option linter.unusedSectionVars false

variable {ι K R : Type} [AddCommGroup ι] [DecidableEq ι] [Fintype ι] [Field K] [Field R] [LinearOrder R]
  [IsStrictOrderedRing R] {c : Cfg ι K R}

/-- The states the loop goes through. -/
inductive Visits (c : Cfg ι K R) : St ι K R → St ι K R → Prop
  | here (s : St ι K R) : Visits c s s
  | next (s s' t : St ι K R) : turn c s = .inr s' → Visits c s' t → Visits c s t

theorem Visits.trans {s t u : St ι K R} (h : Visits c s t) (h' : Visits c t u) : Visits c s u := by
  induction h with
  | here s => exact h'
  | next s s' t ht _ ih => exact Visits.next s s' u ht (ih h')

/-- **C39.**  With `stop_if_div` the loop ends after at most `maxiter` passes, whatever the input. -/
theorem c39_stop_if_div (hsid : c.stopIfDiv = true) (res0 mdl0 : ι → K) :
    ∃ o, run c (c.maxiter.toNat + 1) (St.init res0 mdl0) = some o := by
  have key : ∀ (k : Nat) (s : St ι K R), c.maxiter ≤ s.i + k → ∃ o, run c (k + 1) s = some o := by
    intro k
    induction k with
    | zero =>
      intro s hk
      refine ⟨finish c s, ?_⟩
      have : ¬ (s.i : Int) < c.maxiter := by omega
      simp [run, turn, this]
    | succ k ih =>
      intro s hk
      cases ht : turn c s with
      | inl o => exact ⟨o, by rw [run, ht]⟩
      | inr s' =>
        have hi : s'.i = s.i + 1 := by
          rcases (turn_inr ht).2 with ⟨-, -, hf, -⟩ | ⟨-, -, hf, -⟩ | ⟨-, hf, -⟩ | ⟨-, -, h3⟩
          · rw [hsid] at hf; cases hf
          · rw [hsid] at hf; cases hf
          · rw [hsid] at hf; cases hf
          · subst h3; rfl
        obtain ⟨o, ho⟩ := ih s' (by rw [hi]; push_cast; omega)
        exact ⟨o, by rw [run, ht]; exact ho⟩
  apply key
  change c.maxiter ≤ ((0 : Nat) : Int) + _
  omega

/-- **C39 is false as stated.**  Without `stop_if_div`, an image that is already all zero makes the loop
run for ever: the score is 0, no test for the end fires, and the counter is reset in every pass. -/
theorem c39_violated (maxiter : Int) (hm : 2 ≤ maxiter) (tol gain : ℚ) (fuel : Nat) :
    run (demo (fun _ => true) ![1, 0, 0, 0] gain tol maxiter false false) fuel
      (St.init (fun _ => 0) (fun _ => 0)) = none := by
  have hsnd := demo_sound (fun _ => true) ![1, 0, 0, 0] gain tol maxiter false false
  have key : ∀ (fuel : Nat) (s : St (Fin 4) ℚ ℚ), s.res = (fun _ => 0) → s.max = 0 → s.score ≤ 0 →
      s.bestScore = -1 → s.i ≤ 1 →
      run (demo (fun _ => true) ![1, 0, 0, 0] gain tol maxiter false false) fuel s = none := by
    intro fuel
    induction fuel with
    | zero => intros; rfl
    | succ fuel ih =>
      intro s h1 h2 h3 h4 h5
      cases ht : turn (demo (fun _ => true) ![1, 0, 0, 0] gain tol maxiter false false) s with
      | inl o =>
        exfalso
        rcases turn_inl ht with ⟨hi, -⟩ | ⟨-, hs, -⟩ | ⟨-, hs, -⟩
        · apply hi
          change (s.i : Int) < maxiter
          omega
        · linarith
        · linarith
      | inr s' =>
        rw [run, ht]
        have hres : (scan (demo (fun _ => true) ![1, 0, 0, 0] gain tol maxiter false false) s).res =
            fun _ => 0 := by
          rw [scan_res' hsnd.toLists, stepOf_zero _ h2, resAfter_zero, h1]
        have hmax : (scan (demo (fun _ => true) ![1, 0, 0, 0] gain tol maxiter false false) s).max = 0 := by
          rcases scan_max hsnd.mag2_nonneg hsnd.nodup hsnd.complete s with ⟨e1, -⟩ | ⟨e1, -⟩
          · rw [e1, h2]
          · rw [e1, hres]
        have hns : nscoreOf (demo (fun _ => true) ![1, 0, 0, 0] gain tol maxiter false false) s = 0 := by
          rw [nscoreOf_eq hsnd.toLists, hres]
          unfold rms demo
          simp [Rat.sqrt]
        rcases (turn_inr ht).2 with ⟨hs, -⟩ | ⟨hs, -⟩ | ⟨-, -, -, rfl⟩ | ⟨-, hn, -⟩
        · linarith
        · linarith
        · exact ih _ hres hmax (le_of_eq hns) h4 (le_refl _)
        · exfalso
          apply hn
          exact ⟨rfl, Or.inl (by rw [h4]; norm_num)⟩
  exact key fuel _ rfl rfl (by change (-1 : ℚ) ≤ 0; norm_num) rfl (Nat.zero_le _)

/-- The number of elements of a finite set below a value. -/
def rank (V : Finset R) (v : R) : Nat := (V.filter (· < v)).card

theorem rank_lt {V : Finset R} {a b : R} (ha : a ∈ V) (hab : a < b) : rank V a < rank V b := by
  unfold rank
  apply Finset.card_lt_card
  rw [Finset.ssubset_iff_of_subset]
  · exact ⟨a, by simp [ha, hab], by simp⟩
  · intro x hx
    simp only [Finset.mem_filter] at hx ⊢
    exact ⟨hx.1, lt_trans hx.2 hab⟩

theorem rank_mono {V : Finset R} {a b : R} (hab : a ≤ b) : rank V a ≤ rank V b := by
  unfold rank
  apply Finset.card_le_card
  intro x hx
  simp only [Finset.mem_filter] at hx ⊢
  exact ⟨hx.1, lt_of_lt_of_le hx.2 hab⟩

theorem rank_le (V : Finset R) (a : R) : rank V a ≤ V.card := Finset.card_filter_le _ _

/-- The rank of the best score; one more than any rank while there is none. -/
def bestRank (V : Finset R) (b : R) : Nat := if b < 0 then V.card + 1 else rank V b

/-- **C39**, the part that holds without `stop_if_div`: for `tol > 0`, if the residual never becomes
exactly zero and only finitely many different rms values occur (as must be the case with machine numbers),
the loop ends.  (Missing: the exactly-zero residual, for which it does not end, and sequences of
infinitely many different scores in exact arithmetic.) -/
theorem c39_terminates_partial (hs : Sound c) (htol : 0 < c.tol)
    (res0 mdl0 : ι → K) (V : Finset R)
    (hV : ∀ t, Visits c (St.init res0 mdl0) t → 0 < rms c t.res ∧ rms c t.res ∈ V) :
    ∃ fuel o, run c fuel (St.init res0 mdl0) = some o := by
  have hl := hs.toLists
  -- the measure: (best score so far, lower of score and best, passes left)
  have key : ∀ (m : Nat ×ₗ Nat ×ₗ Nat) (s : St ι K R), Visits c (St.init res0 mdl0) s →
      s.score = rms c s.res → 0 < s.i → s.firstScore = rms c res0 →
      (s.bestScore < 0 ∨ s.bestScore ∈ V ∧ 0 < s.bestScore) →
      m = toLex (bestRank V s.bestScore,
        toLex (min (rank V s.score) (bestRank V s.bestScore), (c.maxiter - s.i).toNat)) →
      ∃ fuel o, run c fuel s = some o := by
    intro m
    induction m using WellFoundedLT.induction with
    | ind m ih =>
      intro s hv hsc hi hf hb hm
      cases ht : turn c s with
      | inl o => exact ⟨1, o, by rw [run, ht]⟩
      | inr s' =>
        have hv' : Visits c (St.init res0 mdl0) s' := hv.trans (Visits.next s s' s' ht (Visits.here s'))
        obtain ⟨hsp, hsV⟩ := hV s hv
        obtain ⟨hsp', hsV'⟩ := hV s' hv'
        have hlt := (turn_inr ht).1
        have hfst : firstOf c s = rms c res0 := by
          unfold firstOf; rw [hf, if_neg (not_lt.mpr (rms_nonneg hs _))]
        have hf0 : 0 < rms c res0 := (hV _ (Visits.here _)).1
        have hns : nscoreOf c s = rms c s'.res := by
          rw [nscoreOf_eq hl]
          rcases (turn_inr ht).2 with ⟨-, -, -, -, rfl⟩ | ⟨-, -, -, -, rfl⟩ | ⟨-, -, -, rfl⟩ | ⟨-, -, rfl⟩ <;>
            rfl
        suffices h : ∃ fuel o, run c fuel s' = some o by
          obtain ⟨fuel, o, ho⟩ := h
          exact ⟨fuel + 1, o, by rw [run, ht]; exact ho⟩
        have hdec : 0 < s.score → nscoreOf c s ≤ s.score ∧
            c.tol ≤ (s.score - nscoreOf c s) / firstOf c s → rms c s'.res < s.score := by
          rintro - ⟨-, h2⟩
          rw [hfst, hns] at h2
          have : 0 < (s.score - rms c s'.res) / rms c res0 := lt_of_lt_of_le htol h2
          have := (div_pos_iff_of_pos_right hf0).mp this
          linarith
        rcases (turn_inr ht).2 with ⟨-, -, -, hb2, he⟩ | ⟨-, hd, -, hb2, he⟩ | ⟨hd, -, hb2, he⟩ |
          ⟨hd, hb2, he⟩
        · -- divergence, best score improved
          have e1 : s'.score = rms c s'.res := by rw [← hns, he]; rfl
          have e2 : s'.bestScore = s.score := by rw [he]
          have e3 : s'.firstScore = rms c res0 := by rw [he]; exact hfst
          have e4 : s'.i = 1 := by rw [he]
          refine ih _ ?_ s' hv' e1 (by omega) e3 (Or.inr (by rw [e2, hsc]; exact ⟨hsV, hsp⟩)) rfl
          rw [hm, e2]
          apply Prod.Lex.toLex_lt_toLex.mpr
          left
          unfold bestRank
          rw [if_neg (not_lt.mpr (by rw [hsc]; exact le_of_lt hsp))]
          split
          · have := rank_le V s.score; dsimp only; omega
          · rename_i hnb
            rcases hb2 with hb2 | hb2
            · exact absurd hb2 hnb
            · exact rank_lt (by rw [hsc]; exact hsV) hb2
        · -- divergence, best score kept
          have e1 : s'.score = rms c s'.res := by rw [← hns, he]; rfl
          have e2 : s'.bestScore = s.bestScore := by rw [he]; rfl
          have e3 : s'.firstScore = rms c res0 := by rw [he]; exact hfst
          have e4 : s'.i = s.i + 1 := by rw [he]; rfl
          refine ih _ ?_ s' hv' e1 (by omega) e3 (by rw [e2]; exact hb) rfl
          rw [hm, e2]
          apply Prod.Lex.toLex_lt_toLex.mpr
          right
          refine ⟨rfl, ?_⟩
          apply Prod.Lex.toLex_lt_toLex.mpr
          right
          have hb3 : ¬ s.bestScore < 0 := fun h => hb2 (Or.inl h)
          have hb4 : s.bestScore ≤ s.score := not_lt.mp fun h => hb2 (Or.inr h)
          have r1 : rank V s.bestScore ≤ rank V s.score := rank_mono hb4
          have r2 : rank V s.score ≤ rank V s'.score := by
            apply rank_mono; rw [e1, ← hns]; exact le_of_lt hd
          unfold bestRank
          rw [if_neg hb3]
          refine ⟨?_, ?_⟩
          · rw [min_eq_right (le_trans r1 r2), min_eq_right r1]
          · dsimp only; rw [e4]; push_cast; omega
        · -- improvement, counter reset
          have e1 : s'.score = rms c s'.res := by rw [← hns, he]; rfl
          have e2 : s'.bestScore = s.bestScore := by rw [he]; rfl
          have e3 : s'.firstScore = rms c res0 := by rw [he]; exact hfst
          have e4 : s'.i = 1 := by rw [he]
          refine ih _ ?_ s' hv' e1 (by omega) e3 (by rw [e2]; exact hb) rfl
          rw [hm, e2]
          apply Prod.Lex.toLex_lt_toLex.mpr
          right
          refine ⟨rfl, ?_⟩
          apply Prod.Lex.toLex_lt_toLex.mpr
          left
          dsimp only
          have hpos : 0 < s.score := by rw [hsc]; exact hsp
          have h1 : rank V s'.score < rank V s.score := by
            rw [e1]; exact rank_lt hsV' (hdec hpos (hd hpos))
          have h2 : rank V s'.score < bestRank V s.bestScore := by
            unfold bestRank
            split
            · have := rank_le V s'.score; omega
            · rename_i hnb
              rcases hb2 with hb2 | hb2
              · exact absurd hb2 hnb
              · rw [e1]; apply rank_lt hsV'; rw [← hns]; exact hb2
          exact lt_min (lt_of_le_of_lt (min_le_left _ _) h1) (lt_of_le_of_lt (min_le_left _ _) h2)
        · -- improvement, counter kept
          have e1 : s'.score = rms c s'.res := by rw [← hns, he]; rfl
          have e2 : s'.bestScore = s.bestScore := by rw [he]; rfl
          have e3 : s'.firstScore = rms c res0 := by rw [he]; exact hfst
          have e4 : s'.i = s.i + 1 := by rw [he]; rfl
          refine ih _ ?_ s' hv' e1 (by omega) e3 (by rw [e2]; exact hb) rfl
          rw [hm, e2]
          apply Prod.Lex.toLex_lt_toLex.mpr
          right
          refine ⟨rfl, ?_⟩
          apply Prod.Lex.toLex_lt_toLex.mpr
          have hpos : 0 < s.score := by rw [hsc]; exact hsp
          have h1 : rank V s'.score ≤ rank V s.score := by
            apply rank_mono; rw [e1]; exact le_of_lt (hdec hpos (hd hpos))
          have h2 : min (rank V s'.score) (bestRank V s.bestScore) ≤
              min (rank V s.score) (bestRank V s.bestScore) := min_le_min_right _ h1
          rcases Nat.lt_or_ge (min (rank V s'.score) (bestRank V s.bestScore))
            (min (rank V s.score) (bestRank V s.bestScore)) with h3 | h3
          · left; exact h3
          · right
            refine ⟨le_antisymm h2 h3, ?_⟩
            dsimp only; rw [e4]; push_cast; omega
  -- the first pass
  cases ht : turn c (St.init (R := R) res0 mdl0) with
  | inl o => exact ⟨1, o, by rw [run, ht]⟩
  | inr s' =>
    have hv' : Visits c (St.init res0 mdl0) s' := Visits.next _ s' s' ht (Visits.here s')
    have hfst : firstOf c (St.init (R := R) res0 mdl0) = rms c res0 :=
      good_first hs (good_init res0 mdl0)
    have hall : s'.score = nscoreOf c (St.init res0 mdl0) ∧ s'.res = (scan c (St.init (R := R) res0 mdl0)).res ∧
        0 < s'.i ∧ s'.firstScore = firstOf c (St.init res0 mdl0) ∧ s'.bestScore = -1 := by
      rcases (turn_inr ht).2 with ⟨h0, -⟩ | ⟨h0, -⟩ | ⟨-, -, -, rfl⟩ | ⟨-, -, rfl⟩
      · have : (0 : R) < -1 := h0
        linarith
      · have : (0 : R) < -1 := h0
        linarith
      · exact ⟨rfl, rfl, Nat.one_pos, rfl, rfl⟩
      · exact ⟨rfl, rfl, Nat.succ_pos _, rfl, rfl⟩
    obtain ⟨a1, a2, a3, a4, a5⟩ := hall
    obtain ⟨fuel, o, ho⟩ := key _ s' hv' (by rw [a1, a2, nscoreOf_eq hl]) a3 (by rw [a4, hfst])
      (Or.inl (by rw [a5]; linarith)) rfl
    exact ⟨fuel + 1, o, by rw [run, ht]; exact ho⟩

/-- The states of a run of at most `fuel` turns, as a list (for examples). -/
def trail (c : Cfg ι K R) : Nat → St ι K R → List (St ι K R)
  | 0, _ => []
  | fuel + 1, s => s :: match turn c s with
    | .inl _ => []
    | .inr s' => trail c fuel s'

theorem visits_trail {fuel : Nat} {s t : St ι K R} (h : (run c fuel s).isSome = true) (hv : Visits c s t) :
    t ∈ trail c fuel s := by
  induction fuel generalizing s with
  | zero => cases h
  | succ fuel ih =>
    rw [run] at h
    rw [trail]
    cases hv with
    | here => exact List.mem_cons_self
    | next _ s' _ h1 h2 =>
      rw [h1] at h ⊢
      exact List.mem_cons_of_mem _ (ih h h2)

/-- The hypotheses of `c39_terminates_partial` are met: with gain 2 the residual changes its sign in every
pass, the rms is always 1/2. -/
example : ∀ t, Visits (demo (fun _ => true) ![1, 0, 0, 0] 2 (1 / 10) 9 false false)
      (St.init ![1, 0, 0, 0] (fun _ => 0)) t →
    0 < rms (demo (fun _ => true) ![1, 0, 0, 0] 2 (1 / 10) 9 false false) t.res ∧
    rms (demo (fun _ => true) ![1, 0, 0, 0] 2 (1 / 10) 9 false false) t.res ∈ ({1 / 2} : Finset ℚ) := by
  intro t hv
  have hm := visits_trail (fuel := 5) (by decide +kernel) hv
  have hall : ((trail (demo (fun _ => true) ![1, 0, 0, 0] 2 (1 / 10) 9 false false) 5
      (St.init ![1, 0, 0, 0] (fun _ => 0))).map
      (fun t => rms (demo (fun _ => true) ![1, 0, 0, 0] 2 (1 / 10) 9 false false) t.res)) = [1 / 2, 1 / 2] := by
    decide +kernel
  have := List.mem_map_of_mem
    (f := fun t => rms (demo (fun _ => true) ![1, 0, 0, 0] 2 (1 / 10) 9 false false) t.res) hm
  rw [hall] at this
  simp only [List.mem_cons, List.not_mem_nil, or_false, or_self] at this
  rw [this]
  exact ⟨by norm_num, by simp⟩

/-- **C39**, in exact arithmetic: if the rms never grows during the run and the residual never becomes exactly
zero, the loop ends for every `tol > 0`, also without `stop_if_div`. -/
theorem c39_monotone_partial [Archimedean R] (hs : Sound c) (hpd : c.posDef = false) (htol : 0 < c.tol)
    (res0 mdl0 : ι → K) (hpos : ∀ t, Visits c (St.init res0 mdl0) t → 0 < rms c t.res)
    (hmono : ∀ t, Visits c (St.init res0 mdl0) t →
      rms c (resAfter c t.res t.argmax (stepOf c t)) ≤ rms c t.res) :
    ∃ fuel o, run c fuel (St.init res0 mdl0) = some o := by
  have hl := hs.toLists
  have hF : 0 < rms c res0 := hpos _ (Visits.here _)
  have key : ∀ (N : Nat) (s : St ι K R), Visits c (St.init res0 mdl0) s → Good c res0 s → 0 < s.i →
      rms c s.res ≤ N * (c.tol * rms c res0) → ∃ fuel o, run c fuel s = some o := by
    intro N
    induction N with
    | zero =>
      intro s hv _ _ h
      have := hpos s hv
      simp at h
      exact absurd h (not_le.mpr this)
    | succ N ih =>
      intro s hv hg hi h
      cases ht : turn c s with
      | inl o => exact ⟨1, o, by rw [run, ht]⟩
      | inr s' =>
        have hv' : Visits c (St.init res0 mdl0) s' := hv.trans (Visits.next s s' s' ht (Visits.here s'))
        have hsc : s.score = rms c s.res := by
          rcases hg.fresh with ⟨-, -, -, -, h5⟩ | ⟨h1, -⟩
          · omega
          · exact h1
        have hns : nscoreOf c s = rms c (resAfter c s.res s.argmax (stepOf c s)) := by
          rw [nscoreOf_eq hl, scan_res' hl]
        have hnd : ¬ s.score < nscoreOf c s := by
          rw [hsc, hns]; exact not_lt.mpr (hmono s hv)
        have hdrop : c.tol ≤ (s.score - nscoreOf c s) / firstOf c s →
            rms c (resAfter c s.res s.argmax (stepOf c s)) ≤ N * (c.tol * rms c res0) := by
          intro h2
          rw [good_first hs hg, hns, hsc, le_div_iff₀ hF] at h2
          push_cast at h
          linarith
        have hsp : 0 < s.score := by rw [hsc]; exact hpos s hv
        suffices h : ∃ fuel o, run c fuel s' = some o by
          obtain ⟨fuel, o, ho⟩ := h
          exact ⟨fuel + 1, o, by rw [run, ht]; exact ho⟩
        rcases (turn_inr ht).2 with ⟨-, hd, -⟩ | ⟨-, hd, -⟩ | ⟨hd, -, -, rfl⟩ | ⟨hd, -, rfl⟩
        · exact absurd hd hnd
        · exact absurd hd hnd
        · refine ih _ hv' (good_advance hs hpd hg rfl rfl rfl rfl rfl rfl Nat.one_pos) Nat.one_pos ?_
          change rms c (scan c s).res ≤ _
          rw [scan_res' hl]
          exact hdrop (hd hsp).2
        · refine ih _ hv' (good_advance hs hpd hg rfl rfl rfl rfl rfl rfl (Nat.succ_pos _))
            (Nat.succ_pos _) ?_
          change rms c (scan c s).res ≤ _
          rw [scan_res' hl]
          exact hdrop (hd hsp).2
  cases ht : turn c (St.init (R := R) res0 mdl0) with
  | inl o => exact ⟨1, o, by rw [run, ht]⟩
  | inr s' =>
    have hv' : Visits c (St.init res0 mdl0) s' := Visits.next _ s' s' ht (Visits.here s')
    have hg' : Good c res0 s' ∧ 0 < s'.i := by
      have hg := good_init (c := c) res0 mdl0
      rcases (turn_inr ht).2 with ⟨-, -, -, -, rfl⟩ | ⟨-, -, -, -, rfl⟩ | ⟨-, -, -, rfl⟩ | ⟨-, -, rfl⟩
      · exact ⟨good_advance hs hpd hg rfl rfl rfl rfl rfl rfl Nat.one_pos, Nat.one_pos⟩
      · exact ⟨good_advance hs hpd hg rfl rfl rfl rfl rfl rfl (Nat.succ_pos _), Nat.succ_pos _⟩
      · exact ⟨good_advance hs hpd hg rfl rfl rfl rfl rfl rfl Nat.one_pos, Nat.one_pos⟩
      · exact ⟨good_advance hs hpd hg rfl rfl rfl rfl rfl rfl (Nat.succ_pos _), Nat.succ_pos _⟩
    obtain ⟨N, hN⟩ := Archimedean.arch (rms c s'.res) (mul_pos htol hF)
    rw [nsmul_eq_mul] at hN
    obtain ⟨fuel, o, ho⟩ := key N s' hv' hg'.1 hg'.2 hN
    exact ⟨fuel + 1, o, by rw [run, ht]; exact ho⟩

/-- The hypotheses of `c39_monotone_partial` are met by the run of the previous example. -/
example : ∀ t, Visits (demo (fun _ => true) ![1, 0, 0, 0] 2 (1 / 10) 9 false false)
      (St.init ![1, 0, 0, 0] (fun _ => 0)) t →
    rms (demo (fun _ => true) ![1, 0, 0, 0] 2 (1 / 10) 9 false false)
      (resAfter (demo (fun _ => true) ![1, 0, 0, 0] 2 (1 / 10) 9 false false) t.res t.argmax
        (stepOf (demo (fun _ => true) ![1, 0, 0, 0] 2 (1 / 10) 9 false false) t)) ≤
    rms (demo (fun _ => true) ![1, 0, 0, 0] 2 (1 / 10) 9 false false) t.res := by
  intro t hv
  have hm := visits_trail (fuel := 5) (by decide +kernel) hv
  have hall : ∀ t ∈ (trail (demo (fun _ => true) ![1, 0, 0, 0] 2 (1 / 10) 9 false false) 5
      (St.init ![1, 0, 0, 0] (fun _ => 0))),
      rms (demo (fun _ => true) ![1, 0, 0, 0] 2 (1 / 10) 9 false false)
      (resAfter (demo (fun _ => true) ![1, 0, 0, 0] 2 (1 / 10) 9 false false) t.res t.argmax
        (stepOf (demo (fun _ => true) ![1, 0, 0, 0] 2 (1 / 10) 9 false false) t)) ≤
      rms (demo (fun _ => true) ![1, 0, 0, 0] 2 (1 / 10) 9 false false) t.res := by
    decide +kernel
  exact hall t hm

/-- A run without `stop_if_div` that goes on after a divergence and does end. -/
example : (cleanPy (demo ![true, false, false, false] ![-2, 0, 2, 0] 1 (1 / 10) 9 false false) 10
    ![4, -4, 4, 1] (fun _ => 0)).map (fun r => (r.mdl 0, r.term)) =
    some (-2, Exit.tolerance) := by decide +kernel

/-- **C64**, the part that holds: without `stop_if_div` (and `pos_def` off), when the loop ends by its
iteration limit the residual returned is the best of all the residuals it went through. -/
theorem c64_best_of_all_partial (hs : Sound c) (hpd : c.posDef = false) (res0 mdl0 : ι → K) (fuel : Nat)
    (o : Out ι K) (h : run c fuel (St.init res0 mdl0) = some o) (hx : o.exit = .maxiter)
    (t : St ι K R) (ht : Visits c (St.init res0 mdl0) t) : rms c o.res ≤ rms c t.res := by
  have hl := hs.toLists
  have key : ∀ (fuel : Nat) (s : St ι K R), Good c res0 s →
      (0 < s.bestScore → rms c s.bestRes = s.bestScore ∧ s.nscore = rms c s.res) →
      s.bestScore < 0 ∨ 0 < s.bestScore →
      run c fuel s = some o →
      (∀ t, Visits c s t → rms c o.res ≤ rms c t.res) ∧ (0 < s.bestScore → rms c o.res ≤ s.bestScore) := by
    intro fuel
    induction fuel with
    | zero => intro s _ _ _ h; cases h
    | succ fuel ih =>
      intro s hg hb hsb hr
      rw [run] at hr
      cases htu : turn c s with
      | inl o' =>
        rw [htu] at hr
        have : o' = o := by injection hr
        subst this
        have hvis : ∀ t, Visits c s t → t = s := by
          intro t hv
          cases hv with
          | here => rfl
          | next _ s' _ h1 _ => rw [htu] at h1; cases h1
        rcases turn_inl htu with ⟨-, rfl⟩ | ⟨-, -, -, -, rfl⟩ | ⟨-, -, -, -, rfl⟩
        · unfold finish
          split
          · rename_i hb1
            obtain ⟨b1, b2⟩ := hb hb1.1
            refine ⟨?_, fun _ => le_of_eq b1⟩
            intro t hv
            rw [hvis t hv]
            dsimp only
            rw [b1, ← b2]
            exact le_of_lt hb1.2
          · rename_i hb1
            refine ⟨fun t hv => by rw [hvis t hv], ?_⟩
            intro hb2
            dsimp only
            rw [← (hb hb2).2]
            exact not_lt.mp fun hlt => hb1 ⟨hb2, hlt⟩
        · cases hx
        · cases hx
      | inr s' =>
        rw [htu] at hr
        have hg' : Good c res0 s' := by
          rcases (turn_inr htu).2 with ⟨-, -, -, -, rfl⟩ | ⟨-, -, -, -, rfl⟩ | ⟨-, -, -, rfl⟩ | ⟨-, -, rfl⟩
          · exact good_advance hs hpd hg rfl rfl rfl rfl rfl rfl Nat.one_pos
          · exact good_advance hs hpd hg rfl rfl rfl rfl rfl rfl (Nat.succ_pos _)
          · exact good_advance hs hpd hg rfl rfl rfl rfl rfl rfl Nat.one_pos
          · exact good_advance hs hpd hg rfl rfl rfl rfl rfl rfl (Nat.succ_pos _)
        have hsplit : ∀ t, Visits c s t → t = s ∨ Visits c s' t := by
          intro t hv
          cases hv with
          | here => exact Or.inl rfl
          | next _ s'' _ h1 h2 =>
            rw [htu] at h1
            injection h1 with h1
            subst h1
            exact Or.inr h2
        have hns' : s'.nscore = rms c s'.res := by
          rcases (turn_inr htu).2 with ⟨-, -, -, -, rfl⟩ | ⟨-, -, -, -, rfl⟩ | ⟨-, -, -, rfl⟩ | ⟨-, -, rfl⟩ <;>
            exact nscoreOf_eq hl s
        rcases (turn_inr htu).2 with ⟨h0, -, hf, hb2, he⟩ | ⟨h0, -, hf, hb2, he⟩ | ⟨hd, hf, -, he⟩ |
          ⟨hd, -, he⟩
        · -- divergence with a new best
          have e2 : s'.bestScore = s.score := by rw [he]
          have e3 : s'.bestRes = s.res := by rw [he]; exact save_back_res hl s _ _
          have hsc : s.score = rms c s.res := by
            rcases hg.fresh with ⟨h1, -⟩ | ⟨h1, -⟩
            · rw [h1] at h0; linarith
            · exact h1
          obtain ⟨i1, i2⟩ := ih s' hg' (fun _ => ⟨by rw [e3, e2, hsc], hns'⟩) (Or.inr (by rw [e2]; exact h0)) hr
          have hle : rms c o.res ≤ s.score := by rw [← e2]; exact i2 (by rw [e2]; exact h0)
          refine ⟨?_, ?_⟩
          · intro t hv
            rcases hsplit t hv with rfl | hv
            · rw [← hsc]; exact hle
            · exact i1 t hv
          · intro hb3
            rcases hb2 with hb2 | hb2
            · exact absurd hb2 (not_lt.mpr (le_of_lt hb3))
            · exact le_trans hle (le_of_lt hb2)
        · -- divergence, best kept
          have e2 : s'.bestScore = s.bestScore := by rw [he]; rfl
          have e3 : s'.bestRes = s.bestRes := by rw [he]; rfl
          have hsc : s.score = rms c s.res := by
            rcases hg.fresh with ⟨h1, -⟩ | ⟨h1, -⟩
            · rw [h1] at h0; linarith
            · exact h1
          obtain ⟨i1, i2⟩ := ih s' hg' (fun hb3 => ⟨by rw [e3, e2]; exact (hb (by rw [← e2]; exact hb3)).1, hns'⟩)
            (by rw [e2]; exact hsb) hr
          rw [e2] at i2
          refine ⟨?_, i2⟩
          intro t hv
          rcases hsplit t hv with rfl | hv
          · rw [← hsc]
            by_cases hb3 : 0 < t.bestScore
            · exact le_trans (i2 hb3) (not_lt.mp fun h => hb2 (Or.inr h))
            · rcases hsb with hsb | hsb
              · exact absurd (Or.inl hsb) hb2
              · exact absurd hsb hb3
          · exact i1 t hv
        · have e2 : s'.bestScore = s.bestScore := by rw [he]; rfl
          have e3 : s'.bestRes = s.bestRes := by rw [he]; rfl
          have e4 : s'.res = resAfter c s.res s.argmax (stepOf c s) := by rw [he]; exact scan_res' hl s
          obtain ⟨i1, i2⟩ := ih s' hg' (fun hb3 => ⟨by rw [e3, e2]; exact (hb (by rw [← e2]; exact hb3)).1, hns'⟩)
            (by rw [e2]; exact hsb) hr
          rw [e2] at i2
          refine ⟨?_, i2⟩
          intro t hv
          rcases hsplit t hv with rfl | hv
          · refine le_trans (i1 s' (Visits.here _)) ?_
            rw [e4]
            exact good_step hs hg (fun hp => (hd hp).1)
          · exact i1 t hv
        · have e2 : s'.bestScore = s.bestScore := by rw [he]; rfl
          have e3 : s'.bestRes = s.bestRes := by rw [he]; rfl
          have e4 : s'.res = resAfter c s.res s.argmax (stepOf c s) := by rw [he]; exact scan_res' hl s
          obtain ⟨i1, i2⟩ := ih s' hg' (fun hb3 => ⟨by rw [e3, e2]; exact (hb (by rw [← e2]; exact hb3)).1, hns'⟩)
            (by rw [e2]; exact hsb) hr
          rw [e2] at i2
          refine ⟨?_, i2⟩
          intro t hv
          rcases hsplit t hv with rfl | hv
          · refine le_trans (i1 s' (Visits.here _)) ?_
            rw [e4]
            exact good_step hs hg (fun hp => (hd hp).1)
          · exact i1 t hv
  refine (key fuel _ (good_init res0 mdl0) ?_ (Or.inl (by change (-1 : R) < 0; linarith)) h).1 t ht
  intro hb
  have : (0 : R) < -1 := hb
  linarith

/-- **C64 is false as stated**: when the loop ends by the tolerance test the best result is forgotten.
Here the rms goes from 7/2 to 9/2 and 9/2, and the residual returned is the last one. -/
theorem c64_violated :
    ∃ o t, run (demo ![true, false, false, false] ![-2, 0, 2, 0] 1 (1 / 10) 9 false false) 3
        (St.init ![4, -4, 4, 1] (fun _ => 0)) = some o ∧ o.exit = .tolerance ∧
      Visits (demo ![true, false, false, false] ![-2, 0, 2, 0] 1 (1 / 10) 9 false false)
        (St.init ![4, -4, 4, 1] (fun _ => 0)) t ∧
      rms (demo ![true, false, false, false] ![-2, 0, 2, 0] 1 (1 / 10) 9 false false) t.res = 7 / 2 ∧
      rms (demo ![true, false, false, false] ![-2, 0, 2, 0] 1 (1 / 10) 9 false false) o.res = 9 / 2 := by
  have h : (run (demo ![true, false, false, false] ![-2, 0, 2, 0] 1 (1 / 10) 9 false false) 3
      (St.init ![4, -4, 4, 1] (fun _ => 0))).map (fun o => (o.exit,
        rms (demo ![true, false, false, false] ![-2, 0, 2, 0] 1 (1 / 10) 9 false false) o.res)) =
      some (Exit.tolerance, 9 / 2) := by decide +kernel
  cases hr : run (demo ![true, false, false, false] ![-2, 0, 2, 0] 1 (1 / 10) 9 false false) 3
      (St.init ![4, -4, 4, 1] (fun _ => 0)) with
  | none => rw [hr] at h; cases h
  | some o =>
    rw [hr] at h
    simp only [Option.map_some, Option.some.injEq, Prod.mk.injEq] at h
    refine ⟨o, _, rfl, h.1, Visits.here _, ?_, h.2⟩
    decide +kernel

/-- The hypotheses of `c64_best_of_all_partial` are met by a run that diverges for ever and gets the starting
residual back. -/
example : (cleanPy (demo (fun _ => true) ![1, 0, 0, 0] 3 (1 / 10) 4 false false) 9
    ![1, 0, 0, 0] (fun _ => 0)).map (fun r => (r.mdl 0, r.res 0, r.term)) =
    some (0, 1, Exit.maxiter) := by decide +kernel

end Verif.Deconv
