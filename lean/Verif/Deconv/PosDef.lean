import Verif.Deconv.CleanTerm

/-!
# CLEAN with `pos_def` (C65)
-/

namespace Verif.Deconv

set_option linter.unusedSectionVars false

variable {ι R : Type} [AddCommGroup ι] [DecidableEq ι] [Fintype ι] [Field R] [LinearOrder R]
  [IsStrictOrderedRing R] {c : Cfg ι R R}

/-- **C65.**  With `pos_def` the real CLEAN functions only ever add positive flux: no pixel of the model
returned is below the model CLEAN was given (for non-negative gain and a kernel whose peak is positive). -/
theorem c65_only_positive_flux (hs : Sound c) (hpd : c.posDef = true)
    (hpos : ∀ v, c.isPos v = true ↔ 0 < v) (hg : 0 ≤ c.gain) (hq : 0 ≤ kerQ c)
    (res0 mdl0 : ι → R) (fuel : Nat) (o : Out ι R) (h : run c fuel (St.init res0 mdl0) = some o) (x : ι) :
    mdl0 x ≤ o.mdl x := by
  have hl := hs.toLists
  have hstep : ∀ s : St ι R R, 0 ≤ s.max → mdl0 x ≤ s.mdl x → mdl0 x ≤ addComp c s x := by
    intro s hm h1
    rw [addComp']
    unfold mdlAfter stepOf
    have : 0 ≤ c.gain * s.max * kerQ c := mul_nonneg (mul_nonneg hg hm) hq
    split
    · linarith
    · linarith
  have hscan : ∀ s : St ι R R, 0 ≤ s.max → 0 ≤ (scan c s).max := by
    intro s hm
    rcases scan_max hs.mag2_nonneg hs.nodup hs.complete s with ⟨e1, -⟩ | ⟨-, -, e, -⟩
    · rw [e1]; exact hm
    · exact le_of_lt ((hpos _).mp (e hpd))
  refine run_induct (c := c)
    (P := fun s => mdl0 x ≤ s.mdl x ∧ 0 ≤ s.max ∧ (0 < s.bestScore → mdl0 x ≤ s.bestMdl x))
    (Q := fun o => mdl0 x ≤ o.mdl x) ?_ ?_ fuel _ o ?_ h
  · rintro s o ⟨h1, h2, h3⟩ ht
    rcases turn_inl ht with ⟨-, rfl⟩ | ⟨-, -, -, -, rfl⟩ | ⟨-, -, -, -, rfl⟩
    · unfold finish
      split
      · rename_i hb; exact h3 hb.1
      · exact h1
    · dsimp only
      rw [comp_back]
      exact h1
    · exact hstep s h2 h1
  · rintro s s' ⟨h1, h2, h3⟩ ht
    rcases (turn_inr ht).2 with ⟨-, -, -, -, rfl⟩ | ⟨-, -, -, -, rfl⟩ | ⟨-, -, -, rfl⟩ | ⟨-, -, rfl⟩
    · refine ⟨hstep s h2 h1, hscan s h2, ?_⟩
      intro _
      dsimp only
      rw [save_back_mdl hl]
      exact h1
    · exact ⟨hstep s h2 h1, hscan s h2, h3⟩
    · exact ⟨hstep s h2 h1, hscan s h2, h3⟩
    · exact ⟨hstep s h2 h1, hscan s h2, h3⟩
  · refine ⟨le_refl _, le_refl _, ?_⟩
    intro hb
    have : (0 : R) < -1 := hb
    linarith

/-- The hypotheses are met, and the negative source is left alone while the positive one is taken up. -/
example : kerQ (demo (fun _ => true) ![1, 0, 0, 0] 1 0 2 true true) = 1 ∧
    (cleanPy (demo (fun _ => true) ![1, 0, 0, 0] 1 0 2 true true) 4
      ![1, -3, 0, 0] (fun _ => 0)).map (fun r => (r.mdl 0, r.mdl 1, r.res 1)) = some (1, 0, -3) := by
  decide +kernel

/-- **C65**, the other half is false: when no positive pixel is left, the component of the previous pass is
added once more.  A unit point source cleaned with gain 1 is found twice, leaving a residual of -1. -/
theorem c65_repeats_violated :
    (cleanPy (demo (fun _ => true) ![1, 0, 0, 0] 1 0 3 true true) 4
      ![1, 0, 0, 0] (fun _ => 0)).map (fun r => (r.mdl 0, r.res 0)) = some (2, -1) := by
  decide +kernel

/-- Without `pos_def` the same source is found once. -/
example : (cleanPy (demo (fun _ => true) ![1, 0, 0, 0] 1 0 3 true false) 4
      ![1, 0, 0, 0] (fun _ => 0)).map (fun r => (r.mdl 0, r.res 0)) = some (1, 0) := by
  decide +kernel

end Verif.Deconv
