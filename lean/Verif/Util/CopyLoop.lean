import Verif.Util.Dict
/-!
# The loop of the scripts that copy files

For every file named: when the copy exists the file is skipped, otherwise it is read, and the copy is written.
-/
namespace Verif.Util

/-- `for filename in args: if os.path.exists(filename + ext): continue ...`; `none` is an exception -/
def copyLoop {D : Type} (ext : List Char) (g : D → Option D) : List (List Char) → List (List Char × D) → Option (List (List Char × D))
  | [], files => some files
  | fn :: fs, files =>
    if (dget (fn ++ ext) files).isSome then copyLoop ext g fs files
    else (dget fn files).bind fun x => (g x).bind fun y => copyLoop ext g fs (dset (fn ++ ext) y files)

/-- every file has its copy, and nothing else changes -/
theorem copyLoop_spec {D : Type} {ext : List Char} {g : D → Option D} {args : List (List Char)} {files : List (List Char × D)}
    {S : List Char → D} {T : List Char → D} (hin : ∀ fn ∈ args, dget fn files = some (S fn) ∧ g (S fn) = some (T fn))
    (hout : ∀ fn ∈ args, dget (fn ++ ext) files = none) :
    ∃ files', copyLoop ext g args files = some files' ∧ (∀ fn ∈ args, dget (fn ++ ext) files' = some (T fn)) ∧
      ∀ k, (∀ fn ∈ args, k ≠ fn ++ ext) → dget k files' = dget k files := by
  have hsep : ∀ fn ∈ args, ∀ fn' ∈ args, fn ++ ext ≠ fn' := by
    intro fn hf fn' hf' e
    have := (hin fn' hf').1
    rw [← e, hout fn hf] at this; cases this
  have key : ∀ as : List (List Char), (∀ fn ∈ as, fn ∈ args) → ∀ fs : List (List Char × D),
      (∀ fn ∈ as, dget fn fs = some (S fn)) → (∀ fn ∈ as, dget (fn ++ ext) fs = none ∨ dget (fn ++ ext) fs = some (T fn)) →
      ∃ fs', copyLoop ext g as fs = some fs' ∧ (∀ fn ∈ as, dget (fn ++ ext) fs' = some (T fn)) ∧
        ∀ k, (∀ fn ∈ as, k ≠ fn ++ ext) → dget k fs' = dget k fs := by
    intro as
    induction as with
    | nil => intro _ fs _ _; exact ⟨fs, rfl, by simp, fun _ _ => rfl⟩
    | cons a as ih =>
      intro hsub fs hthere hO
      have rest : ∀ fs1 : List (List Char × D), (∀ k, k ≠ a ++ ext → dget k fs1 = dget k fs) → dget (a ++ ext) fs1 = some (T a) →
          copyLoop ext g (a :: as) fs = copyLoop ext g as fs1 →
          ∃ fs', copyLoop ext g (a :: as) fs = some fs' ∧ (∀ fn ∈ a :: as, dget (fn ++ ext) fs' = some (T fn)) ∧
            ∀ k, (∀ fn ∈ a :: as, k ≠ fn ++ ext) → dget k fs' = dget k fs := by
        intro fs1 h1 h2 h3
        obtain ⟨fs', e, b1, b2⟩ := ih (fun f hf => hsub f (by simp [hf])) fs1
          (fun f hf => by
            rw [h1 f fun h => hsep a (hsub a (by simp)) f (hsub f (by simp [hf])) h.symm]; exact hthere f (by simp [hf]))
          (fun f hf => by
            by_cases hfa : f = a
            · subst hfa; exact .inr h2
            · rw [h1 _ fun h => hfa (List.append_cancel_right h)]; exact hO f (by simp [hf]))
        refine ⟨fs', h3.trans e, ?_, ?_⟩
        · intro f hf
          by_cases hin' : f ∈ as
          · exact b1 f hin'
          · have : f = a := by simpa [hin'] using hf
            subst this
            rw [b2 _ fun g hg h => hin' (by rw [List.append_cancel_right h]; exact hg)]; exact h2
        · intro k hk
          rw [b2 k fun f hf => hk f (by simp [hf]), h1 k (hk a (by simp))]
      have hta := hthere a (by simp)
      rcases hO a (by simp) with h | h
      · refine rest (dset (a ++ ext) (T a) fs) (fun k hk => dget_dset_ne (Ne.symm hk) _ _) (dget_dset_self _ _ _) ?_
        simp [copyLoop, h, hta, (hin a (hsub a (by simp))).2]
      · refine rest fs (fun _ _ => rfl) h ?_
        simp [copyLoop, h]
  exact key args (fun _ h => h) files (fun fn hf => (hin fn hf).1) (fun fn hf => .inl (hout fn hf))

/-- the same loop when something is carried from file to file -/
def copyLoopS {D A : Type} (ext : List Char) (g : A → D → Option (D × A)) :
    List (List Char) → A → List (List Char × D) → Option (List (List Char × D) × A)
  | [], s, files => some (files, s)
  | fn :: fs, s, files =>
    if (dget (fn ++ ext) files).isSome then copyLoopS ext g fs s files
    else (dget fn files).bind fun x => (g s x).bind fun y => copyLoopS ext g fs y.2 (dset (fn ++ ext) y.1 files)

/-- if what is carried does not matter for the copies, every file has its copy, and nothing else changes -/
theorem copyLoopS_spec {D A : Type} {ext : List Char} {g : A → D → Option (D × A)} {Inv : A → Prop} {args : List (List Char)}
    {files : List (List Char × D)} {S : List Char → D} {T : List Char → D} (hin : ∀ fn ∈ args, dget fn files = some (S fn))
    (hg : ∀ fn ∈ args, ∀ s, Inv s → ∃ s', g s (S fn) = some (T fn, s') ∧ Inv s')
    (hout : ∀ fn ∈ args, dget (fn ++ ext) files = none) {s : A} (hs : Inv s) :
    ∃ files' s', copyLoopS ext g args s files = some (files', s') ∧ (∀ fn ∈ args, dget (fn ++ ext) files' = some (T fn)) ∧
      ∀ k, (∀ fn ∈ args, k ≠ fn ++ ext) → dget k files' = dget k files := by
  have hsep : ∀ fn ∈ args, ∀ fn' ∈ args, fn ++ ext ≠ fn' := by
    intro fn hf fn' hf' e
    have := hin fn' hf'
    rw [← e, hout fn hf] at this; cases this
  have key : ∀ as : List (List Char), (∀ fn ∈ as, fn ∈ args) → ∀ (s : A) (fs : List (List Char × D)), Inv s →
      (∀ fn ∈ as, dget fn fs = some (S fn)) → (∀ fn ∈ as, dget (fn ++ ext) fs = none ∨ dget (fn ++ ext) fs = some (T fn)) →
      ∃ fs' s', copyLoopS ext g as s fs = some (fs', s') ∧ (∀ fn ∈ as, dget (fn ++ ext) fs' = some (T fn)) ∧
        ∀ k, (∀ fn ∈ as, k ≠ fn ++ ext) → dget k fs' = dget k fs := by
    intro as
    induction as with
    | nil => intro _ s fs _ _ _; exact ⟨fs, s, rfl, by simp, fun _ _ => rfl⟩
    | cons a as ih =>
      intro hsub s fs hs hthere hO
      have rest : ∀ (s1 : A) (fs1 : List (List Char × D)), Inv s1 → (∀ k, k ≠ a ++ ext → dget k fs1 = dget k fs) →
          dget (a ++ ext) fs1 = some (T a) → copyLoopS ext g (a :: as) s fs = copyLoopS ext g as s1 fs1 →
          ∃ fs' s', copyLoopS ext g (a :: as) s fs = some (fs', s') ∧ (∀ fn ∈ a :: as, dget (fn ++ ext) fs' = some (T fn)) ∧
            ∀ k, (∀ fn ∈ a :: as, k ≠ fn ++ ext) → dget k fs' = dget k fs := by
        intro s1 fs1 h0 h1 h2 h3
        obtain ⟨fs', s', e, b1, b2⟩ := ih (fun f hf => hsub f (by simp [hf])) s1 fs1 h0
          (fun f hf => by
            rw [h1 f fun h => hsep a (hsub a (by simp)) f (hsub f (by simp [hf])) h.symm]; exact hthere f (by simp [hf]))
          (fun f hf => by
            by_cases hfa : f = a
            · subst hfa; exact .inr h2
            · rw [h1 _ fun h => hfa (List.append_cancel_right h)]; exact hO f (by simp [hf]))
        refine ⟨fs', s', h3.trans e, ?_, ?_⟩
        · intro f hf
          by_cases hin' : f ∈ as
          · exact b1 f hin'
          · have : f = a := by simpa [hin'] using hf
            subst this
            rw [b2 _ fun g hg h => hin' (by rw [List.append_cancel_right h]; exact hg)]; exact h2
        · intro k hk
          rw [b2 k fun f hf => hk f (by simp [hf]), h1 k (hk a (by simp))]
      have hta := hthere a (by simp)
      rcases hO a (by simp) with h | h
      · obtain ⟨s', e, hs'⟩ := hg a (hsub a (by simp)) s hs
        refine rest s' (dset (a ++ ext) (T a) fs) hs' (fun k hk => dget_dset_ne (Ne.symm hk) _ _) (dget_dset_self _ _ _) ?_
        simp [copyLoopS, h, hta, e]
      · refine rest s fs hs (fun _ _ => rfl) h ?_
        simp [copyLoopS, h]
  exact key args (fun _ h => h) s files hs hin (fun fn hf => .inl (hout fn hf))

end Verif.Util
