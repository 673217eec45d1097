import Verif.Deconv.CleanLemmas
import Mathlib.Algebra.Group.Fin.Basic
import Mathlib.Data.Fintype.Prod
import Mathlib.Data.Fin.VecNotation

/-!
# What CLEAN guarantees (C36, C37)

The specification: cyclic convolution, and "nothing outside the area is touched".
-/

namespace Verif.Deconv

set_option linter.unusedSectionVars false

variable {ι K R : Type} [AddCommGroup ι] [DecidableEq ι] [Fintype ι] [Field K] [Field R] [LinearOrder R]
  [IsStrictOrderedRing R]

/-- Cyclic convolution: the image a model makes through the kernel. -/
def conv (ker mdl : ι → K) (x : ι) : K := ∑ y, ker (x - y) * mdl y

theorem conv_update (ker mdl : ι → K) (a : ι) (d : K) (x : ι) :
    conv ker (Function.update mdl a (mdl a + d)) x = conv ker mdl x + ker (x - a) * d := by
  classical
  unfold conv
  have h : ∀ y, ker (x - y) * Function.update mdl a (mdl a + d) y =
      ker (x - y) * mdl y + (if y = a then ker (x - a) * d else 0) := by
    intro y
    by_cases hy : y = a
    · subst hy; simp; ring
    · simp [hy]
  simp only [h, Finset.sum_add_distrib]
  simp

/-- The visiting order lists every position once. -/
structure Lists (c : Cfg ι K R) : Prop where
  nodup : c.order.Nodup
  complete : ∀ x, x ∈ c.order

variable {c : Cfg ι K R}

/-- Residual and model account for a total image. -/
def Accounts (c : Cfg ι K R) (tot res mdl : ι → K) : Prop := ∀ x, res x + conv c.ker mdl x = tot x

theorem accounts_step (hl : Lists c) (tot : ι → K) (s : St ι K R) (h : Accounts c tot s.res s.mdl) :
    Accounts c tot (scan c s).res (addComp c s) := by
  intro x
  rw [scan_res hl.nodup hl.complete, addComp, conv_update, ← h x]
  ring

theorem update_back (mdl : ι → K) (a : ι) (d : K) :
    Function.update (Function.update mdl a (mdl a + d)) a
      ((Function.update mdl a (mdl a + d)) a - d) = mdl := by
  funext x
  by_cases h : x = a
  · subst h; simp
  · simp [Function.update_of_ne h]

theorem comp_back (s : St ι K R) :
    Function.update (addComp c s) s.argmax (addComp c s s.argmax - stepOf c s) = s.mdl :=
  update_back _ _ _

theorem undo_back (hl : Lists c) (s : St ι K R) :
    undoRes c s.argmax (stepOf c s) (scan c s).res = s.res := by
  funext x
  rw [undoRes_apply hl.nodup hl.complete, scan_res hl.nodup hl.complete]
  ring

theorem save_back_res (hl : Lists c) (s : St ι K R) (m : ι → K) (b : (ι → K) × (ι → K)) :
    (saveBest c s.argmax (stepOf c s) (scan c s).res m b).1 = s.res := by
  funext x
  rw [saveBest_fst hl.nodup hl.complete, scan_res hl.nodup hl.complete]
  ring

theorem save_back_mdl (hl : Lists c) (s : St ι K R) (r : ι → K) (b : (ι → K) × (ι → K)) :
    (saveBest c s.argmax (stepOf c s) r (addComp c s) b).2 = s.mdl := by
  rw [saveBest_snd hl.nodup hl.complete]
  exact update_back _ _ _

/-- **C36.**  However the loop ends, the residual and the model it leaves account for exactly what the
residual and the model it was given accounted for. -/
theorem c36_conserves (hl : Lists c) (res0 mdl0 : ι → K) (fuel : Nat) (o : Out ι K)
    (h : run c fuel (St.init res0 mdl0) = some o) (x : ι) :
    o.res x + conv c.ker o.mdl x = res0 x + conv c.ker mdl0 x := by
  have key := run_induct (c := c)
    (P := fun s => Accounts c (fun x => res0 x + conv c.ker mdl0 x) s.res s.mdl ∧
      (0 < s.bestScore → Accounts c (fun x => res0 x + conv c.ker mdl0 x) s.bestRes s.bestMdl))
    (Q := fun o => Accounts c (fun x => res0 x + conv c.ker mdl0 x) o.res o.mdl)
    ?_ ?_ fuel _ o ?_ h
  · exact key x
  · rintro s o ⟨h1, h2⟩ ht
    rcases turn_inl ht with ⟨-, rfl⟩ | ⟨-, -, -, -, rfl⟩ | ⟨-, -, -, -, rfl⟩
    · unfold finish
      split
      · rename_i hb; exact h2 hb.1
      · exact h1
    · dsimp only
      rw [undo_back hl, comp_back]
      exact h1
    · exact accounts_step hl _ s h1
  · rintro s s' ⟨h1, h2⟩ ht
    rcases (turn_inr ht).2 with ⟨-, -, -, -, rfl⟩ | ⟨-, -, -, -, rfl⟩ | ⟨-, -, -, rfl⟩ | ⟨-, -, rfl⟩
    · refine ⟨accounts_step hl _ s h1, ?_⟩
      intro _
      dsimp only
      rw [save_back_res hl, save_back_mdl hl]
      exact h1
    · exact ⟨accounts_step hl _ s h1, h2⟩
    · exact ⟨accounts_step hl _ s h1, h2⟩
    · exact ⟨accounts_step hl _ s h1, h2⟩
  · refine ⟨fun x => rfl, ?_⟩
    intro hb
    have : (0 : R) < -1 := hb
    linarith

/-- **C36**, for `deconv.clean`: with the initial residual computed from the image and the model guess,
model and residual returned add up to the image. -/
theorem c36_image (hl : Lists c) (im mdl0 : ι → K) (fuel : Nat) (r : Info ι K)
    (h : cleanPy c fuel (fun x => im x - conv c.ker mdl0 x) mdl0 = some r) (x : ι) :
    r.res x + conv c.ker r.mdl x = im x := by
  unfold cleanPy at h
  cases hr : run c fuel (St.init (R := R) (fun x => im x - conv c.ker mdl0 x) mdl0) with
  | none => rw [hr] at h; cases h
  | some o =>
    rw [hr] at h
    have he : report c o = r := by injection h
    have hm : r.res = o.res ∧ r.mdl = o.mdl := by
      subst he
      unfold report
      dsimp only
      split
      · exact ⟨rfl, rfl⟩
      · split <;> exact ⟨rfl, rfl⟩
    rw [hm.1, hm.2, c36_conserves hl _ _ _ _ hr x]
    ring

/-- The visiting order of the 1-D functions. -/
theorem lists1 (dim : Nat) (l : List (Fin dim)) (h : l = order1 dim) : l.Nodup ∧ ∀ x, x ∈ l := by
  subst h
  exact ⟨List.nodup_finRange dim, fun x => List.mem_finRange x⟩

/-- The visiting order of the 2-D functions. -/
theorem lists2 (d1 d2 : Nat) (l : List (Fin d1 × Fin d2)) (h : l = order2 d1 d2) :
    l.Nodup ∧ ∀ x, x ∈ l := by
  subst h
  constructor
  · unfold order2
    rw [List.nodup_flatMap]
    constructor
    · intro a _
      exact (List.nodup_finRange d2).map (fun x y h => by cases h; rfl)
    · refine List.Pairwise.imp ?_ (List.nodup_finRange d1)
      intro a b hab x hx hy
      simp only [List.mem_map] at hx hy
      obtain ⟨_, _, rfl⟩ := hx
      obtain ⟨_, _, h⟩ := hy
      exact hab (congrArg Prod.fst h).symm
  · rintro ⟨a, b⟩
    unfold order2
    simp [List.mem_flatMap, List.mem_map]

/-- **C36** for images of `dim + 1` pixels and the index order of `clean_1d_r` / `clean_1d_c`. -/
theorem c36_1d {dim : Nat} {c : Cfg (Fin (dim + 1)) K R} (ho : c.order = order1 (dim + 1))
    (im mdl0 : Fin (dim + 1) → K) (fuel : Nat) (r : Info (Fin (dim + 1)) K)
    (h : cleanPy c fuel (fun x => im x - conv c.ker mdl0 x) mdl0 = some r) (x : Fin (dim + 1)) :
    r.res x + conv c.ker r.mdl x = im x :=
  c36_image ⟨(lists1 _ _ ho).1, (lists1 _ _ ho).2⟩ im mdl0 fuel r h x

/-- **C36** for 2-D images and the index order of `clean_2d_r` / `clean_2d_c`. -/
theorem c36_2d {d1 d2 : Nat} {c : Cfg (Fin (d1 + 1) × Fin (d2 + 1)) K R}
    (ho : c.order = order2 (d1 + 1) (d2 + 1))
    (im mdl0 : Fin (d1 + 1) × Fin (d2 + 1) → K) (fuel : Nat)
    (r : Info (Fin (d1 + 1) × Fin (d2 + 1)) K)
    (h : cleanPy c fuel (fun x => im x - conv c.ker mdl0 x) mdl0 = some r)
    (x : Fin (d1 + 1) × Fin (d2 + 1)) :
    r.res x + conv c.ker r.mdl x = im x :=
  c36_image ⟨(lists2 _ _ _ ho).1, (lists2 _ _ _ ho).2⟩ im mdl0 fuel r h x

/-- A small concrete set-up used in the examples: four rational pixels. -/
def demo (area : Fin 4 → Bool) (ker : Fin 4 → ℚ) (gain tol : ℚ) (maxiter : Int) (sid pos : Bool) :
    Cfg (Fin 4) ℚ ℚ :=
  { order := order1 4, ker := ker, area := area, gain := gain, maxiter := maxiter, tol := tol,
    stopIfDiv := sid, posDef := pos, mag2 := fun x => x * x, isPos := fun x => decide (0 < x),
    sqrt := Rat.sqrt }

/-- `demo` visits the pixels like the C++ code does. -/
theorem demo_lists (area : Fin 4 → Bool) (ker : Fin 4 → ℚ) (gain tol : ℚ) (maxiter : Int)
    (sid pos : Bool) : Lists (demo area ker gain tol maxiter sid pos) :=
  ⟨(lists1 4 _ rfl).1, (lists1 4 _ rfl).2⟩

/-- The hypotheses of C36 are met by a run that places two components and stops on `maxiter`. -/
example : (cleanPy (demo (fun _ => true) ![2, 1, 0, 0] 1 0 3 true false) 4 ![4, 2, -2, -1]
    (fun _ => 0)).map (fun r => (r.mdl 0, r.mdl 2, r.res 0, r.res 2, r.term)) =
    some (2, -1, 0, 0, Exit.maxiter) := by decide +kernel

/-- **C37.**  The model changes only inside the area. -/
theorem c37_area_only (hl : Lists c) (hm : ∀ x, 0 ≤ c.mag2 x) (res0 mdl0 : ι → K) (fuel : Nat)
    (o : Out ι K) (h : run c fuel (St.init res0 mdl0) = some o) (x : ι) (hx : c.area x = false) :
    o.mdl x = mdl0 x := by
  have hstep : ∀ s : St ι K R, (c.area s.argmax = true ∨ s.max = 0) → s.mdl x = mdl0 x →
      addComp c s x = mdl0 x := by
    intro s hs h1
    unfold addComp
    by_cases hxa : x = s.argmax
    · rcases hs with hs | hs
      · rw [← hxa, hx] at hs; cases hs
      · rw [← hxa] at *
        simp [stepOf, hs, h1]
    · rw [Function.update_of_ne hxa, h1]
  have hscan : ∀ s : St ι K R, (c.area s.argmax = true ∨ s.max = 0) →
      (c.area (scan c s).nargmax = true ∨ (scan c s).max = 0) := by
    intro s hs
    rcases scan_max hm hl.nodup hl.complete s with ⟨e1, e2, -⟩ | ⟨-, e, -⟩
    · rw [e1, e2]; exact hs
    · left; exact e
  refine run_induct (c := c)
    (P := fun s => s.mdl x = mdl0 x ∧ (c.area s.argmax = true ∨ s.max = 0) ∧
      (0 < s.bestScore → s.bestMdl x = mdl0 x))
    (Q := fun o => o.mdl x = mdl0 x) ?_ ?_ fuel _ o ?_ h
  · rintro s o ⟨h1, h2, h3⟩ ht
    rcases turn_inl ht with ⟨-, rfl⟩ | ⟨-, -, -, -, rfl⟩ | ⟨-, -, -, -, rfl⟩
    · unfold finish
      split
      · rename_i hb; exact h3 hb.1
      · exact h1
    · dsimp only
      rw [comp_back]
      exact h1
    · exact hstep s h2 h1
  · rintro s s' ⟨h1, h2, h3⟩ ht
    rcases (turn_inr ht).2 with ⟨-, -, -, -, rfl⟩ | ⟨-, -, -, -, rfl⟩ | ⟨-, -, -, rfl⟩ | ⟨-, -, rfl⟩
    · refine ⟨hstep s h2 h1, hscan s h2, ?_⟩
      intro _
      dsimp only
      rw [save_back_mdl hl]
      exact h1
    · exact ⟨hstep s h2 h1, hscan s h2, h3⟩
    · exact ⟨hstep s h2 h1, hscan s h2, h3⟩
    · exact ⟨hstep s h2 h1, hscan s h2, h3⟩
  · refine ⟨rfl, Or.inr rfl, ?_⟩
    intro hb
    have : (0 : R) < -1 := hb
    linarith


/-- A run with a mask: the large value at position 0 is outside the area and keeps its model value,
although the loop starts at position 0; position 2 is inside and gets components. -/
example : (cleanPy (demo ![false, false, true, true] ![1, 0, 2, 0] (1 / 2) 0 3 true false) 4
    ![8, 0, 4, 0] ![5, 0, 0, 0]).map (fun r => (r.mdl 0, r.mdl 2, r.term)) =
    some (5, 7 / 4, Exit.maxiter) := by decide +kernel

end Verif.Deconv
