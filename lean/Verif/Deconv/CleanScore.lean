import Verif.Deconv.CleanProps
import Mathlib.Analysis.SpecialFunctions.Sqrt
import Mathlib.Analysis.Complex.Basic

/-!
# What CLEAN says about its score (C38) and its best result (C64)
-/

namespace Verif.Deconv

set_option linter.unusedSectionVars false

variable {ι K R : Type} [AddCommGroup ι] [DecidableEq ι] [Fintype ι] [Field K] [Field R] [LinearOrder R]
  [IsStrictOrderedRing R]

/-- What the theorems need to know about the numbers: magnitudes are non-negative, vanish only at zero and
do not see the sign; the square root is non-negative and positive on positive numbers. -/
structure Sound (c : Cfg ι K R) : Prop extends Lists c where
  mag2_nonneg : ∀ x, 0 ≤ c.mag2 x
  mag2_zero : ∀ x, c.mag2 x = 0 ↔ x = 0
  mag2_neg : ∀ x, c.mag2 (-x) = c.mag2 x
  sqrt_nonneg : ∀ x, 0 ≤ c.sqrt x
  sqrt_pos : ∀ x, 0 < x → 0 < c.sqrt x

/-- The 1-D real functions with the real square root are `Sound`. -/
theorem sound_real_1d {dim : Nat} (c : Cfg (Fin (dim + 1)) ℝ ℝ) (ho : c.order = order1 (dim + 1))
    (hm : c.mag2 = fun x => x * x) (hs : c.sqrt = Real.sqrt) : Sound c where
  nodup := (lists1 _ _ ho).1
  complete := (lists1 _ _ ho).2
  mag2_nonneg x := by rw [hm]; exact mul_self_nonneg x
  mag2_zero x := by rw [hm]; exact mul_self_eq_zero
  mag2_neg x := by rw [hm]; simp
  sqrt_nonneg x := by rw [hs]; exact Real.sqrt_nonneg x
  sqrt_pos x h := by rw [hs]; exact Real.sqrt_pos.mpr h

/-- The 2-D complex functions are `Sound`: `valr*valr + vali*vali` is `Complex.normSq`. -/
theorem sound_complex_2d {d1 d2 : Nat} (c : Cfg (Fin (d1 + 1) × Fin (d2 + 1)) ℂ ℝ)
    (ho : c.order = order2 (d1 + 1) (d2 + 1)) (hm : c.mag2 = fun x => x.re * x.re + x.im * x.im)
    (hs : c.sqrt = Real.sqrt) : Sound c where
  nodup := (lists2 _ _ _ ho).1
  complete := (lists2 _ _ _ ho).2
  mag2_nonneg x := by rw [hm]; exact Complex.normSq_nonneg x
  mag2_zero x := by rw [hm]; exact Complex.normSq_eq_zero
  mag2_neg x := by rw [hm]; simp
  sqrt_nonneg x := by rw [hs]; exact Real.sqrt_nonneg x
  sqrt_pos x h := by rw [hs]; exact Real.sqrt_pos.mpr h

/-- **C36**: the separate real and imaginary formulas of the complex functions are complex multiplication
and reciprocal (`deconv.cpp` 280-281, 286-287, 296-299, 401-402, 407-408, 415-418). -/
theorem c36_complex_arithmetic (q m k : ℂ) (gain : ℝ) :
    let mq := q.re * q.re + q.im * q.im
    let qr := q.re / mq
    let qi := -q.im / mq
    let stepr := gain * (m.re * qr - m.im * qi)
    let stepi := gain * (m.re * qi + m.im * qr)
    (⟨stepr, stepi⟩ : ℂ) = (gain : ℂ) * m * (1 / q) ∧
    (⟨k.re * stepr - k.im * stepi, k.re * stepi + k.im * stepr⟩ : ℂ) = k * ((gain : ℂ) * m * (1 / q)) := by
  have h : ∀ a b : ℝ, (⟨a, b⟩ : ℂ) = (gain : ℂ) * m * (1 / q) →
      (⟨k.re * a - k.im * b, k.re * b + k.im * a⟩ : ℂ) = k * ((gain : ℂ) * m * (1 / q)) := by
    intro a b hab
    rw [← hab]
    apply Complex.ext <;> simp
  have h0 : (⟨gain * (m.re * (q.re / (q.re * q.re + q.im * q.im)) -
        m.im * (-q.im / (q.re * q.re + q.im * q.im))),
      gain * (m.re * (-q.im / (q.re * q.re + q.im * q.im)) +
        m.im * (q.re / (q.re * q.re + q.im * q.im)))⟩ : ℂ) = (gain : ℂ) * m * (1 / q) := by
    rw [one_div]
    apply Complex.ext
    · simp [Complex.inv_re, Complex.inv_im, Complex.normSq_apply]; ring
    · simp [Complex.inv_re, Complex.inv_im, Complex.normSq_apply]; ring
  exact ⟨h0, h _ _ h0⟩

variable {c : Cfg ι K R}

/-- The root mean square of an image: what `deconv.clean` reports as `score`. -/
def rms (c : Cfg ι K R) (r : ι → K) : R := c.sqrt ((∑ x, c.mag2 (r x)) / (Fintype.card ι : R))

/-- Taking a component of amplitude `a` at `p` out of a residual. -/
def resAfter (c : Cfg ι K R) (r : ι → K) (p : ι) (a : K) : ι → K := fun x => r x - c.ker (x - p) * a

/-- Adding the component to the model. -/
def mdlAfter (m : ι → K) (p : ι) (a : K) : ι → K := fun x => m x + if x = p then a else 0

/-- What CLEAN may do to a residual: nothing, or take a fraction `gain` of a peak of the residual inside
the area, calibrated with the factor `q`. -/
def Component (c : Cfg ι K R) (q : K) (r : ι → K) (p : ι) (a : K) : Prop :=
  a = 0 ∨ (c.area p = true ∧ a = c.gain * r p * q ∧ ∀ x, c.area x = true → c.mag2 (r x) ≤ c.mag2 (r p))

/-- Sequences of components none of which makes the residual worse. -/
inductive Path (c : Cfg ι K R) (q : K) (res0 mdl0 : ι → K) : Nat → (ι → K) → (ι → K) → Prop
  | start : Path c q res0 mdl0 0 res0 mdl0
  | step (n : Nat) (r m : ι → K) (p : ι) (a : K) : Path c q res0 mdl0 n r m → Component c q r p a →
      rms c (resAfter c r p a) ≤ rms c r → Path c q res0 mdl0 (n + 1) (resAfter c r p a) (mdlAfter m p a)

theorem nscoreOf_eq (hl : Lists c) (s : St ι K R) : nscoreOf c s = rms c (scan c s).res := by
  unfold nscoreOf rmsOf rms
  rw [scan_nscore hl.nodup hl.complete, length_order hl.nodup hl.complete]

theorem scan_res' (hl : Lists c) (s : St ι K R) :
    (scan c s).res = resAfter c s.res s.argmax (stepOf c s) := by
  funext x; exact scan_res hl.nodup hl.complete s x

theorem addComp' (s : St ι K R) : addComp c s = mdlAfter s.mdl s.argmax (stepOf c s) := by
  funext x
  unfold addComp mdlAfter
  by_cases h : x = s.argmax
  · subst h; simp
  · simp [h]

theorem rms_nonneg (hs : Sound c) (r : ι → K) : 0 ≤ rms c r := hs.sqrt_nonneg _

theorem rms_zero (hs : Sound c) (r : ι → K) (h : rms c r = 0) (x : ι) : r x = 0 := by
  have hsum : 0 ≤ ∑ x, c.mag2 (r x) := Finset.sum_nonneg fun x _ => hs.mag2_nonneg _
  have hcard : (0 : R) < (Fintype.card ι : R) := by
    have : 0 < Fintype.card ι := Fintype.card_pos_iff.mpr ⟨x⟩
    exact_mod_cast this
  have h0 : ∑ x, c.mag2 (r x) = 0 := by
    by_contra hne
    have hpos : 0 < (∑ x, c.mag2 (r x)) / (Fintype.card ι : R) :=
      div_pos (lt_of_le_of_ne hsum (Ne.symm hne)) hcard
    have := hs.sqrt_pos _ hpos
    unfold rms at h
    rw [h] at this
    exact lt_irrefl _ this
  have := (Finset.sum_eq_zero_iff_of_nonneg (fun x _ => hs.mag2_nonneg (r x))).mp h0 x (Finset.mem_univ x)
  exact (hs.mag2_zero _).mp this

theorem resAfter_zero (r : ι → K) (p : ι) : resAfter c r p 0 = r := by
  funext x; simp [resAfter]

theorem stepOf_zero (s : St ι K R) (h : s.max = 0) : stepOf c s = 0 := by simp [stepOf, h]

/-- The residual and model returned are those of a sequence of legitimate components, at most `maxiter`
of them, none of which made the rms worse, and the return value says truthfully how the sequence ended. -/
def EndsTruthfully (c : Cfg ι K R) (res0 mdl0 : ι → K) (o : Out ι K) : Prop :=
    (o.exit = .divergence ∧ ∃ n : Nat, o.code = -(n : Int) ∧ 0 < n ∧ (n : Int) < c.maxiter ∧
        Path c (kerQ c) res0 mdl0 n o.res o.mdl ∧
        ∃ p a, Component c (kerQ c) o.res p a ∧ rms c o.res < rms c (resAfter c o.res p a)) ∨
    (o.exit = .tolerance ∧ ∃ (n : Nat) (r m : ι → K) (p : ι) (a : K), o.code = (n : Int) ∧ 0 < n ∧
        (n : Int) < c.maxiter ∧ Path c (kerQ c) res0 mdl0 n r m ∧ Component c (kerQ c) r p a ∧
        o.res = resAfter c r p a ∧ o.mdl = mdlAfter m p a ∧ rms c o.res ≤ rms c r ∧
        (rms c r - rms c o.res) / rms c res0 < c.tol) ∨
    (o.exit = .maxiter ∧ o.code = c.maxiter ∧
        Path c (kerQ c) res0 mdl0 c.maxiter.toNat o.res o.mdl)

/-- What holds between turns when `pos_def` is off. -/
structure Good (c : Cfg ι K R) (res0 : ι → K) (s : St ι K R) : Prop where
  fresh : s.score = -1 ∧ s.firstScore = -1 ∧ s.max = 0 ∧ s.res = res0 ∧ s.i = 0 ∨
    s.score = rms c s.res ∧ s.firstScore = rms c res0 ∧ s.nscore = rms c s.res ∧ 0 < s.i
  comp : Component c (kerQ c) s.res s.argmax (stepOf c s)
  noArea : (∀ x, c.area x = false) → s.max = 0

theorem good_init (res0 mdl0 : ι → K) : Good c res0 (St.init res0 mdl0) where
  fresh := Or.inl ⟨rfl, rfl, rfl, rfl, rfl⟩
  comp := Or.inl (stepOf_zero _ rfl)
  noArea := fun _ => rfl

theorem good_first (hs : Sound c) {res0 : ι → K} {s : St ι K R} (h : Good c res0 s) :
    firstOf c s = rms c res0 := by
  unfold firstOf
  rcases h.fresh with ⟨-, h2, h3, h4, -⟩ | ⟨-, h2, -⟩
  · rw [h2, if_pos (by linarith), nscoreOf_eq hs.toLists, scan_res' hs.toLists, stepOf_zero _ h3,
      resAfter_zero, h4]
  · rw [h2, if_neg (not_lt.mpr (rms_nonneg hs _))]

theorem good_advance (hs : Sound c) (hpd : c.posDef = false) {res0 : ι → K} {s s' : St ι K R}
    (h : Good c res0 s) (h1 : s'.res = (scan c s).res) (h2 : s'.argmax = (scan c s).nargmax)
    (h3 : s'.max = (scan c s).max) (h4 : s'.score = nscoreOf c s) (h5 : s'.firstScore = firstOf c s)
    (h6 : s'.nscore = nscoreOf c s) (h7 : 0 < s'.i) : Good c res0 s' := by
  have hn : (∀ x, c.area x = false) → s'.max = 0 := by
    intro ha
    rcases scan_max hs.mag2_nonneg hs.nodup hs.complete s with ⟨e1, -⟩ | ⟨-, e, -⟩
    · rw [h3, e1]; exact h.noArea ha
    · rw [ha] at e; cases e
  refine ⟨Or.inr ⟨?_, ?_, ?_, h7⟩, ?_, hn⟩
  · rw [h4, nscoreOf_eq hs.toLists, h1]
  · rw [h5, good_first hs h]
  · rw [h6, nscoreOf_eq hs.toLists, h1]
  · rcases scan_max hs.mag2_nonneg hs.nodup hs.complete s with ⟨-, -, e⟩ | ⟨e1, e2, -, e4⟩
    · left
      apply stepOf_zero
      apply hn
      intro x
      by_contra hx
      exact e x (by simpa using hx) (by rw [hpd]; intro hf; cases hf)
    · right
      refine ⟨by rw [h2]; exact e2, ?_, ?_⟩
      · unfold stepOf
        rw [h3, h1, h2, e1]
      · intro x hx
        rw [h1, h2, ← e1]
        exact e4 x hx (by rw [hpd]; intro hf; cases hf)

/-- The step that is about to be taken does not make things worse unless the divergence test fires. -/
theorem good_step (hs : Sound c) {res0 : ι → K} {s : St ι K R} (h : Good c res0 s)
    (hnd : 0 < s.score → nscoreOf c s ≤ s.score) :
    rms c (resAfter c s.res s.argmax (stepOf c s)) ≤ rms c s.res := by
  rcases h.fresh with ⟨-, -, h3, -⟩ | ⟨h1, -⟩
  · rw [stepOf_zero _ h3, resAfter_zero]
  · by_cases hp : 0 < s.score
    · have := hnd hp
      rw [nscoreOf_eq hs.toLists, scan_res' hs.toLists, h1] at this
      exact this
    · have h0 : rms c s.res = 0 := le_antisymm (by rw [← h1]; exact not_lt.mp hp) (rms_nonneg hs _)
      have hz := rms_zero hs _ h0
      have hst : stepOf c s = 0 := by
        rcases h.comp with hc | ⟨-, hc, -⟩
        · exact hc
        · rw [hc, hz]; simp
      rw [hst, resAfter_zero]

/-- **C38.**  With `stop_if_div` (and `pos_def` off) the residual and model returned are those of a
sequence of legitimate components, at most `maxiter` of them, none of which made the rms worse, and the
return value says truthfully how the sequence ended: `-n`: the next component would have made it worse (and
has been taken back exactly); `n` between 0 and `maxiter`: the last component improved the rms by less
than `tol` of the first rms; `maxiter`: `maxiter` components were tried. -/
theorem c38_stop_if_div (hs : Sound c) (hpd : c.posDef = false) (hsid : c.stopIfDiv = true)
    (hmi : 0 ≤ c.maxiter) (res0 mdl0 : ι → K) (fuel : Nat) (o : Out ι K)
    (h : run c fuel (St.init res0 mdl0) = some o) :
    EndsTruthfully c res0 mdl0 o := by
  refine run_induct (c := c)
    (P := fun s => Good c res0 s ∧ Path c (kerQ c) res0 mdl0 s.i s.res s.mdl ∧ s.bestScore = -1 ∧
      (s.i : Int) ≤ c.maxiter)
    (Q := EndsTruthfully c res0 mdl0) ?_ ?_ fuel _ o ?_ h
  · rintro s o ⟨hg, hp, hb, hle⟩ ht
    rcases turn_inl ht with ⟨hi, rfl⟩ | ⟨hi, hsc, hd, -, rfl⟩ | ⟨hi, hsc, hd, htol, rfl⟩
    · right; right
      have hbn : ¬ (0 < s.bestScore ∧ s.bestScore < s.nscore) := by
        rw [hb]; rintro ⟨h0, -⟩; linarith
      unfold finish
      rw [if_neg hbn]
      refine ⟨rfl, rfl, ?_⟩
      have : c.maxiter.toNat = s.i := by omega
      rw [this]; exact hp
    · left
      dsimp only
      rw [undo_back hs.toLists, comp_back]
      rcases hg.fresh with ⟨h1, -⟩ | ⟨h1, -, -, h4⟩
      · rw [h1] at hsc; linarith
      · refine ⟨rfl, s.i, rfl, h4, hi, hp, s.argmax, stepOf c s, hg.comp, ?_⟩
        rw [nscoreOf_eq hs.toLists, scan_res' hs.toLists, h1] at hd
        exact hd
    · right; left
      dsimp only
      rcases hg.fresh with ⟨h1, -⟩ | ⟨h1, -, -, h4⟩
      · rw [h1] at hsc; linarith
      · refine ⟨rfl, s.i, s.res, s.mdl, s.argmax, stepOf c s, rfl, h4, hi, hp, hg.comp,
          scan_res' hs.toLists s, addComp' s, ?_, ?_⟩
        · rw [← nscoreOf_eq hs.toLists, ← h1]; exact hd
        · rw [← nscoreOf_eq hs.toLists, ← h1, ← good_first hs hg]; exact htol
  · rintro s s' ⟨hg, hp, hb, hle⟩ ht
    obtain ⟨hi, hc⟩ := turn_inr ht
    have key : (0 < s.score → nscoreOf c s ≤ s.score) → s' = advance c s →
        Good c res0 s' ∧ Path c (kerQ c) res0 mdl0 s'.i s'.res s'.mdl ∧ s'.bestScore = -1 ∧
          (s'.i : Int) ≤ c.maxiter := by
      rintro hnd rfl
      refine ⟨good_advance hs hpd hg rfl rfl rfl rfl rfl rfl (Nat.succ_pos _), ?_, hb, ?_⟩
      · change Path c (kerQ c) res0 mdl0 (s.i + 1) (scan c s).res (addComp c s)
        rw [scan_res' hs.toLists, addComp']
        exact Path.step _ _ _ _ _ hp hg.comp (good_step hs hg hnd)
      · change ((s.i + 1 : Nat) : Int) ≤ c.maxiter
        omega
    rcases hc with ⟨-, -, hf, -⟩ | ⟨-, -, hf, -⟩ | ⟨-, hf, -⟩ | ⟨h1, -, h3⟩
    · rw [hsid] at hf; cases hf
    · rw [hsid] at hf; cases hf
    · rw [hsid] at hf; cases hf
    · exact key (fun hp => (h1 hp).1) h3
  · exact ⟨good_init res0 mdl0, Path.start, rfl, by simpa [St.init] using hmi⟩

/-- A path never ends with a larger rms than it starts with. -/
theorem path_le {q : K} {res0 mdl0 : ι → K} {n : Nat} {r m : ι → K} (h : Path c q res0 mdl0 n r m) :
    rms c r ≤ rms c res0 := by
  induction h with
  | start => exact le_refl _
  | step n r m p a _ _ h ih => exact le_trans h ih

/-- **C38.**  With `stop_if_div` the residual returned is never worse than the one CLEAN started from.
This holds with `pos_def` too. -/
theorem c38_not_worse (hs : Sound c) (hsid : c.stopIfDiv = true)
    (res0 mdl0 : ι → K) (fuel : Nat) (o : Out ι K)
    (h : run c fuel (St.init res0 mdl0) = some o) : rms c o.res ≤ rms c res0 := by
  have hl := hs.toLists
  have key : ∀ s s' : St ι K R, rms c s.res ≤ rms c res0 → s' = advance c s → rms c s'.res ≤ rms c res0 →
      (rms c s'.res = 0 → rms c (scan c s').res ≤ rms c res0) := by
    rintro s s' hs0 rfl hs1 h0
    have hz := rms_zero hs _ h0
    rcases scan_max hs.mag2_nonneg hs.nodup hs.complete s with ⟨e1, e2, -⟩ | ⟨e1, -⟩
    · have hst : stepOf c (advance c s) = stepOf c s := by
        unfold stepOf
        change c.gain * (scan c s).max * kerQ c = _
        rw [e1]
      have hneg : (scan c (advance c s)).res = fun x => -(s.res x) := by
        funext x
        rw [scan_res hl.nodup hl.complete, hst]
        have h1 := hz x
        change (scan c s).res x = 0 at h1
        change (scan c s).res x - c.ker (x - (scan c s).nargmax) * stepOf c s = _
        rw [h1, e2]
        rw [scan_res hl.nodup hl.complete] at h1
        have : s.res x = c.ker (x - s.argmax) * stepOf c s := by linear_combination h1
        rw [this]; ring
      rw [hneg]
      have : rms c (fun x => -(s.res x)) = rms c s.res := by
        unfold rms
        simp only [hs.mag2_neg]
      rw [this]
      exact hs0
    · have hst : stepOf c (advance c s) = 0 := by
        apply stepOf_zero
        change (scan c s).max = 0
        rw [e1]
        exact hz _
      rw [scan_res' hl, hst, resAfter_zero]
      exact hs1
  refine run_induct (c := c)
    (P := fun s => s.bestScore = -1 ∧ rms c s.res ≤ rms c res0 ∧
      (s.score = -1 ∧ s.max = 0 ∨ s.score = rms c s.res ∧
        (rms c s.res = 0 → rms c (scan c s).res ≤ rms c res0)))
    (Q := fun o => rms c o.res ≤ rms c res0) ?_ ?_ fuel _ o ?_ h
  · rintro s o ⟨hb, hle, hg⟩ ht
    rcases turn_inl ht with ⟨-, rfl⟩ | ⟨-, -, -, -, rfl⟩ | ⟨-, hsc, hd, -, rfl⟩
    · have hbn : ¬ (0 < s.bestScore ∧ s.bestScore < s.nscore) := by
        rw [hb]; rintro ⟨h0, -⟩; linarith
      unfold finish
      rw [if_neg hbn]
      exact hle
    · dsimp only
      rw [undo_back hl]
      exact hle
    · dsimp only
      rcases hg with ⟨h1, -⟩ | ⟨h1, -⟩
      · rw [h1] at hsc; linarith
      · rw [← nscoreOf_eq hl]
        exact le_trans hd (by rw [h1]; exact hle)
  · rintro s s' ⟨hb, hle, hg⟩ ht
    rcases (turn_inr ht).2 with ⟨-, -, hf, -⟩ | ⟨-, -, hf, -⟩ | ⟨-, hf, -⟩ | ⟨h1, -, h3⟩
    · rw [hsid] at hf; cases hf
    · rw [hsid] at hf; cases hf
    · rw [hsid] at hf; cases hf
    · have hres : rms c s'.res ≤ rms c res0 := by
        subst h3
        change rms c (scan c s).res ≤ rms c res0
        rcases hg with ⟨-, hm⟩ | ⟨hsc, hz⟩
        · rw [scan_res' hl, stepOf_zero _ hm, resAfter_zero]; exact hle
        · by_cases hp : 0 < s.score
          · rw [← nscoreOf_eq hl]
            exact le_trans (h1 hp).1 (by rw [hsc]; exact hle)
          · apply hz
            exact le_antisymm (by rw [← hsc]; exact not_lt.mp hp) (rms_nonneg hs _)
      refine ⟨by subst h3; exact hb, hres, Or.inr ⟨?_, key s s' hle h3 hres⟩⟩
      subst h3
      change nscoreOf c s = rms c (scan c s).res
      exact nscoreOf_eq hl s
  · exact ⟨rfl, le_refl _, Or.inl ⟨rfl, rfl⟩⟩

/-- **C38.**  `info['term']` names the exit that was really taken, and `info['success']` is set exactly
for the tolerance exit, with or without `stop_if_div`, if `maxiter` is not negative. -/
theorem c38_status_partial (hmi : 0 ≤ c.maxiter) (res0 mdl0 : ι → K) (fuel : Nat) (o : Out ι K)
    (h : run c fuel (St.init res0 mdl0) = some o) :
    (report c o).term = o.exit ∧ ((report c o).success = true ↔ o.exit = .tolerance) ∧
      (report c o).iterations ≤ c.maxiter := by
  refine run_induct (c := c) (P := fun s => 0 < s.score → 0 < s.i)
    (Q := fun o => (report c o).term = o.exit ∧ ((report c o).success = true ↔ o.exit = .tolerance) ∧
      (report c o).iterations ≤ c.maxiter)
    ?_ ?_ fuel _ o ?_ h
  · intro s o hg ht
    rcases turn_inl ht with ⟨hi, rfl⟩ | ⟨hi, hsc, -, -, rfl⟩ | ⟨hi, hsc, -, -, rfl⟩
    · have : (finish c s).code = c.maxiter ∧ (finish c s).exit = .maxiter := by
        unfold finish; split <;> exact ⟨rfl, rfl⟩
      have h1 : ¬ (finish c s).code < 0 := by omega
      have h2 : ¬ (finish c s).code < c.maxiter := by omega
      unfold report
      simp only [h1, h2, if_false, this.2]
      simp [this.1]
    · have := hg hsc
      have h1 : -(s.i : Int) < 0 := by omega
      unfold report
      simp only [h1, if_true]
      refine ⟨trivial, ?_, by omega⟩
      simp
    · have := hg hsc
      have h1 : ¬ (s.i : Int) < 0 := by omega
      unfold report
      simp only [h1, hi, if_true, if_false]
      refine ⟨trivial, ?_, by omega⟩
      simp [this]
  · intro s s' hg ht
    rcases (turn_inr ht).2 with ⟨-, -, -, -, rfl⟩ | ⟨-, -, -, -, rfl⟩ | ⟨-, -, -, rfl⟩ | ⟨-, -, rfl⟩
    · intro _; exact Nat.one_pos
    · intro _; exact Nat.succ_pos _
    · intro _; exact Nat.one_pos
    · intro _; exact Nat.succ_pos _
  · intro hp
    have : (0 : R) < -1 := hp
    linarith

/-- A negative `maxiter` is reported as a divergence, although nothing was tried. -/
theorem c38_status_violated :
    (run (demo (fun _ => true) ![1, 0, 0, 0] 1 0 (-1) true false) 1
        (St.init ![1, 2, 3, 4] (fun _ => 0))).map (fun o => (o.exit, (report
          (demo (fun _ => true) ![1, 0, 0, 0] 1 0 (-1) true false) o).term)) =
      some (Exit.maxiter, Exit.divergence) := by decide +kernel

/-- The calibration factor is the reciprocal of the largest kernel value inside the area. -/
theorem c38_calibration (hs : Sound c) (hk : ∃ x, c.area x = true ∧ c.ker x ≠ 0) :
    ∃ p, c.area p = true ∧ c.ker p ≠ 0 ∧ kerQ c = 1 / c.ker p ∧
      ∀ x, c.area x = true → c.mag2 (c.ker x) ≤ c.mag2 (c.ker p) := by
  have key : ∀ (l : List ι) (s : R × K), 0 ≤ s.1 →
      (s.1 = 0 ∧ s.2 = 0 ∨ ∃ p, c.area p = true ∧ s.2 = c.ker p ∧ s.1 = c.mag2 (c.ker p) ∧ 0 < s.1) →
      let t := l.foldl (peakStep c) s
      s.1 ≤ t.1 ∧ (t.1 = 0 ∧ t.2 = 0 ∨
        ∃ p, c.area p = true ∧ t.2 = c.ker p ∧ t.1 = c.mag2 (c.ker p) ∧ 0 < t.1) ∧
      ∀ x ∈ l, c.area x = true → c.mag2 (c.ker x) ≤ t.1 := by
    intro l
    induction l with
    | nil => intro s h0 h1; exact ⟨le_refl _, h1, by simp⟩
    | cons n l ih =>
      intro s h0 h1
      dsimp only [List.foldl_cons]
      have hst : (s.1 < c.mag2 (c.ker n) ∧ c.area n = true ∧
            peakStep c s n = (c.mag2 (c.ker n), c.ker n)) ∨
          (¬ (s.1 < c.mag2 (c.ker n) ∧ c.area n = true) ∧ peakStep c s n = s) := by
        unfold peakStep
        split
        · rename_i h
          simp only [Bool.and_eq_true, decide_eq_true_eq] at h
          exact Or.inl ⟨h.1, h.2, rfl⟩
        · rename_i h
          simp only [Bool.and_eq_true, decide_eq_true_eq] at h
          exact Or.inr ⟨h, rfl⟩
      rcases hst with ⟨a1, a2, a3⟩ | ⟨a1, a3⟩
      · rw [a3]
        obtain ⟨i1, i2, i3⟩ := ih (c.mag2 (c.ker n), c.ker n) (hs.mag2_nonneg _)
          (Or.inr ⟨n, a2, rfl, rfl, lt_of_le_of_lt h0 a1⟩)
        refine ⟨le_trans (le_of_lt a1) i1, i2, ?_⟩
        intro x hx ha
        rcases List.mem_cons.mp hx with h | h
        · subst h; exact i1
        · exact i3 x h ha
      · rw [a3]
        obtain ⟨i1, i2, i3⟩ := ih s h0 h1
        refine ⟨i1, i2, ?_⟩
        intro x hx ha
        rcases List.mem_cons.mp hx with h | h
        · subst h
          exact le_trans (not_lt.mp fun hlt => a1 ⟨hlt, ha⟩) i1
        · exact i3 x h ha
  obtain ⟨-, h2, h3⟩ := key c.order (0, 0) (le_refl _) (Or.inl ⟨rfl, rfl⟩)
  obtain ⟨x, hx, hkx⟩ := hk
  have hpos : 0 < c.mag2 (c.ker x) :=
    lt_of_le_of_ne (hs.mag2_nonneg _) (fun h => hkx ((hs.mag2_zero _).mp h.symm))
  rcases h2 with ⟨h2, -⟩ | ⟨p, p1, p2, p3, p4⟩
  · have := h3 x (hs.complete x) hx
    rw [h2] at this
    exact absurd hpos (not_lt.mpr this)
  · refine ⟨p, p1, ?_, ?_, ?_⟩
    · intro h0
      rw [p3] at p4
      rw [(hs.mag2_zero _).mpr h0] at p4
      exact lt_irrefl _ p4
    · unfold kerQ; rw [p2]
    · intro y hy
      rw [← p3]
      exact h3 y (hs.complete y) hy

/-- The demonstration set-up satisfies everything the theorems ask for. -/
theorem demo_sound (area : Fin 4 → Bool) (ker : Fin 4 → ℚ) (gain tol : ℚ) (maxiter : Int)
    (sid pos : Bool) : Sound (demo area ker gain tol maxiter sid pos) where
  nodup := (demo_lists area ker gain tol maxiter sid pos).nodup
  complete := (demo_lists area ker gain tol maxiter sid pos).complete
  mag2_nonneg x := mul_self_nonneg x
  mag2_zero x := mul_self_eq_zero
  mag2_neg x := by change -x * -x = x * x; ring
  sqrt_nonneg x := Rat.sqrt_nonneg x
  sqrt_pos x h := by
    change 0 < Rat.sqrt x
    unfold Rat.sqrt
    have hn : 0 < x.num := Rat.num_pos.mpr h
    have h1 : 0 < Int.sqrt x.num := by
      unfold Int.sqrt
      have : 0 < Nat.sqrt x.num.toNat := Nat.sqrt_pos.mpr (by omega)
      exact_mod_cast this
    have h2 : 0 < Nat.sqrt x.den := Nat.sqrt_pos.mpr x.den_pos
    rw [Rat.mkRat_eq_div]
    exact div_pos (by exact_mod_cast h1) (by exact_mod_cast h2)

/-- Each of the three exits with `stop_if_div` is taken by some run: a divergence that is undone ... -/
example : (cleanPy (demo ![true, false, false, false] ![-2, 0, 2, 0] 1 0 9 true false) 10
    ![4, -4, 4, 1] (fun _ => 0)).map (fun r => (r.mdl 0, r.res 0, r.res 2, r.term, r.iterations)) =
    some (0, 4, 4, Exit.divergence, 1) := by decide +kernel

/-- ... a tolerance exit ... -/
example : (cleanPy (demo (fun _ => true) ![2, 0, 0, 0] 1 2 9 true false) 10
    ![4, 3, 0, 0] (fun _ => 0)).map (fun r => (r.mdl 0, r.mdl 1, r.term, r.iterations)) =
    some (2, 0, Exit.tolerance, 1) := by decide +kernel

/-- ... and the iteration limit. -/
example : (cleanPy (demo (fun _ => true) ![2, 0, 0, 0] 1 0 3 true false) 10
    ![4, 3, 0, 0] (fun _ => 0)).map (fun r => (r.mdl 0, r.mdl 1, r.term, r.iterations)) =
    some (2, 3 / 2, Exit.maxiter, 3) := by decide +kernel

end Verif.Deconv
