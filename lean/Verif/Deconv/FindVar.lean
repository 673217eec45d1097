import Verif.Deconv.MaxEnt
import Mathlib.Analysis.SpecialFunctions.Pow.Real
import Mathlib.Algebra.Order.Archimedean.Basic
/-!
# Property C95 : `maxent_findvar` searches until it succeeds
-/
noncomputable section
namespace Verif.Deconv
open Real

variable {ι : Type} [Fintype ι]

/-! ## Model -/

/-- a Python number -/
inductive PyNum | int (n : Int) | float (x : ℝ)

/-- `range(n)`; `none` is the TypeError for floats -/
def pyRange : PyNum → Option Nat
  | .int n => some n.toNat
  | .float _ => none

/-- `a/b` with `from __future__ import division` -/
def trueDiv (a b : Int) : PyNum := .float ((a : ℝ) / b)

/-- `var`, deconv.py 208-216: `lsqVar n` is `np.var` of the residual of `lsq` with `maxiter=n` -/
def startVar (lsqVar : Nat → ℝ) (f : ℝ) (maxiter : Int) : Option ℝ → Option ℝ
  | some v => some v
  | none => (pyRange (trueDiv maxiter 4)).map fun n => lsqVar n * f

/-- the search: `cnt + 1` and `v` -/
structure Search where
  n : Nat
  v : ℝ

/-- `v` at the start of a round, deconv.py 219-220 -/
def startV (var : ℝ) : Nat → ℝ
  | 0 => var
  | n + 1 => var / 1.5 ^ n

/-- the condition of the inner loop, deconv.py 221 -/
def inRound (var : ℝ) (s : Search) : Prop :=
  match s.n with
  | 0 => True
  | n + 1 => s.v < var * 1.5 ^ n

/-- `maxent(im, ker, v, ...)` -/
def atVar (a : MaxEnt ι) (maxiter : Nat) (v : ℝ) : Option (MaxEnt.Out ι) := { a with var0 := v }.run maxiter

open Classical in
/-- one test of the condition of the inner loop and, if it holds, one pass, deconv.py 217-238; `Except.error` is the result: the variance and what
`maxent` returned for it.  (An error of `maxent` itself, with `maxiter = 0`, is taken for a failure here; the claims exclude it.) -/
def searchStep (a : MaxEnt ι) (maxiter : Nat) (maxiterok : Bool) (var : ℝ) (s : Search) : Except (ℝ × MaxEnt.Out ι) Search :=
  let next : Search := ⟨s.n + 1, startV var (s.n + 1)⟩
  if inRound var s then
    match atVar a maxiter s.v with
    | none => .ok next
    | some o =>
      if o.success = true ∧ (maxiterok = true ∨ o.term = .tol) then .error (s.v, o)
      else if s.n = 0 then .ok next else .ok ⟨s.n, s.v * 1.2 ^ ((1 : ℝ) / (2 * s.n))⟩
  else .ok next

/-- so many steps -/
def search (a : MaxEnt ι) (maxiter : Nat) (maxiterok : Bool) (var : ℝ) : Nat → Search → Option (ℝ × MaxEnt.Out ι)
  | 0, _ => none
  | k + 1, s =>
    match searchStep a maxiter maxiterok var s with
    | .error r => some r
    | .ok s => search a maxiter maxiterok var k s

/-- `maxent_findvar` with `var` given, stopped after `k` steps if it has not returned -/
def findVar (a : MaxEnt ι) (maxiter : Nat) (maxiterok : Bool) (var : ℝ) (k : Nat) : Option (ℝ × MaxEnt.Out ι) :=
  search a maxiter maxiterok var k ⟨0, var⟩

/-! ## Specification -/

/-- `maxent` gives an acceptable result for this variance -/
def Converges (a : MaxEnt ι) (maxiter : Nat) (maxiterok : Bool) (v : ℝ) : Prop :=
  ∃ o, { a with var0 := v }.run maxiter = some o ∧ o.success = true ∧ (maxiterok = true ∨ o.term = .tol)

/-- the `k`-th variance of round `c`: rounds start lower and lower, in smaller and smaller steps -/
def trial (var : ℝ) (c k : Nat) : ℝ := var / 1.5 ^ c * (1.2 ^ ((1 : ℝ) / (2 * (c + 1 : ℕ)))) ^ k

/-! ## Lemmas -/

/-- what the search knows -/
def Legal (a : MaxEnt ι) (maxiter : Nat) (ok : Bool) (var : ℝ) (s : Search) : Prop :=
  match s.n with
  | 0 => s.v = var
  | n + 1 => ¬ Converges a maxiter ok var ∧ (∀ c < n, ∀ j, trial var c j < var * 1.5 ^ c → ¬ Converges a maxiter ok (trial var c j)) ∧
      ∃ k, s.v = trial var n k ∧ ∀ j < k, ¬ Converges a maxiter ok (trial var n j)

theorem factor_gt (n : Nat) : (1 : ℝ) < 1.2 ^ ((1 : ℝ) / (2 * (n + 1 : ℕ))) := by
  apply one_lt_rpow (by norm_num)
  positivity

theorem trial_mono {var : ℝ} (hv : 0 ≤ var) (c : Nat) {j k : Nat} (h : j ≤ k) : trial var c j ≤ trial var c k :=
  mul_le_mul_of_nonneg_left (pow_le_pow_right₀ (factor_gt c).le h) (by positivity)

theorem trial_zero (var : ℝ) (n : Nat) : startV var (n + 1) = trial var n 0 := by
  unfold trial
  rw [pow_zero, mul_one]
  rfl

theorem runs (a : MaxEnt ι) {maxiter : Nat} (hm : 1 ≤ maxiter) (v : ℝ) : ∃ o, atVar a maxiter v = some o := by
  obtain ⟨j, rfl⟩ := Nat.exists_eq_add_of_le' hm
  exact ⟨_, rfl⟩

theorem not_conv {a : MaxEnt ι} {maxiter : Nat} {ok : Bool} {v : ℝ} {o : MaxEnt.Out ι} (ho : atVar a maxiter v = some o)
    (hc : ¬ (o.success = true ∧ (ok = true ∨ o.term = .tol))) : ¬ Converges a maxiter ok v := by
  rintro ⟨o', h1, h2⟩
  unfold atVar at ho
  rw [ho] at h1
  cases h1
  exact hc h2

theorem legal_step (a : MaxEnt ι) (maxiter : Nat) (hm : 1 ≤ maxiter) (ok : Bool) {var : ℝ} (hv : 0 ≤ var) {s s' : Search} (hl : Legal a maxiter ok var s)
    (h : searchStep a maxiter ok var s = .ok s') : Legal a maxiter ok var s' := by
  obtain ⟨n, v⟩ := s
  obtain ⟨o, ho⟩ := runs a hm v
  unfold searchStep at h
  simp only [ho] at h
  cases n with
  | zero =>
    have hl : v = var := hl
    subst hl
    rw [if_pos (show inRound v ⟨0, v⟩ from trivial)] at h
    split at h
    · cases h
    · next hc =>
      rw [if_pos rfl] at h
      cases h
      exact ⟨not_conv ho hc, fun c hc => absurd hc (Nat.not_lt_zero c), 0, trial_zero v 0, fun j hj => absurd hj (Nat.not_lt_zero j)⟩
  | succ n =>
    obtain ⟨h1, h2, k, h3, h4⟩ := hl
    have h3 : v = trial var n k := h3
    split at h
    · split at h
      · cases h
      · next hc =>
        rw [if_neg (Nat.succ_ne_zero n)] at h
        cases h
        refine ⟨h1, h2, k + 1, ?_, ?_⟩
        · show v * _ = _
          rw [h3]
          unfold trial
          rw [pow_succ, mul_assoc]
        · intro j hj
          rcases Nat.lt_succ_iff_lt_or_eq.1 hj with hj | rfl
          · exact h4 j hj
          · rw [← h3]
            exact not_conv ho hc
    · next hr =>
      cases h
      have hr : ¬ v < var * 1.5 ^ n := hr
      refine ⟨h1, ?_, 0, trial_zero var (n + 1), fun j hj => absurd hj (Nat.not_lt_zero j)⟩
      intro c hc j hj
      rcases Nat.lt_succ_iff_lt_or_eq.1 hc with hc | rfl
      · exact h2 c hc j hj
      · apply h4
        by_contra hjk
        exact hr (lt_of_le_of_lt (by rw [h3]; exact trial_mono hv c (not_lt.1 hjk)) hj)

theorem search_sound (a : MaxEnt ι) (maxiter : Nat) (hm : 1 ≤ maxiter) (ok : Bool) {var : ℝ} (hv : 0 ≤ var) : ∀ (k : Nat) (s : Search) (r : ℝ × MaxEnt.Out ι), Legal a maxiter ok var s →
    search a maxiter ok var k s = some r → { a with var0 := r.1 }.run maxiter = some r.2 ∧ r.2.success = true ∧ (ok = true ∨ r.2.term = .tol) ∧
      (r.1 = var ∨ (¬ Converges a maxiter ok var ∧ ∃ c k, r.1 = trial var c k ∧ trial var c k < var * 1.5 ^ c ∧
        (∀ j < k, ¬ Converges a maxiter ok (trial var c j)) ∧
        ∀ c' < c, ∀ j, trial var c' j < var * 1.5 ^ c' → ¬ Converges a maxiter ok (trial var c' j)))
  | 0, _, _, _, h => by cases h
  | k + 1, s, r, hl, h => by
    unfold search at h
    cases hs : searchStep a maxiter ok var s with
    | ok s' =>
      rw [hs] at h
      exact search_sound a maxiter hm ok hv k s' r (legal_step a maxiter hm ok hv hl hs) h
    | error r' =>
      rw [hs] at h
      cases h
      unfold searchStep at hs
      simp only at hs
      split at hs
      · next hr =>
        split at hs
        · cases hs
        · next o ho =>
          split at hs
          · next hc =>
            cases hs
            refine ⟨ho, hc.1, hc.2, ?_⟩
            obtain ⟨n, v⟩ := s
            cases n with
            | zero => exact Or.inl hl
            | succ n =>
              obtain ⟨h1, h2, k, h3, h4⟩ := hl
              have h3 : v = trial var n k := h3
              exact Or.inr ⟨h1, n, k, h3, by rw [← h3]; exact hr, h4, h2⟩
          · split at hs <;> cases hs
      · cases hs

/-- the search ends -/
def Ends (a : MaxEnt ι) (maxiter : Nat) (ok : Bool) (var : ℝ) (s : Search) : Prop := ∃ k r, search a maxiter ok var k s = some r

theorem ends_of_error {a : MaxEnt ι} {maxiter : Nat} {ok : Bool} {var : ℝ} {s : Search} {r : ℝ × MaxEnt.Out ι} (h : searchStep a maxiter ok var s = .error r) :
    Ends a maxiter ok var s := ⟨1, r, by unfold search; rw [h]⟩

theorem ends_of_ok {a : MaxEnt ι} {maxiter : Nat} {ok : Bool} {var : ℝ} {s s' : Search} (h : searchStep a maxiter ok var s = .ok s')
    (he : Ends a maxiter ok var s') : Ends a maxiter ok var s := by
  obtain ⟨k, r, e⟩ := he
  exact ⟨k + 1, r, by unfold search; rw [h]; exact e⟩

/-- the start: one trial, then the first round -/
theorem ends_first (a : MaxEnt ι) (maxiter : Nat) (ok : Bool) (var : ℝ) (h : Ends a maxiter ok var ⟨1, startV var 1⟩) : Ends a maxiter ok var ⟨0, var⟩ := by
  cases hs : searchStep a maxiter ok var ⟨0, var⟩ with
  | error r => exact ends_of_error hs
  | ok s' =>
    have : s' = ⟨1, startV var 1⟩ := by
      unfold searchStep at hs
      simp only at hs
      split at hs
      · split at hs
        · cases hs; rfl
        · split at hs
          · cases hs
          · rw [if_pos trivial] at hs
            cases hs; rfl
      · cases hs; rfl
    rw [this] at hs
    exact ends_of_ok hs h

/-- what a step of a later round can be -/
theorem step_round (a : MaxEnt ι) (maxiter : Nat) (ok : Bool) (var : ℝ) (n : Nat) (v : ℝ) :
    (∃ r, searchStep a maxiter ok var ⟨n + 1, v⟩ = .error r) ∨
    searchStep a maxiter ok var ⟨n + 1, v⟩ = .ok ⟨n + 2, startV var (n + 2)⟩ ∨
    (v < var * 1.5 ^ n ∧ ¬ Converges a maxiter ok v ∧ searchStep a maxiter ok var ⟨n + 1, v⟩ = .ok ⟨n + 1, v * 1.2 ^ ((1 : ℝ) / (2 * (n + 1 : ℕ)))⟩) := by
  unfold searchStep
  simp only
  split
  · next hr =>
    split
    · exact Or.inr (Or.inl rfl)
    · next o ho =>
      split
      · exact Or.inl ⟨_, rfl⟩
      · next hc =>
        rw [if_neg (Nat.succ_ne_zero n)]
        refine Or.inr (Or.inr ⟨hr, ?_, rfl⟩)
        rintro ⟨o', h1, h2⟩
        unfold atVar at ho
        rw [ho] at h1
        cases h1
        exact hc h2
  · exact Or.inr (Or.inl rfl)

/-- a round ends -/
theorem ends_round (a : MaxEnt ι) (maxiter : Nat) (ok : Bool) (var : ℝ) (n : Nat) (h : Ends a maxiter ok var ⟨n + 2, startV var (n + 2)⟩) :
    ∀ (k : Nat) (v : ℝ), 0 < v → var * 1.5 ^ n ≤ v * (1.2 ^ ((1 : ℝ) / (2 * (n + 1 : ℕ)))) ^ k → Ends a maxiter ok var ⟨n + 1, v⟩
  | 0, v, _, hk => by
    rcases step_round a maxiter ok var n v with ⟨r, e⟩ | e | ⟨hlt, _, _⟩
    · exact ends_of_error e
    · exact ends_of_ok e h
    · rw [pow_zero, mul_one] at hk
      exact absurd hlt (not_lt.2 hk)
  | k + 1, v, hv, hk => by
    rcases step_round a maxiter ok var n v with ⟨r, e⟩ | e | ⟨_, _, e⟩
    · exact ends_of_error e
    · exact ends_of_ok e h
    · refine ends_of_ok e (ends_round a maxiter ok var n h k _ (mul_pos hv (zero_lt_one.trans (factor_gt n))) ?_)
      rw [pow_succ'] at hk
      rw [mul_assoc]
      exact hk

/-- a round that meets an acceptable variance ends the search -/
theorem ends_hit (a : MaxEnt ι) (maxiter : Nat) (ok : Bool) (hm : 1 ≤ maxiter) (var : ℝ) (n : Nat) :
    ∀ (k : Nat) (v : ℝ), 0 < v → v * (1.2 ^ ((1 : ℝ) / (2 * (n + 1 : ℕ)))) ^ k < var * 1.5 ^ n →
      Converges a maxiter ok (v * (1.2 ^ ((1 : ℝ) / (2 * (n + 1 : ℕ)))) ^ k) → Ends a maxiter ok var ⟨n + 1, v⟩ := by
  intro k
  induction k with
  | zero =>
    intro v hv hlt hc
    rw [pow_zero, mul_one] at hlt hc
    obtain ⟨o, h1, h2⟩ := hc
    apply ends_of_error (r := (v, o))
    unfold searchStep
    simp only
    rw [if_pos (show inRound var ⟨n + 1, v⟩ from hlt)]
    unfold atVar
    rw [h1]
    simp only
    rw [if_pos h2]
  | succ k ih =>
    intro v hv hlt hc
    have hf := factor_gt n
    have hle : v ≤ v * (1.2 ^ ((1 : ℝ) / (2 * (n + 1 : ℕ)))) ^ (k + 1) := le_mul_of_one_le_right hv.le (one_le_pow₀ hf.le)
    rw [pow_succ', ← mul_assoc] at hlt hc
    have ih := ih _ (mul_pos hv (zero_lt_one.trans hf)) hlt hc
    unfold Ends
    cases hs : searchStep a maxiter ok var ⟨n + 1, v⟩ with
    | error r => exact ends_of_error hs
    | ok s' =>
      have hs' : s' = ⟨n + 1, v * 1.2 ^ ((1 : ℝ) / (2 * (n + 1 : ℕ)))⟩ := by
        unfold searchStep at hs
        simp only at hs
        rw [if_pos (show inRound var ⟨n + 1, v⟩ from by
          show v < var * 1.5 ^ n
          rw [pow_succ', ← mul_assoc] at hle
          exact lt_of_le_of_lt hle hlt)] at hs
        split at hs
        · next hnone =>
          exfalso
          obtain ⟨j, rfl⟩ := Nat.exists_eq_add_of_le' hm
          cases hnone
        · split at hs
          · cases hs
          · rw [if_neg (Nat.succ_ne_zero n)] at hs
            cases hs
            rfl
      rw [hs'] at hs
      exact ends_of_ok hs ih

theorem factor_pow (n : Nat) : ((1.2 : ℝ) ^ ((1 : ℝ) / (2 * (n + 1 : ℕ)))) ^ (2 * (n + 1)) = 1.2 := by
  rw [← rpow_natCast, ← rpow_mul (by norm_num)]
  have : (1 : ℝ) / (2 * (n + 1 : ℕ)) * ((2 * (n + 1) : ℕ) : ℝ) = 1 := by
    push_cast
    field_simp
  rw [this, rpow_one]

theorem factor_small {rho : ℝ} (h : 1 < rho) : ∃ N : Nat, ∀ n, N ≤ n → (1.2 : ℝ) ^ ((1 : ℝ) / (2 * (n + 1 : ℕ))) < rho := by
  obtain ⟨N, hN⟩ := pow_unbounded_of_one_lt 1.2 h
  refine ⟨N, fun n hn => ?_⟩
  by_contra hc
  have hc := not_lt.1 hc
  have h1 : rho ^ (2 * (n + 1)) ≤ 1.2 := by
    rw [← factor_pow n]
    exact pow_le_pow_left₀ (by linarith) hc _
  have h2 : rho ^ N ≤ rho ^ (2 * (n + 1)) := pow_le_pow_right₀ h.le (by omega)
  linarith

theorem grow {v B r : ℝ} (hv : 0 < v) (hr : 1 < r) : ∃ k : Nat, B < v * r ^ k := by
  obtain ⟨k, hk⟩ := pow_unbounded_of_one_lt (B / v) hr
  refine ⟨k, ?_⟩
  rw [div_lt_iff₀ hv] at hk
  rw [mul_comm]
  exact hk

/-! ## The claims -/

/-- C95: what is returned is a result of `maxent` that is acceptable, for the variance given or, if there is none for that, for the first variance
of the first round for which there is one. -/
theorem c95_sound (a : MaxEnt ι) (maxiter : Nat) (hm : 1 ≤ maxiter) (maxiterok : Bool) {var : ℝ} (hv : 0 ≤ var) (k : Nat) (v : ℝ) (o : MaxEnt.Out ι)
    (h : findVar a maxiter maxiterok var k = some (v, o)) :
    { a with var0 := v }.run maxiter = some o ∧ o.success = true ∧ (maxiterok = true ∨ o.term = .tol) ∧
      (v = var ∨ (¬ Converges a maxiter maxiterok var ∧ ∃ c k, v = trial var c k ∧ trial var c k < var * 1.5 ^ c ∧
        (∀ j < k, ¬ Converges a maxiter maxiterok (trial var c j)) ∧
        ∀ c' < c, ∀ j, trial var c' j < var * 1.5 ^ c' → ¬ Converges a maxiter maxiterok (trial var c' j))) :=
  search_sound a maxiter hm maxiterok hv k ⟨0, var⟩ (v, o) rfl h

/-- C95: if there is an interval of variances, however small and far away, for which `maxent` converges, then the search ends. -/
theorem c95_complete (a : MaxEnt ι) (maxiter : Nat) (hm : 1 ≤ maxiter) (maxiterok : Bool) {var : ℝ} (hv : 0 < var) {x y : ℝ} (hx : 0 < x) (hxy : x < y)
    (hc : ∀ v, x < v → v < y → Converges a maxiter maxiterok v) : ∃ k r, findVar a maxiter maxiterok var k = some r := by
  obtain ⟨N1, h1⟩ := factor_small (rho := y / x) (by rw [lt_div_iff₀ hx]; linarith)
  obtain ⟨N2, h2⟩ := grow (v := var) (B := y) (r := 1.5) hv (by norm_num)
  obtain ⟨N3, h3⟩ := grow (v := x) (B := var) (r := 1.5) hx (by norm_num)
  have up : ∀ {z : ℝ} {i j : Nat}, 0 < z → i ≤ j → z * 1.5 ^ i ≤ z * 1.5 ^ j := fun hz hij =>
    mul_le_mul_of_nonneg_left (pow_le_pow_right₀ (by norm_num) hij) hz.le
  set N := max N1 (max N2 N3) with hN
  have hN1 : N1 ≤ N := le_max_left _ _
  have hN2 : N2 ≤ N := (le_max_left _ _).trans (le_max_right _ _)
  have hN3 : N3 ≤ N := (le_max_right _ _).trans (le_max_right _ _)
  have hs0 : 0 < startV var (N + 1) := by
    show 0 < var / 1.5 ^ N
    positivity
  have hsx : startV var (N + 1) < x := by
    show var / 1.5 ^ N < x
    rw [div_lt_iff₀ (by positivity)]
    exact lt_of_lt_of_le h3 (up hx hN3)
  -- the round that meets the interval
  have hlast : Ends a maxiter maxiterok var ⟨N + 1, startV var (N + 1)⟩ := by
    have hf := factor_gt N
    have hex := grow (v := startV var (N + 1)) (B := x) hs0 hf
    classical
    have hk := Nat.find_spec hex
    have hmin := fun j => Nat.find_min hex (m := j)
    cases hk0 : Nat.find hex with
    | zero =>
      rw [hk0, pow_zero, mul_one] at hk
      exact absurd hk (not_lt.2 hsx.le)
    | succ k =>
      rw [hk0] at hk
      have hprev := not_lt.1 (hmin k (by omega))
      have hy : startV var (N + 1) * (1.2 ^ ((1 : ℝ) / (2 * (N + 1 : ℕ)))) ^ (k + 1) < y := by
        rw [pow_succ, ← mul_assoc]
        have := h1 N hN1
        rw [lt_div_iff₀ hx] at this
        calc _ ≤ x * 1.2 ^ ((1 : ℝ) / (2 * (N + 1 : ℕ))) := mul_le_mul_of_nonneg_right hprev (zero_lt_one.trans hf).le
          _ < y := by rw [mul_comm]; exact this
      exact ends_hit a maxiter maxiterok hm var N (k + 1) _ hs0 (hy.trans (lt_of_lt_of_le h2 (up hv hN2))) (hc _ hk hy)
  -- the rounds before
  have hall : ∀ j, j ≤ N → Ends a maxiter maxiterok var ⟨N - j + 1, startV var (N - j + 1)⟩ := by
    intro j
    induction j with
    | zero => intro _; exact hlast
    | succ j ih =>
      intro hj
      have ih := ih (by omega)
      have e : N - j = N - (j + 1) + 1 := by omega
      rw [e] at ih
      obtain ⟨k, hk⟩ := grow (v := startV var (N - (j + 1) + 1)) (B := var * 1.5 ^ (N - (j + 1)))
        (show 0 < var / 1.5 ^ (N - (j + 1)) from by positivity) (factor_gt (N - (j + 1)))
      exact ends_round a maxiter maxiterok var _ ih k _ (show 0 < var / 1.5 ^ (N - (j + 1)) from by positivity) hk.le
  have h0 := hall N le_rfl
  rw [Nat.sub_self] at h0
  exact ends_first a maxiter maxiterok var h0

/-- C95: with a variance of zero (the residual of `lsq` is constant) the search never ends, unless `maxent` converges at once. -/
theorem c95_zero_violated (a : MaxEnt ι) (maxiter : Nat) (maxiterok : Bool) (h : ¬ Converges a maxiter maxiterok 0) (k : Nat) :
    findVar a maxiter maxiterok 0 k = none := by
  have hst : ∀ n, startV 0 (n + 1) = 0 := fun n => by show (0 : ℝ) / _ = 0; exact zero_div _
  have hstep : ∀ n, searchStep a maxiter maxiterok 0 ⟨n, 0⟩ = .ok ⟨n + 1, 0⟩ := by
    intro n
    unfold searchStep
    simp only [hst]
    split
    · next hr =>
      cases n with
      | zero =>
        split
        · rfl
        · next o ho =>
          rw [if_neg (fun hc => h ⟨o, ho, hc⟩), if_pos rfl]
      | succ n =>
        have hr : (0 : ℝ) < 0 * 1.5 ^ n := hr
        rw [zero_mul] at hr
        exact absurd hr (lt_irrefl _)
    · rfl
  have : ∀ k n, search a maxiter maxiterok 0 k ⟨n, 0⟩ = none := by
    intro k
    induction k with
    | zero => intro n; rfl
    | succ k ih =>
      intro n
      unfold search
      rw [hstep]
      exact ih (n + 1)
  exact this k 0

/-- C95: without a variance nothing is estimated: `maxiter/4` is a float and `lsq` raises. -/
theorem c95_default_violated (lsqVar : Nat → ℝ) (f : ℝ) (maxiter : Int) : startVar lsqVar f maxiter none = none := rfl

/-! ## Example -/

/-- a tolerance of 2 makes `maxent` converge for every variance -/
example : ∃ k r, findVar { MaxEnt.demo with tol := 2 } 3 false 5 k = some r := by
  refine c95_complete _ 3 (by decide) false (by norm_num) (x := 1) (y := 2) one_pos (by norm_num) ?_
  intro v _ _
  obtain ⟨o, e, _, h1, h2⟩ := MaxEnt.c94_bounds_violated { MaxEnt.demo with tol := 2, var0 := v } (by norm_num) (by simp [MaxEnt.demo]) (by simp [MaxEnt.demo]) 2
  exact ⟨o, e, h1, Or.inr h2⟩

/-- a variance of zero for which `maxent` does not converge: an image with a negative mean -/
example : ¬ Converges { MaxEnt.demo with im := fun _ => -1, m := fun _ => -1 } 2 true 0 := by
  rintro ⟨o, e, hs, _⟩
  obtain ⟨o', e', h', _⟩ := MaxEnt.c94_negative_violated { MaxEnt.demo with im := fun _ => -1, m := fun _ => -1, var0 := 0 } (by norm_num [MaxEnt.demo]) (by norm_num [MaxEnt.demo])
    (by simp [MaxEnt.demo]) 1 one_pos (by simp [defaultModel]) (by simp) 0
  rw [e] at e'
  cases e'
  rw [hs] at h'
  cases h'

end Verif.Deconv
