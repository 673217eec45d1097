import Verif.Dsp.FilterProps
import Mathlib.LinearAlgebra.Matrix.NonsingularInverse
import Mathlib.LinearAlgebra.Matrix.ToLinearEquiv
import Mathlib.Data.List.Sort
import Mathlib.Tactic.Positivity
/-!
# C129: delays of antennas from find_delay.py

Model of `/repo/scripts/find_delay.py` 38-126: records are added up per polarisation and baseline, the delay of each is where its transform is
largest, and the delays of antennas are to be solved for.  Numbers are exact.  The list `pols` and its sorting (79, 81), which raises in python 3,
and the printing are not modelled.
-/
set_option linter.unusedSectionVars false
noncomputable section
namespace Verif.Dsp.FindDelay
open Verif.Dsp

/-! ## Model -/

/-- a record as `uv.all(raw=True)` gives it, find_delay.py 62 -/
structure Rec (n : Nat) where
  i : Nat
  j : Nat
  pol : String
  data : Row n
  flags : Fin (n + 1) → Bool

/-- the options and what the calibration and the file give -/
structure Env where
  /-- `FlagAnt`, 33-36 -/
  flagged : List Nat
  /-- `bl_len[(i,j)]*0.15 <= 30.`, 64, 65 -/
  short : Nat → Nat → Bool
  sdf : ℝ

/-- `DD`, `AntNos` and `f`, 56-62 -/
structure St (n : Nat) where
  dd : String → Nat → Nat → Option (Row n)
  ants : List Nat
  f : Fin (n + 1) → Bool

/-- a record that is not skipped, 63-70 -/
def used {n : Nat} (e : Env) (r : Rec n) : Bool :=
  if r.i = r.j then false
  else if e.short r.i r.j then false
  else if r.pol = "xy" then false
  else if r.pol = "yx" then false
  else if r.i ∈ e.flagged then false
  else if r.j ∈ e.flagged then false
  else true

/-- `if not i in AntNos: AntNos.append(i)`, 77, 78 -/
def note (a : Nat) (l : List Nat) : List Nat := if a ∈ l then l else l ++ [a]

/-- one turn of the loop, 62-78: `f` stays whatever the record -/
def step {n : Nat} (e : Env) (s : St n) (r : Rec n) : St n :=
  if used e r then
    { dd := fun p a b => if p = r.pol ∧ a = r.i ∧ b = r.j then some (fun k => (s.dd p a b).getD 0 k + r.data k) else s.dd p a b
      ants := note r.j (note r.i s.ants)
      f := r.flags }
  else { s with f := r.flags }

/-- all records of all files, 56-78 -/
def gather {n : Nat} (e : Env) (rs : List (Rec n)) : St n := rs.foldl (step e) ⟨fun _ _ _ => none, [], fun _ => false⟩

/-- `np.logical_not(f).astype(float)`, 42 -/
def samples {n : Nat} (f : Fin (n + 1) → Bool) : Row n := fun k => if f k then 0 else 1

/-- `clean_delay`, 39-48; `clean` is that of C36 -/
def cleanDelay {n : Nat} (f : Fin (n + 1) → Bool) (d : Row n) : Except FErr (Row n) :=
  match cleanRow (1 / 1000000) (rmsFlags (samples f)) (ifft (samples f)) (ifft d) with
  | .error x => .error x
  | .ok c => .ok fun k => c (k - ⟨(n + 1) / 2 % (n + 1), Nat.mod_lt _ (Nat.succ_pos n)⟩)

/-- `delays[i]`, 82: `np.linspace(-0.5/sdf, 0.5/sdf, nchan)` -/
def delays (sdf : ℝ) (n : Nat) (i : Fin (n + 1)) : ℝ := -(1 / 2) / sdf + (i : Nat) * ((1 / 2 / sdf - -(1 / 2) / sdf) / n)

open Classical in
/-- the loop of 99, 100: the last index where the magnitude is the largest -/
def lastMax {n : Nat} (x : Fin (n + 1) → ℝ) : Option (Fin (n + 1)) :=
  (List.finRange (n + 1)).foldl (fun o i => if x i = Finset.univ.sup' ⟨0, Finset.mem_univ _⟩ x then some i else o) none

open Classical in
/-- `D_ij[pol][bl]`, 95-100; nothing is entered if the magnitudes divided by the largest are NaN: all are 0, or all channels of `f` are flagged -/
def measure {n : Nat} (sdf : ℝ) (f : Fin (n + 1) → Bool) (d : Row n) : Option ℝ :=
  if ∀ k, f k = true then none
  else match cleanDelay f d with
    | .error _ => none
    | .ok c => if (∀ k, c k = 0) then none else (lastMax fun k => ‖c k‖).map (delays sdf n)

/-- `D_ij` of a polarisation for two antennas -/
def delayOf {n : Nat} (e : Env) (rs : List (Rec n)) (pol : String) (a b : Nat) : Option ℝ :=
  ((gather e rs).dd pol a b).bind (measure e.sdf (gather e rs).f)

/-- a row of the equations: two indices into `AntNos` and a delay, 114-121 -/
abbrev Eqn (m : Nat) := Fin m × Fin m × ℝ

/-- the rows of the double loop of 114-121 -/
def rowsOf (ants : List Nat) (D : Nat → Nat → Option ℝ) : List (Eqn ants.length) :=
  (List.finRange ants.length).flatMap fun i => (List.finRange ants.length).filterMap fun j => (D ants[i] ants[j]).map fun b => (i, j, b)

/-- `Nbl+1`, 87, 108 -/
def height (m : Nat) : Nat := m * (m - 1) / 2 + 1

/-- `A`, 108, 119 -/
def matA {m : Nat} (rows : List (Eqn m)) : Matrix (Fin (height m)) (Fin m) ℝ := fun k i =>
  match rows[(k : Nat)]? with
  | none => 0
  | some q => if i = q.2.1 then -1 else if i = q.1 then 1 else 0

/-- `W` after 123 -/
def matW {m : Nat} (rows : List (Eqn m)) : Matrix (Fin (height m)) (Fin (height m)) ℝ :=
  Matrix.diagonal fun k => if (k : Nat) < rows.length then 1 / (rows.length : ℝ) else 0

/-- `b`, 110, 118 -/
def vecB {m : Nat} (rows : List (Eqn m)) : Fin (height m) → ℝ := fun k =>
  match rows[(k : Nat)]? with
  | none => 0
  | some q => q.2.2

/-- the exceptions: IndexError of 118-120, LinAlgError of 125 -/
inductive Err | index | singular
deriving DecidableEq

/-- the mean of an array -/
def mean {m : Nat} (x : Fin m → ℝ) : ℝ := (∑ i, x i) / m

open Classical in
/-- `Tau[pol]`, 107-126 -/
def solve {m : Nat} (rows : List (Eqn m)) : Except Err (Fin m → ℝ) :=
  if height m < rows.length then .error .index
  else
    let N := (matA rows).transpose * matW rows * matA rows
    if N.det = 0 then .error .singular
    else
      let x := N⁻¹.mulVec (((matA rows).transpose * matW rows).mulVec (vecB rows))
      .ok fun i => x i - mean x

/-- `AntNos` after 80 -/
def antNos {n : Nat} (e : Env) (rs : List (Rec n)) : List Nat := (gather e rs).ants.insertionSort (· ≤ ·)

/-- the script for one polarisation -/
def findDelay {n : Nat} (e : Env) (rs : List (Rec n)) (pol : String) : Except Err (Fin (antNos e rs).length → ℝ) :=
  solve (rowsOf (antNos e rs) (delayOf e rs pol))

/-! ## Specification -/

/-- the signal of a delay, `t` turns over the band: `exp(-2 pi i tau nu)` at the frequencies `nu0 + k sdf` with `tau = t/(nchan sdf)` -/
def Delayed {n : Nat} (t : ℤ) (d : Row n) : Prop := ∃ A : ℂ, ∀ k, d k = A * Complex.exp (-(2 * Real.pi * Complex.I * ((t : ℂ) * (k : Nat)) / (n + 1)))

/-- a record the script is meant to use: a long baseline of two antennas that are not flagged, with a parallel polarisation -/
def Good {n : Nat} (e : Env) (r : Rec n) : Prop :=
  r.i ≠ r.j ∧ e.short r.i r.j = false ∧ r.pol ≠ "xy" ∧ r.pol ≠ "yx" ∧ r.i ∉ e.flagged ∧ r.j ∉ e.flagged

/-- two antennas are joined by baselines -/
def Joined {m : Nat} (rows : List (Eqn m)) : Fin m → Fin m → Prop :=
  Relation.ReflTransGen fun p q => ∃ b, (p, q, b) ∈ rows ∨ (q, p, b) ∈ rows

/-! ## Lemmas -/

theorem used_iff {n : Nat} (e : Env) (r : Rec n) : used e r = true ↔ Good e r := by
  unfold used Good
  by_cases h1 : r.i = r.j <;> by_cases h2 : e.short r.i r.j <;> by_cases h3 : r.pol = "xy" <;> by_cases h4 : r.pol = "yx" <;>
    by_cases h5 : r.i ∈ e.flagged <;> by_cases h6 : r.j ∈ e.flagged <;> simp [h1, h2, h3, h4, h5, h6]

/-- `A y` -/
theorem matA_mul {m : Nat} (rows : List (Eqn m)) (y : Fin m → ℝ) (k : Fin (height m)) (q : Eqn m) (hq : rows[(k : Nat)]? = some q) (hne : q.1 ≠ q.2.1) :
    (matA rows).mulVec y k = y q.1 - y q.2.1 := by
  unfold Matrix.mulVec dotProduct matA
  simp only [hq]
  have : ∀ i, (if i = q.2.1 then -1 else if i = q.1 then 1 else 0 : ℝ) * y i = (if i = q.1 then y i else 0) - (if i = q.2.1 then y i else 0) := by
    intro i
    by_cases h1 : i = q.2.1
    · have h2 : i ≠ q.1 := fun h => hne (h.symm.trans h1)
      rw [if_pos h1, if_neg h2, if_pos h1]
      ring
    · rw [if_neg h1, if_neg h1]
      split <;> ring
  simp only [this, Finset.sum_sub_distrib, Finset.sum_ite_eq', Finset.mem_univ, if_true]

theorem matA_none {m : Nat} (rows : List (Eqn m)) (y : Fin m → ℝ) (k : Fin (height m)) (hq : rows[(k : Nat)]? = none) : (matA rows).mulVec y k = 0 := by
  unfold Matrix.mulVec dotProduct matA
  simp only [hq, zero_mul, Finset.sum_const_zero]

theorem matA_ones {m : Nat} (rows : List (Eqn m)) (hne : ∀ q ∈ rows, q.1 ≠ q.2.1) : (matA rows).mulVec (fun _ => 1) = 0 := by
  funext k
  cases hq : rows[(k : Nat)]? with
  | none => exact matA_none rows _ k hq
  | some q =>
    rw [matA_mul rows _ k q hq (hne q (List.mem_of_getElem? hq))]
    simp

/-- the equations say nothing about a delay that all antennas share -/
theorem normal_singular {m : Nat} (hm : 0 < m) (rows : List (Eqn m)) (hne : ∀ q ∈ rows, q.1 ≠ q.2.1) :
    ((matA rows).transpose * matW rows * matA rows).det = 0 := by
  rw [← Matrix.exists_mulVec_eq_zero_iff]
  refine ⟨fun _ => 1, ?_, ?_⟩
  · intro h
    exact one_ne_zero (congrFun h ⟨0, hm⟩)
  · rw [← Matrix.mulVec_mulVec, matA_ones rows hne, Matrix.mulVec_zero]

theorem energy {m : Nat} (rows : List (Eqn m)) (y : Fin m → ℝ) (h : ((matA rows).transpose * matW rows * matA rows).mulVec y = 0) :
    ∀ k : Fin (height m), (if (k : Nat) < rows.length then 1 / (rows.length : ℝ) else 0) * ((matA rows).mulVec y k) ^ 2 = 0 := by
  have h1 : y ⬝ᵥ ((matA rows).transpose * matW rows * matA rows).mulVec y = 0 := by rw [h, dotProduct_zero]
  have h2 : y ⬝ᵥ ((matA rows).transpose * matW rows * matA rows).mulVec y =
      ∑ k : Fin (height m), (if (k : Nat) < rows.length then 1 / (rows.length : ℝ) else 0) * ((matA rows).mulVec y k) ^ 2 := by
    rw [← Matrix.mulVec_mulVec, ← Matrix.mulVec_mulVec, Matrix.dotProduct_mulVec, Matrix.vecMul_transpose]
    unfold dotProduct matW
    apply Finset.sum_congr rfl
    intro k _
    rw [Matrix.mulVec_diagonal]
    ring
  rw [h2] at h1
  have h3 := (Finset.sum_eq_zero_iff_of_nonneg (fun k _ => ?_)).1 h1
  · exact fun k => h3 k (Finset.mem_univ k)
  · apply mul_nonneg
    · split
      · positivity
      · exact le_refl 0
    · exact sq_nonneg _

theorem flat {m : Nat} (rows : List (Eqn m)) (hl : rows.length ≤ height m) (hne : ∀ q ∈ rows, q.1 ≠ q.2.1) (y : Fin m → ℝ)
    (h : ((matA rows).transpose * matW rows * matA rows).mulVec y = 0) (q : Eqn m) (hq : q ∈ rows) : y q.1 = y q.2.1 := by
  obtain ⟨k, hk, rfl⟩ := List.getElem_of_mem hq
  have h1 := energy rows y h ⟨k, by omega⟩
  simp only [hk, if_true] at h1
  rw [matA_mul rows y ⟨k, by omega⟩ rows[k] (by simp [hk]) (hne _ (List.getElem_mem hk))] at h1
  have hpos : (rows.length : ℝ) ≠ 0 := by
    have : rows.length ≠ 0 := by omega
    exact_mod_cast this
  rcases mul_eq_zero.1 h1 with h2 | h2
  · rw [one_div, inv_eq_zero] at h2
    exact absurd h2 hpos
  · exact sub_eq_zero.1 (pow_eq_zero_iff (by decide : 2 ≠ 0) |>.1 h2)

theorem joined_eq {m : Nat} {rows : List (Eqn m)} {y : Fin m → ℝ} (h : ∀ q ∈ rows, y q.1 = y q.2.1) {i j : Fin m} (hij : Joined rows i j) : y i = y j := by
  induction hij with
  | refl => rfl
  | tail _ hbc ih =>
    rw [ih]
    obtain ⟨b, hb | hb⟩ := hbc
    · exact h _ hb
    · exact (h _ hb).symm

open Classical in
/-- the records of a polarisation and a baseline that are meant to be used -/
def chosen {n : Nat} (e : Env) (rs : List (Rec n)) (pol : String) (a b : Nat) : List (Rec n) :=
  rs.filter fun r => decide (Good e r ∧ r.pol = pol ∧ r.i = a ∧ r.j = b)

/-- the sum of their data -/
def total {n : Nat} (e : Env) (rs : List (Rec n)) (pol : String) (a b : Nat) : Row n := ((chosen e rs pol a b).map Rec.data).sum

theorem gather_snoc {n : Nat} (e : Env) (rs : List (Rec n)) (r : Rec n) : gather e (rs ++ [r]) = step e (gather e rs) r := by
  unfold gather
  rw [List.foldl_append]
  rfl

theorem gather_f {n : Nat} (e : Env) (rs : List (Rec n)) (r : Rec n) : (gather e (rs ++ [r])).f = r.flags := by
  rw [gather_snoc]
  unfold step
  split <;> rfl

theorem chosen_pos {n : Nat} (e : Env) (rs : List (Rec n)) (r : Rec n) (pol : String) (a b : Nat) (h : Good e r ∧ r.pol = pol ∧ r.i = a ∧ r.j = b) :
    chosen e (rs ++ [r]) pol a b = chosen e rs pol a b ++ [r] := by
  unfold chosen
  rw [List.filter_append, List.filter_cons_of_pos (by simpa using h)]
  rfl

theorem chosen_neg {n : Nat} (e : Env) (rs : List (Rec n)) (r : Rec n) (pol : String) (a b : Nat) (h : ¬ (Good e r ∧ r.pol = pol ∧ r.i = a ∧ r.j = b)) :
    chosen e (rs ++ [r]) pol a b = chosen e rs pol a b := by
  unfold chosen
  rw [List.filter_append, List.filter_cons_of_neg (by simpa using h), List.filter_nil, List.append_nil]

theorem gather_dd {n : Nat} (e : Env) (rs : List (Rec n)) (pol : String) (a b : Nat) :
    (gather e rs).dd pol a b = if chosen e rs pol a b = [] then none else some (total e rs pol a b) := by
  induction rs using List.reverseRecOn with
  | nil => simp [gather, chosen]
  | append_singleton rs r ih =>
    rw [gather_snoc]
    unfold step total
    by_cases hg : Good e r
    · rw [if_pos ((used_iff e r).2 hg)]
      simp only
      by_cases h : r.pol = pol ∧ r.i = a ∧ r.j = b
      · rw [chosen_pos e rs r pol a b ⟨hg, h⟩, if_pos ⟨h.1.symm, h.2.1.symm, h.2.2.symm⟩, if_neg (by simp), List.map_append, List.sum_append, ih]
        congr 1
        by_cases hc : chosen e rs pol a b = []
        · rw [if_pos hc, hc]
          funext k
          simp
        · rw [if_neg hc]
          funext k
          simp [total]
      · have h' : ¬ (pol = r.pol ∧ a = r.i ∧ b = r.j) := fun h2 => h ⟨h2.1.symm, h2.2.1.symm, h2.2.2.symm⟩
        rw [chosen_neg e rs r pol a b (fun h2 => h h2.2), if_neg h', ih]
        rfl
    · rw [chosen_neg e rs r pol a b (fun h2 => hg h2.1), if_neg (fun h => hg ((used_iff e r).1 h))]
      exact ih

theorem foldl_last {n : Nat} (P : Fin (n + 1) → Prop) [DecidablePred P] (m : Fin (n + 1)) (hP : ∀ i, P i ↔ i = m) : ∀ (l : List (Fin (n + 1))) (o : Option (Fin (n + 1))),
    l.foldl (fun o i => if P i then some i else o) o = if m ∈ l then some m else o := by
  intro l
  induction l with
  | nil => intro o; simp
  | cons i l ih =>
    intro o
    rw [List.foldl_cons, ih]
    by_cases h : i = m
    · subst h
      simp [(hP i).2 rfl]
    · have h' : ¬ P i := fun h2 => h ((hP i).1 h2)
      rw [if_neg h']
      simp [Ne.symm h]

theorem lastMax_eq {n : Nat} (x : Fin (n + 1) → ℝ) (m : Fin (n + 1)) (h : ∀ i, i ≠ m → x i < x m) : lastMax x = some m := by
  classical
  have hs : Finset.univ.sup' ⟨0, Finset.mem_univ _⟩ x = x m := by
    apply le_antisymm
    · apply Finset.sup'_le
      intro i _
      by_cases hi : i = m
      · rw [hi]
      · exact (h i hi).le
    · exact Finset.le_sup' x (Finset.mem_univ m)
  unfold lastMax
  rw [hs]
  have := foldl_last (fun i => x i = x m) m (fun i => ⟨fun he => by
    by_contra hne
    exact absurd he (h i hne).ne, fun he => by rw [he]⟩) (List.finRange (n + 1)) none
  rw [if_pos (List.mem_finRange m)] at this
  convert this using 3

/-- the transform of a delay is a single peak -/
theorem ifft_delayed {n : Nat} (t : Fin (n + 1)) (A : ℂ) (d : Row n) (h : ∀ k, d k = A * Complex.exp (-(2 * Real.pi * Complex.I * (((t : Nat) : ℂ) * (k : Nat)) / (n + 1)))) (m : Fin (n + 1)) :
    ifft d m = if m = t then A else 0 := by
  unfold ifft
  have : ∀ x : Fin (n + 1), d x * Complex.exp (2 * Real.pi * Complex.I * ((x.val : ℂ) * m.val) / (n + 1)) =
      A * (Complex.exp (2 * Real.pi * Complex.I * ((m.val : ℂ) * x.val) / (n + 1)) * Complex.exp (-(2 * Real.pi * Complex.I * ((t.val : ℂ) * x.val) / (n + 1)))) := by
    intro x
    rw [h, mul_comm (x.val : ℂ) (m.val : ℂ)]
    ring
  rw [Finset.sum_congr rfl fun x _ => this x, ← Finset.mul_sum, orth]
  by_cases hm : m = t
  · rw [if_pos hm, if_pos hm]
    exact mul_div_cancel_right₀ _ (succ_ne n)
  · rw [if_neg hm, if_neg hm, mul_zero, zero_div]

/-- turns over the band count modulo the number of channels -/
theorem turns_mod {n : Nat} (t : ℤ) (k : Nat) (u : Nat) (h : ∃ q : ℤ, t = u + q * (n + 1)) :
    Complex.exp (-(2 * Real.pi * Complex.I * ((t : ℂ) * k) / (n + 1))) = Complex.exp (-(2 * Real.pi * Complex.I * ((u : ℂ) * k) / (n + 1))) := by
  obtain ⟨q, hq⟩ := h
  rw [Complex.exp_eq_exp_iff_exists_int]
  refine ⟨-(q * k), ?_⟩
  have hn := succ_ne n
  rw [hq]
  push_cast
  field_simp
  ring

/-- the delay measured is that of the bin where the transform is -/
theorem measure_delayed {n : Nat} (sdf : ℝ) (f : Fin (n + 1) → Bool) (hf : ∀ k, f k = false) (t : ℤ) (ht : 0 ≤ t + ((n + 1) / 2 : Nat)) (ht' : t + ((n + 1) / 2 : Nat) < n + 1)
    (d : Row n) (hd : Delayed t d) (h0 : d ≠ 0) :
    measure sdf f d = some (-(1 / 2) / sdf + ((t : ℝ) + ((n + 1) / 2 : Nat)) * ((1 / 2 / sdf - -(1 / 2) / sdf) / n)) := by
  obtain ⟨A, hA⟩ := hd
  have hA0 : A ≠ 0 := by
    intro h
    apply h0
    funext k
    rw [hA, h, zero_mul]
    rfl
  obtain ⟨u, hu⟩ : ∃ u : Fin (n + 1), ∃ q : ℤ, t = (u : Nat) + q * (n + 1) := by
    refine ⟨⟨(t % ((n : ℤ) + 1)).toNat, ?_⟩, t / ((n : ℤ) + 1), ?_⟩
    · have := Int.emod_lt_of_pos t (by omega : (0 : ℤ) < (n : ℤ) + 1)
      omega
    · have := Int.emod_nonneg t (by omega : (n : ℤ) + 1 ≠ 0)
      simp only
      rw [Int.toNat_of_nonneg this]
      have := Int.emod_add_mul_ediv t ((n : ℤ) + 1)
      linarith [mul_comm (t / ((n : ℤ) + 1)) ((n : ℤ) + 1)]
  have hd' : ∀ k, d k = A * Complex.exp (-(2 * Real.pi * Complex.I * (((u : Nat) : ℂ) * (k : Nat)) / (n + 1))) := by
    intro k
    rw [hA, turns_mod t k u hu]
  have hc : cleanDelay f d = .ok fun k => ifft d (k - ⟨(n + 1) / 2 % (n + 1), Nat.mod_lt _ (Nat.succ_pos n)⟩) := by
    unfold cleanDelay
    rw [clean_ones _ (samples f) _ (fun k => by simp [samples, hf])]
  set m : Fin (n + 1) := u + ⟨(n + 1) / 2 % (n + 1), Nat.mod_lt _ (Nat.succ_pos n)⟩ with hm
  have hmv : ((m : Nat) : ℤ) = t + ((n + 1) / 2 : Nat) := by
    obtain ⟨q, hq⟩ := hu
    have h1 : ((m : Nat) : ℤ) = ((u : Nat) + ((n + 1) / 2 : Nat) : ℤ) % ((n : ℤ) + 1) := by
      rw [hm, Fin.val_add]
      push_cast
      simp
    rw [h1]
    have h2 : ((u : Nat) + ((n + 1) / 2 : Nat) : ℤ) = (t + ((n + 1) / 2 : Nat)) + (-q) * ((n : ℤ) + 1) := by
      rw [hq]; ring
    rw [h2, Int.add_mul_emod_self_right]
    exact Int.emod_eq_of_lt ht ht'
  have hval : ∀ k : Fin (n + 1), ifft d (k - ⟨(n + 1) / 2 % (n + 1), Nat.mod_lt _ (Nat.succ_pos n)⟩) = if k = m then A else 0 := by
    intro k
    rw [ifft_delayed u A d hd']
    by_cases hk : k = m
    · rw [if_pos hk, if_pos (by rw [hk, hm, add_sub_cancel_right])]
    · rw [if_neg hk, if_neg (fun h => hk (by rw [hm, ← h, sub_add_cancel]))]
  unfold measure
  rw [if_neg (fun h => by have := h 0; rw [hf] at this; cases this), hc]
  simp only [hval]
  rw [if_neg (fun h => by have := h m; rw [if_pos rfl] at this; exact hA0 this)]
  rw [lastMax_eq _ m]
  · simp only [Option.map_some, delays]
    have : ((m : Nat) : ℝ) = (t : ℝ) + ((n + 1) / 2 : Nat) := by
      have := congrArg (fun z : ℤ => (z : ℝ)) hmv
      push_cast at this ⊢
      exact this
    rw [this]
  · intro i hi
    rw [if_neg hi, if_pos rfl, norm_zero]
    exact norm_pos_iff.2 hA0

/-! ## Properties -/

/-- **C129** (what is added up: for each polarisation and baseline all records that are meant to be used and no others) -/
theorem c129_sum {n : Nat} (e : Env) (rs : List (Rec n)) (pol : String) (a b : Nat) :
    ((gather e rs).dd pol a b = none ↔ ∀ r ∈ rs, Good e r → ¬ (r.pol = pol ∧ r.i = a ∧ r.j = b)) ∧
      ∀ d, (gather e rs).dd pol a b = some d → d = total e rs pol a b := by
  rw [gather_dd]
  constructor
  · by_cases h : chosen e rs pol a b = []
    · rw [if_pos h]
      simp only [true_iff]
      intro r hr hg hrr
      have : r ∈ chosen e rs pol a b := by
        unfold chosen
        rw [List.mem_filter]
        exact ⟨hr, by simpa using ⟨hg, hrr⟩⟩
      rw [h] at this
      cases this
    · rw [if_neg h]
      simp only [reduceCtorEq, false_iff]
      intro h2
      obtain ⟨r, hr⟩ := List.exists_mem_of_ne_nil _ h
      unfold chosen at hr
      rw [List.mem_filter] at hr
      have h3 := hr.2
      simp only [decide_eq_true_eq] at h3
      exact h2 r hr.1 h3.1 h3.2
  · intro d hd
    by_cases h : chosen e rs pol a b = []
    · rw [if_pos h] at hd; cases hd
    · rw [if_neg h] at hd
      exact (Option.some.inj hd).symm

theorem delayOf_delayed {n : Nat} (e : Env) (rs : List (Rec n)) (r : Rec n) (pol : String) (a b : Nat) (t : ℤ) (ht : 0 ≤ t + ((n + 1) / 2 : Nat))
    (ht' : t + ((n + 1) / 2 : Nat) < n + 1) (hd : Delayed t (total e (rs ++ [r]) pol a b)) (h0 : total e (rs ++ [r]) pol a b ≠ 0) (hf : ∀ k, r.flags k = false) :
    delayOf e (rs ++ [r]) pol a b = some (-(1 / 2) / e.sdf + ((t : ℝ) + ((n + 1) / 2 : Nat)) * ((1 / 2 / e.sdf - -(1 / 2) / e.sdf) / n)) := by
  have hc : chosen e (rs ++ [r]) pol a b ≠ [] := by
    intro h
    apply h0
    unfold total
    rw [h, List.map_nil, List.sum_nil]
  unfold delayOf
  rw [gather_dd, gather_f, if_neg hc]
  simp only [Option.bind_some]
  exact measure_delayed e.sdf r.flags hf t ht ht' _ hd h0

/-- **C129** (violated: with an even number of channels a delay of `t` bins comes out as `(2t+1)/(2(nchan-1) sdf)`; in particular none comes out as 0) -/
theorem c129_even_violated {n : Nat} (he : (n + 1) % 2 = 0) (e : Env) (hs : 0 < e.sdf) (rs : List (Rec n)) (r : Rec n) (pol : String) (a b : Nat) (t : ℤ)
    (ht : 0 ≤ t + ((n + 1) / 2 : Nat)) (ht' : t + ((n + 1) / 2 : Nat) < n + 1) (hd : Delayed t (total e (rs ++ [r]) pol a b))
    (h0 : total e (rs ++ [r]) pol a b ≠ 0) (hf : ∀ k, r.flags k = false) :
    ∃ D, delayOf e (rs ++ [r]) pol a b = some D ∧ D = (2 * t + 1) / (2 * n * e.sdf) ∧ D ≠ 0 := by
  have hn : (0 : ℝ) < n := by
    have : 0 < n := by omega
    exact_mod_cast this
  have hh : (((n + 1) / 2 : Nat) : ℝ) = (n + 1) / 2 := by
    have : ((n + 1) / 2) * 2 = n + 1 := by omega
    have h2 : ((((n + 1) / 2) * 2 : Nat) : ℝ) = ((n + 1 : Nat) : ℝ) := by rw [this]
    push_cast at h2 ⊢
    linarith
  have hD : (-(1 / 2) / e.sdf + ((t : ℝ) + ((n + 1) / 2 : Nat)) * ((1 / 2 / e.sdf - -(1 / 2) / e.sdf) / n)) = (2 * t + 1) / (2 * n * e.sdf) := by
    rw [hh]
    field_simp
    ring
  refine ⟨_, delayOf_delayed e rs r pol a b t ht ht' hd h0 hf, hD, ?_⟩
  rw [hD]
  apply div_ne_zero
  · have : 2 * t + 1 ≠ 0 := by omega
    exact_mod_cast this
  · positivity

/-- **C129** (violated: with an odd number of channels a delay of `t` bins comes out as `t/((nchan-1) sdf)`, too long by a factor `nchan/(nchan-1)`) -/
theorem c129_odd_violated {n : Nat} (ho : (n + 1) % 2 = 1) (hn0 : 0 < n) (e : Env) (hs : 0 < e.sdf) (rs : List (Rec n)) (r : Rec n) (pol : String) (a b : Nat) (t : ℤ)
    (ht : 0 ≤ t + ((n + 1) / 2 : Nat)) (ht' : t + ((n + 1) / 2 : Nat) < n + 1) (hd : Delayed t (total e (rs ++ [r]) pol a b))
    (h0 : total e (rs ++ [r]) pol a b ≠ 0) (hf : ∀ k, r.flags k = false) :
    delayOf e (rs ++ [r]) pol a b = some (t / (n * e.sdf)) := by
  have hn : (0 : ℝ) < n := by exact_mod_cast hn0
  have hh : (((n + 1) / 2 : Nat) : ℝ) = n / 2 := by
    have : ((n + 1) / 2) * 2 = n := by omega
    have h2 : ((((n + 1) / 2) * 2 : Nat) : ℝ) = (n : ℝ) := by rw [this]
    push_cast at h2 ⊢
    linarith
  rw [delayOf_delayed e rs r pol a b t ht ht' hd h0 hf, hh]
  congr 1
  field_simp
  ring

/-- **C129** (a delay of a whole number of bins is measured to within one bin, if the last record has no flags) -/
theorem c129_bin_partial {n : Nat} (hn0 : 0 < n) (e : Env) (hs : 0 < e.sdf) (rs : List (Rec n)) (r : Rec n) (pol : String) (a b : Nat) (t : ℤ)
    (ht : 0 ≤ t + ((n + 1) / 2 : Nat)) (ht' : t + ((n + 1) / 2 : Nat) < n + 1) (hd : Delayed t (total e (rs ++ [r]) pol a b))
    (h0 : total e (rs ++ [r]) pol a b ≠ 0) (hf : ∀ k, r.flags k = false) :
    ∃ D, delayOf e (rs ++ [r]) pol a b = some D ∧ |D - t / ((n + 1) * e.sdf)| ≤ 1 / ((n + 1) * e.sdf) := by
  have hn : (0 : ℝ) < n := by exact_mod_cast hn0
  have h1 : (-(n + 1) : ℝ) ≤ 2 * t := by
    have : -((n : ℤ) + 1) ≤ 2 * t := by omega
    exact_mod_cast this
  have h2 : (2 * t : ℝ) ≤ n := by
    have : 2 * t ≤ (n : ℤ) := by omega
    exact_mod_cast this
  rcases Nat.mod_two_eq_zero_or_one (n + 1) with he | ho
  · obtain ⟨D, hD, hD', -⟩ := c129_even_violated he e hs rs r pol a b t ht ht' hd h0 hf
    refine ⟨D, hD, ?_⟩
    have : D - t / ((n + 1) * e.sdf) = (2 * t + (n + 1)) / (2 * n) * (1 / ((n + 1) * e.sdf)) := by
      rw [hD']
      field_simp
      ring
    have h3 : (2 * t : ℝ) ≤ n - 1 := by
      have : 2 * t ≤ (n : ℤ) - 1 := by omega
      exact_mod_cast this
    rw [this, abs_mul, abs_of_pos (by positivity : (0 : ℝ) < 1 / ((n + 1) * e.sdf)), abs_of_nonneg (by apply div_nonneg <;> linarith)]
    apply mul_le_of_le_one_left (by positivity)
    rw [div_le_one (by positivity)]
    linarith
  · refine ⟨_, c129_odd_violated ho hn0 e hs rs r pol a b t ht ht' hd h0 hf, ?_⟩
    have : t / (n * e.sdf) - t / ((n + 1) * e.sdf) = t / n * (1 / ((n + 1) * e.sdf)) := by
      field_simp
      ring
    rw [this, abs_mul, abs_of_pos (by positivity : (0 : ℝ) < 1 / ((n + 1) * e.sdf))]
    apply mul_le_of_le_one_left (by positivity)
    rw [abs_div, abs_of_pos hn, div_le_one hn, abs_le]
    have h3 : (-n : ℝ) ≤ 2 * t := by
      have : -(n : ℤ) ≤ 2 * t := by omega
      exact_mod_cast this
    constructor <;> linarith

/-- the records without their flags -/
def strip {n : Nat} (r : Rec n) : Rec n := { r with flags := fun _ => false }

/-- **C129** (violated: no flags count but those of the last record read, which count for all baselines, even if that record is one that is skipped) -/
theorem c129_flags_violated {n : Nat} (e : Env) (rs rs' : List (Rec n)) (r r' : Rec n) (h : rs.map strip = rs'.map strip) (hr : strip r = strip r')
    (hf : r.flags = r'.flags) (pol : String) (a b : Nat) : delayOf e (rs ++ [r]) pol a b = delayOf e (rs' ++ [r']) pol a b := by
  have key : ∀ l : List (Rec n), (gather e l).dd = (gather e (l.map strip)).dd := by
    intro l
    induction l using List.reverseRecOn with
    | nil => rfl
    | append_singleton l x ih =>
      rw [List.map_append, List.map_singleton, gather_snoc, gather_snoc]
      unfold step
      have hu : used e (strip x) = used e x := rfl
      rw [hu]
      split
      · simp only [ih]
        rfl
      · exact ih
  unfold delayOf
  rw [gather_f, gather_f, hf, key (rs ++ [r]), key (rs' ++ [r']), List.map_append, List.map_append, h, List.map_singleton, List.map_singleton, hr]

theorem ants_sub {n : Nat} (e : Env) (rs : List (Rec n)) : (∀ r ∈ rs, Good e r → r.i ∈ (gather e rs).ants) ∧ (gather e rs).ants.Nodup := by
  have hn : ∀ a (l : List Nat), l.Nodup → (note a l).Nodup := by
    intro a l h
    unfold note
    split
    · exact h
    · rename_i h2
      exact List.nodup_append.2 ⟨h, by simp, by intro x hx y hy; rw [List.mem_singleton] at hy; subst hy; intro hxy; subst hxy; exact h2 hx⟩
  have hmem : ∀ a (l : List Nat), a ∈ note a l ∧ ∀ x ∈ l, x ∈ note a l := by
    intro a l
    unfold note
    split
    · rename_i h; exact ⟨h, fun x hx => hx⟩
    · exact ⟨by simp, fun x hx => by simp [hx]⟩
  induction rs using List.reverseRecOn with
  | nil => exact ⟨by simp, List.nodup_nil⟩
  | append_singleton rs r ih =>
    rw [gather_snoc]
    unfold step
    by_cases hg : Good e r
    · rw [if_pos ((used_iff e r).2 hg)]
      refine ⟨?_, hn _ _ (hn _ _ ih.2)⟩
      intro x hx hgx
      rcases List.mem_append.1 hx with hx | hx
      · exact (hmem _ _).2 _ ((hmem _ _).2 _ (ih.1 x hx hgx))
      · rw [List.mem_singleton] at hx
        subst hx
        exact (hmem _ _).2 _ (hmem _ _).1
    · rw [if_neg (fun h => hg ((used_iff e r).1 h))]
      refine ⟨?_, ih.2⟩
      intro x hx hgx
      rcases List.mem_append.1 hx with hx | hx
      · exact ih.1 x hx hgx
      · rw [List.mem_singleton] at hx
        subst hx
        exact absurd hgx hg

/-- **C129** (violated: the equations never have one solution, as nothing is said about a delay common to all antennas; whatever the records, no delays of antennas
come out) -/
theorem c129_never_violated {n : Nat} (e : Env) (rs : List (Rec n)) (pol : String) (h : ∃ r ∈ rs, Good e r) : ∀ tau, findDelay e rs pol ≠ .ok tau := by
  obtain ⟨r, hr, hg⟩ := h
  have hm : 0 < (antNos e rs).length := by
    apply List.length_pos_of_mem (a := r.i)
    unfold antNos
    rw [(List.perm_insertionSort _ _).mem_iff]
    exact (ants_sub e rs).1 r hr hg
  have hne : ∀ q ∈ rowsOf (antNos e rs) (delayOf e rs pol), q.1 ≠ q.2.1 := by
    intro q hq heq
    unfold rowsOf at hq
    obtain ⟨i, -, hi⟩ := List.mem_flatMap.1 hq
    obtain ⟨j, -, hj⟩ := List.mem_filterMap.1 hi
    obtain ⟨b, hb, hbq⟩ := Option.map_eq_some_iff.1 hj
    have h1 : q.1 = i := by rw [← hbq]
    have h2 : q.2.1 = j := by rw [← hbq]
    rw [h1, h2] at heq
    subst heq
    unfold delayOf at hb
    obtain ⟨d, hd, -⟩ := Option.bind_eq_some_iff.1 hb
    have h3 := (c129_sum e rs pol (antNos e rs)[i] (antNos e rs)[i]).1.2 (fun x _ hgx hx => hgx.1 (hx.2.1.trans hx.2.2.symm))
    rw [h3] at hd
    cases hd
  intro tau
  unfold findDelay solve
  split
  · intro h; cases h
  · simp only
    rw [if_pos (normal_singular hm _ hne)]
    intro h; cases h

/-- **C129** (the equations are the right ones: if the delays measured are differences of the antennas' and all antennas are joined by baselines, every solution has the
antennas' delays up to a common one) -/
theorem c129_equations_partial {m : Nat} (rows : List (Eqn m)) (hl : rows.length ≤ m * (m - 1) / 2 + 1) (hne : ∀ q ∈ rows, q.1 ≠ q.2.1) (tau : Fin m → ℝ)
    (hb : ∀ q ∈ rows, q.2.2 = tau q.1 - tau q.2.1) (hj : ∀ i j, Joined rows i j) (x : Fin m → ℝ)
    (hx : ((matA rows).transpose * matW rows * matA rows).mulVec x = ((matA rows).transpose * matW rows).mulVec (vecB rows)) (i : Fin m) :
    x i - mean x = tau i - mean tau := by
  have hB : vecB rows = (matA rows).mulVec tau := by
    funext k
    unfold vecB
    cases hq : rows[(k : Nat)]? with
    | none => rw [matA_none rows tau k hq]
    | some q =>
      rw [matA_mul rows tau k q hq (hne q (List.mem_of_getElem? hq))]
      exact hb q (List.mem_of_getElem? hq)
  have h0 : ((matA rows).transpose * matW rows * matA rows).mulVec (x - tau) = 0 := by
    rw [Matrix.mulVec_sub, hx, hB, Matrix.mulVec_mulVec, sub_self]
  have hf := flat rows hl hne (x - tau) h0
  have hc : ∀ j, x j = tau j + (x i - tau i) := by
    intro j
    have := joined_eq hf (hj i j)
    simp only [Pi.sub_apply] at this
    linarith
  have hm : (m : ℝ) ≠ 0 := by
    have : m ≠ 0 := by
      intro h
      subst h
      exact i.elim0
    exact_mod_cast this
  have hmean : mean x = mean tau + (x i - tau i) := by
    unfold mean
    rw [Finset.sum_congr rfl fun j _ => hc j, Finset.sum_add_distrib]
    simp only [Finset.sum_const, Finset.card_univ, Fintype.card_fin, nsmul_eq_mul]
    field_simp
  rw [hmean]
  ring

/-! ### Cases -/

/-- two antennas, a signal without delay in four channels -/
def one : Rec 3 := ⟨0, 1, "xx", fun _ => 1, fun _ => false⟩

/-- no antenna flagged, all baselines long, channels of 1 MHz -/
def env : Env := ⟨[], fun _ _ => false, 1 / 1000⟩

theorem one_good : Good env one := by
  refine ⟨by decide, rfl, by decide, by decide, by simp [env], by simp [env]⟩

theorem one_total : total env ([] ++ [one]) "xx" 0 1 = fun _ => 1 := by
  unfold total
  rw [chosen_pos env [] one "xx" 0 1 ⟨one_good, rfl, rfl, rfl⟩]
  simp [chosen, one]

theorem one_delayed : Delayed 0 (total env ([] ++ [one]) "xx" 0 1) := ⟨1, fun k => by rw [one_total]; simp⟩

theorem one_ne : total env ([] ++ [one]) "xx" 0 1 ≠ 0 := by
  rw [one_total]
  intro h
  exact one_ne_zero (congrFun h 0)

/-- 1/6 of a microsecond is found instead of 0 -/
example : delayOf env ([] ++ [one]) "xx" 0 1 = some (1000 / 6) := by
  obtain ⟨D, hD, hD', -⟩ := c129_even_violated (n := 3) (by decide) env (by norm_num [env]) [] one "xx" 0 1 0 (by decide) (by decide) one_delayed one_ne (fun _ => rfl)
  rw [hD, hD']
  norm_num [env]

example : ∃ D, delayOf env ([] ++ [one]) "xx" 0 1 = some D ∧ |D - (0 : ℤ) / ((3 + 1) * env.sdf)| ≤ 1 / ((3 + 1) * env.sdf) := by
  have := c129_bin_partial (n := 3) (by decide) env (by norm_num [env]) [] one "xx" 0 1 0 (by decide) (by decide) one_delayed one_ne (fun _ => rfl)
  exact_mod_cast this

/-- one turn over a band of three channels -/
def turn : Rec 2 := ⟨0, 1, "xx", fun k => 2 * Complex.exp (-(2 * Real.pi * Complex.I * (((1 : ℤ) : ℂ) * (k : Nat)) / ((2 : Nat) + 1))), fun _ => false⟩

/-- the delay of 1/3 of a microsecond comes out as 1/2 -/
example : delayOf env ([] ++ [turn]) "xx" 0 1 = some 500 := by
  have ht : total env ([] ++ [turn]) "xx" 0 1 = turn.data := by
    unfold total
    rw [chosen_pos env [] _ "xx" 0 1 ⟨⟨by decide, rfl, by decide, by decide, by simp [env], by simp [env]⟩, rfl, rfl, rfl⟩]
    simp [chosen]
  have := c129_odd_violated (n := 2) (by decide) (by decide) env (by norm_num [env]) [] turn "xx" 0 1 1 (by decide) (by decide) ⟨2, fun k => by rw [ht]; rfl⟩
    (by rw [ht]; intro h; have := congrFun h 0; simp [turn] at this) (fun _ => rfl)
  rw [this]
  norm_num [env]

example (tau : Fin (antNos env [one]).length → ℝ) : findDelay env [one] "xx" ≠ .ok tau := c129_never_violated env [one] "xx" ⟨one, by simp, one_good⟩ tau

/-- two records of which the first is flagged, or not -/
example : delayOf env ([{ one with flags := fun _ => true }] ++ [one]) "xx" 0 1 = delayOf env ([one] ++ [one]) "xx" 0 1 :=
  c129_flags_violated env _ _ one one rfl rfl rfl _ _ _

/-- two antennas with delays 5 and 3 -/
example (x : Fin 2 → ℝ) (hx : ((matA [((0 : Fin 2), (1 : Fin 2), (2 : ℝ))]).transpose * matW [((0 : Fin 2), (1 : Fin 2), (2 : ℝ))] * matA [((0 : Fin 2), (1 : Fin 2), (2 : ℝ))]).mulVec x =
    ((matA [((0 : Fin 2), (1 : Fin 2), (2 : ℝ))]).transpose * matW [((0 : Fin 2), (1 : Fin 2), (2 : ℝ))]).mulVec (vecB [((0 : Fin 2), (1 : Fin 2), (2 : ℝ))])) : x 0 - mean x = 1 := by
  have h01 : Joined [((0 : Fin 2), (1 : Fin 2), (2 : ℝ))] 0 1 := Relation.ReflTransGen.single ⟨2, by simp⟩
  have h10 : Joined [((0 : Fin 2), (1 : Fin 2), (2 : ℝ))] 1 0 := Relation.ReflTransGen.single ⟨2, by simp⟩
  have := c129_equations_partial [((0 : Fin 2), (1 : Fin 2), (2 : ℝ))] (by decide) (by simp) (fun i => if i = 0 then 5 else 3) (by norm_num)
    (by
      intro i j
      fin_cases i <;> fin_cases j
      · exact Relation.ReflTransGen.refl
      · exact h01
      · exact h10
      · exact Relation.ReflTransGen.refl) x hx 0
  rw [this]
  norm_num [mean, Fin.sum_univ_succ]

/-- such an `x` exists -/
example : ((matA [((0 : Fin 2), (1 : Fin 2), (2 : ℝ))]).transpose * matW [((0 : Fin 2), (1 : Fin 2), (2 : ℝ))] * matA [((0 : Fin 2), (1 : Fin 2), (2 : ℝ))]).mulVec (fun i => if i = 0 then 5 else 3) =
    ((matA [((0 : Fin 2), (1 : Fin 2), (2 : ℝ))]).transpose * matW [((0 : Fin 2), (1 : Fin 2), (2 : ℝ))]).mulVec (vecB [((0 : Fin 2), (1 : Fin 2), (2 : ℝ))]) := by
  rw [← Matrix.mulVec_mulVec]
  congr 1
  funext k
  cases hq : [((0 : Fin 2), (1 : Fin 2), (2 : ℝ))][(k : Nat)]? with
  | none =>
    rw [matA_none _ _ k hq]
    unfold vecB
    rw [hq]
  | some q =>
    have hq' := List.mem_of_getElem? hq
    rw [List.mem_singleton] at hq'
    rw [matA_mul _ _ k q hq (by rw [hq']; decide)]
    unfold vecB
    rw [hq, hq']
    norm_num

end Verif.Dsp.FindDelay
