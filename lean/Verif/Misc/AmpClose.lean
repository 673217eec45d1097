import Mathlib.LinearAlgebra.Matrix.NonsingularInverse
import Mathlib.LinearAlgebra.Matrix.ToLinearEquiv
import Mathlib.Analysis.SpecialFunctions.Pow.Real
import Mathlib.Analysis.Complex.ExponentialBounds
import Mathlib.Algebra.Order.BigOperators.Group.Finset
import Mathlib.Algebra.BigOperators.Field
import Mathlib.Data.List.Sort
import Mathlib.Tactic.Linarith
import Mathlib.Tactic.Positivity
import Verif.Util.Dict
/-!
# Gains by amplitude closure (C115)

`/repo/scripts/amp_close.py` with `--wgt=equal`, in python 2 (`pols.sort()` on the keys of a dictionary; `cal.get_aa`, C113).  A spectrum is a
function of the channels below `nchan`; `d` is what `np.abs` gives; `far` says whether a baseline is longer than `--minuv`; `flx` is the
flux of the sources.  The inverse of a matrix is exact; a singular matrix raises.  Not modelled: the other weights, plots, printing.
-/
noncomputable section
namespace Verif.Misc.AmpClose
open Verif.Util Matrix

/-! ## Model -/

/-- a record: antennas, polarisation, sizes of the data, flags -/
structure Rec where
  i : Nat
  j : Nat
  pol : Char × Char
  d : Nat → ℝ
  f : Nat → Bool

/-- number of channels, flagged antennas, long baselines, flux -/
structure Opts where
  nchan : Nat
  flag : List Nat
  far : Nat → Nat → Bool
  flx : ℝ

/-- amp_close.py 59-64: the records used -/
def keep (o : Opts) (r : Rec) : Bool :=
  if r.i = r.j then false
  else if ((List.range o.nchan).filter r.f).length = o.nchan then false
  else if r.pol.1 ≠ r.pol.2 then false
  else if r.i ∈ o.flag ∨ r.j ∈ o.flag then false
  else o.far r.i r.j

/-- the keys of `DD`: polarisation and baseline -/
abbrev Key := (Char × Char) × (Nat × Nat)

/-- `DD` with `cnt`, and `AntNos` -/
structure Acc where
  dd : List (Key × ((Nat → ℝ) × (Nat → Nat)))
  ants : List Nat

/-- amp_close.py 74, 75 -/
def addAnt (i : Nat) (l : List Nat) : List Nat := if i ∈ l then l else l ++ [i]

/-- amp_close.py 59-75 -/
def addRec (o : Opts) (a : Acc) (r : Rec) : Acc :=
  if keep o r then
    let v := (dget (r.pol, (r.i, r.j)) a.dd).getD (fun _ => 0, fun _ => 0)
    ⟨dset (r.pol, (r.i, r.j)) (fun c => v.1 c + r.d c, fun c => v.2 c + if r.f c then 0 else 1) a.dd, addAnt r.j (addAnt r.i a.ants)⟩
  else a

/-- amp_close.py 53-75, all records of all files -/
def accum (o : Opts) (recs : List Rec) : Acc := recs.foldl (addRec o) ⟨[], []⟩

/-- amp_close.py 91 -/
def average (v : (Nat → ℝ) × (Nat → Nat)) (c : Nat) : ℝ := if v.2 c = 0 then 0 else v.1 c / (v.2 c : ℝ)

/-- amp_close.py 92; the array is of complex type, without imaginary parts -/
def logAmp (o : Opts) (v : (Nat → ℝ) × (Nat → Nat)) : ℝ := Real.log ((∑ c ∈ Finset.range o.nchan, average v c) / (o.nchan : ℝ))

/-- `AntNos.sort()`, amp_close.py 77 -/
def antNos (a : Acc) : List Nat := a.ants.mergeSort (· ≤ ·)

/-- a line of the equations: the columns that are one, and the right hand side -/
structure Row where
  i : Nat
  j : Nat
  b : ℝ

/-- amp_close.py 106-113 -/
def rows (o : Opts) (a : Acc) (pol : Char × Char) : List Row :=
  (List.range (antNos a).length).flatMap fun i => (List.range (antNos a).length).filterMap fun j =>
    (dget (pol, ((antNos a).getD i 0, (antNos a).getD j 0)) a.dd).map fun v => ⟨i, j, logAmp o v⟩

/-- `A` -/
def matA (n m : Nat) (rs : List Row) : Matrix (Fin m) (Fin n) ℝ := fun r k =>
  match rs[r.val]? with
  | some row => if k.val = row.i ∨ k.val = row.j then 1 else 0
  | none => 0

/-- `W` after `W /= np.sum(W)` -/
def matW (m : Nat) (rs : List Row) : Matrix (Fin m) (Fin m) ℝ :=
  Matrix.diagonal fun r => (if r.val < rs.length then 1 else 0) / (rs.length : ℝ)

/-- `b` -/
def vecB (m : Nat) (rs : List Row) : Fin m → ℝ := fun r =>
  match rs[r.val]? with
  | some row => row.b
  | none => 0

/-- amp_close.py 101-117: the gains of a polarisation by the place of the antenna in `AntNos`; `none` is an exception (more baselines
than rows, a singular matrix) -/
def solve (o : Opts) (a : Acc) (pol : Char × Char) : Option (Fin (antNos a).length → ℝ) :=
  let n := (antNos a).length
  let m := n * (n - 1) / 2
  let rs := rows o a pol
  let A := matA n m rs
  let W := matW m rs
  if m < rs.length ∨ (Aᵀ * W * A).det = 0 then none
  else
    let x := (Aᵀ * W * A)⁻¹ *ᵥ ((Aᵀ * W) *ᵥ vecB m rs)
    let G := fun k => (10 : ℝ) ^ (x k)
    some fun k => G k / (o.flx * ((∑ l, G l) / (n : ℝ)))

/-- the script: the antennas and the gains of a polarisation -/
def run (o : Opts) (recs : List Rec) (pol : Char × Char) : Option ((a : List Nat) × (Fin a.length → ℝ)) :=
  (solve o (accum o recs) pol).map fun G => ⟨antNos (accum o recs), G⟩

/-! ## Specification -/

/-- the record is a cross-correlation of one polarisation between far antennas that are not flagged, and not flagged in all channels -/
structure Used (o : Opts) (r : Rec) : Prop where
  cross : r.i ≠ r.j
  data : ∃ c < o.nchan, r.f c = false
  par : r.pol.1 = r.pol.2
  ok : r.i ∉ o.flag ∧ r.j ∉ o.flag
  far : o.far r.i r.j = true

/-- the amplitudes close: they are products of the gains of the antennas -/
def Closed (o : Opts) (g : Nat → ℝ) (recs : List Rec) : Prop := ∀ r ∈ recs, Used o r → ∀ c < o.nchan, r.d c = g r.i * g r.j

/-- the baselines of a polarisation determine the gains of all antennas -/
def Determined (o : Opts) (recs : List Rec) (pol : Char × Char) : Prop :=
  ∀ u : Nat → ℝ, (∀ r ∈ recs, Used o r → r.pol = pol → u r.i + u r.j = 0) → ∀ r ∈ recs, Used o r → u r.i = 0 ∧ u r.j = 0

/-! ## Lemmas -/

theorem keep_iff (o : Opts) (r : Rec) : keep o r = true ↔ Used o r := by
  have hcount : ((List.range o.nchan).filter r.f).length = o.nchan ↔ ∀ c < o.nchan, r.f c = true := by
    constructor
    · intro h c hc
      have h2 : ((List.range o.nchan).filter r.f).length = (List.range o.nchan).length := by rw [h]; simp
      exact List.length_filter_eq_length_iff.1 h2 c (List.mem_range.2 hc)
    · intro h
      have : (List.range o.nchan).filter r.f = List.range o.nchan := List.filter_eq_self.2 fun c hc => h c (List.mem_range.1 hc)
      rw [this]; simp
  unfold keep
  constructor
  · intro h
    split at h
    · cases h
    rename_i h1
    split at h
    · cases h
    rename_i h2
    split at h
    · cases h
    rename_i h3
    split at h
    · cases h
    rename_i h4
    refine ⟨h1, ?_, by simpa using h3, by simpa [not_or] using h4, h⟩
    rw [hcount] at h2
    push Not at h2
    obtain ⟨c, hc, h2⟩ := h2
    exact ⟨c, hc, by simpa using h2⟩
  · rintro ⟨h1, ⟨c, hc, h2⟩, h3, h4, h5⟩
    rw [if_neg h1, if_neg (by rw [hcount]; intro h; rw [h c hc] at h2; cases h2), if_neg (by simpa using h3), if_neg (by simpa [not_or] using h4)]
    exact h5

/-- the records that make up an entry -/
def entry (o : Opts) (k : Key) (recs : List Rec) : List Rec := recs.filter fun r => keep o r && decide ((r.pol, (r.i, r.j)) = k)

theorem accum_dd (o : Opts) (recs : List Rec) (k : Key) :
    dget k (accum o recs).dd = if entry o k recs = [] then none else
      some (fun c => ((entry o k recs).map fun r => r.d c).sum, fun c => ((entry o k recs).filter fun r => !r.f c).length) := by
  induction recs using List.reverseRecOn with
  | nil => simp [accum, entry, dget]
  | append_singleton rs r ih =>
    have hstep : accum o (rs ++ [r]) = addRec o (accum o rs) r := by simp [accum, List.foldl_append]
    have hent : entry o k (rs ++ [r]) = entry o k rs ++ if (keep o r && decide ((r.pol, (r.i, r.j)) = k)) = true then [r] else [] := by
      unfold entry; rw [List.filter_append]; congr 1
      by_cases h : (keep o r && decide ((r.pol, (r.i, r.j)) = k)) = true
      · rw [if_pos h, List.filter_cons_of_pos (p := fun r => keep o r && decide ((r.pol, (r.i, r.j)) = k)) h, List.filter_nil]
      · rw [if_neg h, List.filter_cons_of_neg (p := fun r => keep o r && decide ((r.pol, (r.i, r.j)) = k)) h, List.filter_nil]
    rw [hstep, hent]
    unfold addRec
    by_cases hk : keep o r = true
    · rw [if_pos hk]
      by_cases he : (r.pol, (r.i, r.j)) = k
      · subst he
        simp only [hk, decide_true, Bool.and_self, if_true]
        have hcons : entry o (r.pol, (r.i, r.j)) rs ++ [r] ≠ [] := by simp
        rw [dget_dset_self, ih, if_neg hcons]
        congr 1
        by_cases hnil : entry o (r.pol, (r.i, r.j)) rs = []
        · rw [if_pos hnil, hnil]
          ext c
          · simp
          · simp only [Option.getD_none, List.nil_append, Nat.zero_add]
            cases h : r.f c <;> simp [h]
        · rw [if_neg hnil]
          ext c
          · simp
          · simp only [Option.getD_some, List.filter_append, List.length_append]
            cases h : r.f c <;> simp [h]
      · simp only [hk, he, decide_false, Bool.and_false, Bool.false_eq_true, if_false, List.append_nil]
        rw [dget_dset_ne he]; exact ih
    · rw [if_neg hk]
      have : keep o r = false := by simpa using hk
      simp only [this, Bool.false_and, Bool.false_eq_true, if_false, List.append_nil]
      exact ih

theorem mem_addAnt {a i : Nat} {l : List Nat} : a ∈ addAnt i l ↔ a ∈ l ∨ a = i := by
  unfold addAnt; split
  · rename_i h
    constructor
    · exact .inl
    · rintro (h1 | rfl)
      · exact h1
      · exact h
  · simp

theorem nodup_addAnt {i : Nat} {l : List Nat} (h : l.Nodup) : (addAnt i l).Nodup := by
  unfold addAnt; split
  · exact h
  · rename_i hi
    rw [List.nodup_append]
    exact ⟨h, by simp, fun a ha b hb hab => by rw [List.mem_singleton] at hb; exact hi (by rw [← hb, ← hab]; exact ha)⟩

theorem accum_ants (o : Opts) (recs : List Rec) :
    (accum o recs).ants.Nodup ∧ ∀ a, a ∈ (accum o recs).ants ↔ ∃ r ∈ recs, keep o r = true ∧ (a = r.i ∨ a = r.j) := by
  induction recs using List.reverseRecOn with
  | nil => simp [accum]
  | append_singleton rs r ih =>
    have hstep : accum o (rs ++ [r]) = addRec o (accum o rs) r := by simp [accum, List.foldl_append]
    rw [hstep]
    unfold addRec
    by_cases hk : keep o r = true
    · rw [if_pos hk]
      refine ⟨nodup_addAnt (nodup_addAnt ih.1), ?_⟩
      intro a
      simp only [mem_addAnt, ih.2, List.mem_append, List.mem_singleton]
      constructor
      · rintro ((⟨q, hq, h1, h2⟩ | h) | h)
        · exact ⟨q, .inl hq, h1, h2⟩
        · exact ⟨r, .inr rfl, hk, .inl h⟩
        · exact ⟨r, .inr rfl, hk, .inr h⟩
      · rintro ⟨q, hq | rfl, h1, h2⟩
        · exact .inl (.inl ⟨q, hq, h1, h2⟩)
        · rcases h2 with h2 | h2
          · exact .inl (.inr h2)
          · exact .inr h2
    · rw [if_neg hk]
      refine ⟨ih.1, ?_⟩
      intro a
      rw [ih.2]
      constructor
      · rintro ⟨q, hq, h⟩; exact ⟨q, by simp [hq], h⟩
      · rintro ⟨q, hq, h1, h2⟩
        rcases List.mem_append.1 hq with hq | hq
        · exact ⟨q, hq, h1, h2⟩
        · rw [List.mem_singleton.1 hq] at h1; exact absurd h1 hk

theorem antNos_sorted (o : Opts) (recs : List Rec) : (antNos (accum o recs)).Pairwise (· < ·) := by
  have h1 : (antNos (accum o recs)).Pairwise (· ≤ ·) := by
    have := List.pairwise_mergeSort (le := fun a b : Nat => decide (a ≤ b)) (by intro a b c; simp; omega) (by intro a b; simp; omega) (accum o recs).ants
    exact this.imp (by simp)
  have h2 : (antNos (accum o recs)).Nodup := (List.mergeSort_perm (accum o recs).ants _).nodup_iff.2 (accum_ants o recs).1
  exact (List.pairwise_and_iff.2 ⟨h1, h2⟩).imp fun h => lt_of_le_of_ne h.1 h.2

theorem mem_antNos (o : Opts) (recs : List Rec) (a : Nat) :
    a ∈ antNos (accum o recs) ↔ ∃ r ∈ recs, Used o r ∧ (a = r.i ∨ a = r.j) := by
  unfold antNos
  rw [(List.mergeSort_perm (accum o recs).ants _).mem_iff, (accum_ants o recs).2]
  simp only [keep_iff]

theorem entry_nil_iff (o : Opts) (k : Key) (recs : List Rec) : entry o k recs ≠ [] ↔ ∃ r ∈ recs, Used o r ∧ (r.pol, (r.i, r.j)) = k := by
  unfold entry
  rw [Ne, List.filter_eq_nil_iff]
  push Not
  constructor
  · rintro ⟨r, hr, h⟩
    simp only [Bool.and_eq_true, decide_eq_true_iff] at h
    exact ⟨r, hr, (keep_iff o r).1 h.1, h.2⟩
  · rintro ⟨r, hr, h1, h2⟩
    exact ⟨r, hr, by simp only [Bool.and_eq_true, decide_eq_true_iff]; exact ⟨(keep_iff o r).2 h1, h2⟩⟩

theorem mem_rows {o : Opts} {recs : List Rec} {pol : Char × Char} {row : Row} :
    row ∈ rows o (accum o recs) pol ↔ ∃ i < (antNos (accum o recs)).length, ∃ j < (antNos (accum o recs)).length, ∃ v,
      dget (pol, ((antNos (accum o recs)).getD i 0, (antNos (accum o recs)).getD j 0)) (accum o recs).dd = some v ∧ row = ⟨i, j, logAmp o v⟩ := by
  unfold rows
  simp only [List.mem_flatMap, List.mem_range, List.mem_filterMap, Option.map_eq_some_iff]
  constructor
  · rintro ⟨i, hi, j, hj, v, hv, rfl⟩; exact ⟨i, hi, j, hj, v, hv, rfl⟩
  · rintro ⟨i, hi, j, hj, v, hv, rfl⟩; exact ⟨i, hi, j, hj, v, hv, rfl⟩

theorem getD_lt {l : List Nat} {i : Nat} (h : i < l.length) : l.getD i 0 = l.get ⟨i, h⟩ := by
  simp [List.getD, List.getElem?_eq_getElem h]

theorem filterMap_len {A : Type} (f : Nat → Option A) (n i : Nat) (hi : i < n) (h : ∀ j ≤ i, f j = none) :
    ((List.range n).filterMap f).length ≤ n - 1 - i := by
  have e : n = (i + 1) + (n - 1 - i) := by omega
  have e2 : List.range n = List.range (i + 1) ++ (List.range (n - 1 - i)).map (i + 1 + ·) := by rw [e, List.range_add]; congr 3; omega
  rw [e2, List.filterMap_append]
  have : (List.range (i + 1)).filterMap f = [] := by
    rw [List.filterMap_eq_nil_iff]
    intro j hj
    exact h j (by have := List.mem_range.1 hj; omega)
  rw [this, List.nil_append]
  refine (List.length_filterMap_le _ _).trans ?_
  simp

theorem sum_pairs (n : Nat) : ((List.range n).map fun i => n - 1 - i).sum = n * (n - 1) / 2 := by
  have h : ((List.range n).map fun i => n - 1 - i).sum = ∑ i ∈ Finset.range n, (n - 1 - i) := by
    rw [Finset.sum_range]; 
    rw [← List.sum_ofFn]
    congr 1
    apply List.ext_getElem <;> simp
  rw [h, Finset.sum_range_reflect (fun i => i) n, Finset.sum_range_id]

theorem rows_len {o : Opts} {recs : List Rec} (hlt : ∀ r ∈ recs, Used o r → r.i < r.j) (pol : Char × Char) :
    (rows o (accum o recs) pol).length ≤ (antNos (accum o recs)).length * ((antNos (accum o recs)).length - 1) / 2 := by
  rw [← sum_pairs]
  unfold rows
  rw [List.length_flatMap]
  apply List.sum_le_sum
  intro i hi
  have hi := List.mem_range.1 hi
  apply filterMap_len _ _ _ hi
  intro j hj
  rw [Option.map_eq_none_iff, accum_dd]
  split
  · rfl
  · rename_i hne
    obtain ⟨r, hr, hu, hk⟩ := (entry_nil_iff o _ recs).1 hne
    have h1 := hlt r hr hu
    have h2 : r.i = (antNos (accum o recs)).getD i 0 ∧ r.j = (antNos (accum o recs)).getD j 0 := by
      have := congrArg Prod.snd hk; exact ⟨congrArg Prod.fst this, congrArg Prod.snd this⟩
    have hs := antNos_sorted o recs
    have h3 : (antNos (accum o recs)).getD j 0 ≤ (antNos (accum o recs)).getD i 0 := by
      have hj' : j < (antNos (accum o recs)).length := by omega
      rw [getD_lt hi, getD_lt hj']
      rcases Nat.lt_or_eq_of_le hj with h | h
      · exact le_of_lt (List.pairwise_iff_getElem.1 hs j i hj' hi h)
      · subst h; exact le_refl _
    omega

/-! ### least squares -/

section
variable {n m : Nat} {rs : List Row}

theorem normal_eq {y : Fin n → ℝ} (hb : ∀ r, vecB m rs r = (matA n m rs *ᵥ y) r) (hdet : ((matA n m rs)ᵀ * matW m rs * matA n m rs).det ≠ 0) :
    ((matA n m rs)ᵀ * matW m rs * matA n m rs)⁻¹ *ᵥ (((matA n m rs)ᵀ * matW m rs) *ᵥ vecB m rs) = y := by
  have : vecB m rs = matA n m rs *ᵥ y := funext hb
  rw [this, Matrix.mulVec_mulVec, Matrix.mulVec_mulVec, Matrix.mul_assoc, Matrix.nonsing_inv_mul _ (Ne.isUnit hdet), Matrix.one_mulVec]

theorem det_ne (h : ∀ u : Fin n → ℝ, (∀ r, (matA n m rs *ᵥ u) r = 0) → u = 0) :
    ((matA n m rs)ᵀ * matW m rs * matA n m rs).det ≠ 0 := by
  intro h0
  obtain ⟨v, hv, hM⟩ := Matrix.exists_mulVec_eq_zero_iff.2 h0
  apply hv
  apply h
  have hq : ∑ r, (matA n m rs *ᵥ v) r * ((if r.val < rs.length then (1 : ℝ) else 0) / (rs.length : ℝ) * (matA n m rs *ᵥ v) r) = 0 := by
    have e : (matA n m rs *ᵥ v) ⬝ᵥ (matW m rs *ᵥ (matA n m rs *ᵥ v)) = v ⬝ᵥ (((matA n m rs)ᵀ * matW m rs * matA n m rs) *ᵥ v) := by
      rw [← Matrix.mulVec_mulVec, ← Matrix.mulVec_mulVec, Matrix.dotProduct_mulVec v, Matrix.vecMul_transpose]
    rw [hM, dotProduct_zero] at e
    have e2 : ∀ r, (matW m rs *ᵥ (matA n m rs *ᵥ v)) r = (if r.val < rs.length then (1 : ℝ) else 0) / (rs.length : ℝ) * (matA n m rs *ᵥ v) r := by
      intro r; unfold matW; rw [Matrix.mulVec_diagonal]
    rw [dotProduct] at e
    simpa only [e2] using e
  intro r
  by_cases hr : r.val < rs.length
  · have hpos : (0 : ℝ) < rs.length := by exact_mod_cast (by omega : 0 < rs.length)
    have hnn : ∀ r ∈ Finset.univ, 0 ≤ (matA n m rs *ᵥ v) r * ((if r.val < rs.length then (1 : ℝ) else 0) / (rs.length : ℝ) * (matA n m rs *ᵥ v) r) := by
      intro r _
      have : (0 : ℝ) ≤ (if r.val < rs.length then (1 : ℝ) else 0) / (rs.length : ℝ) := by split <;> positivity
      nlinarith [mul_nonneg this (mul_self_nonneg ((matA n m rs *ᵥ v) r))]
    have := (Finset.sum_eq_zero_iff_of_nonneg hnn).1 hq r (Finset.mem_univ _)
    rw [if_pos hr] at this
    by_contra hne
    have h1 : (1 : ℝ) / rs.length ≠ 0 := by positivity
    exact absurd this (mul_ne_zero hne (mul_ne_zero h1 hne))
  · have : rs[r.val]? = none := List.getElem?_eq_none (by omega)
    simp [Matrix.mulVec, dotProduct, matA, this]

theorem matA_mul (u : Fin n → ℝ) (r : Fin m) {row : Row} (hr : rs[r.val]? = some row) (hi : row.i < n) (hj : row.j < n) (hne : row.i ≠ row.j) :
    (matA n m rs *ᵥ u) r = u ⟨row.i, hi⟩ + u ⟨row.j, hj⟩ := by
  have hterm : ∀ k : Fin n, matA n m rs r k * u k = (if k = ⟨row.i, hi⟩ then u k else 0) + (if k = ⟨row.j, hj⟩ then u k else 0) := by
    intro k
    simp only [matA, hr]
    have e1 : (k = ⟨row.i, hi⟩) ↔ k.val = row.i := Fin.ext_iff
    have e2 : (k = ⟨row.j, hj⟩) ↔ k.val = row.j := Fin.ext_iff
    simp only [e1, e2]
    by_cases h1 : k.val = row.i
    · have h2 : ¬ k.val = row.j := fun h => hne (h1.symm.trans h)
      simp [h1, hne]
    · by_cases h2 : k.val = row.j
      · simp [h2]
        intro h; exact absurd h.symm hne
      · simp [h1, h2]
  rw [Matrix.mulVec, dotProduct, Finset.sum_congr rfl fun k _ => hterm k, Finset.sum_add_distrib, Finset.sum_ite_eq' Finset.univ, Finset.sum_ite_eq' Finset.univ]
  simp
end

theorem average_closed {o : Opts} {recs : List Rec} {k : Key} {x : ℝ} (hne : entry o k recs ≠ []) (hnf : ∀ r ∈ entry o k recs, ∀ c < o.nchan, r.f c = false)
    (hd : ∀ r ∈ entry o k recs, ∀ c < o.nchan, r.d c = x) {c : Nat} (hc : c < o.nchan) :
    average (fun c => ((entry o k recs).map fun r => r.d c).sum, fun c => ((entry o k recs).filter fun r => !r.f c).length) c = x := by
  unfold average
  have e1 : (entry o k recs).filter (fun r => !r.f c) = entry o k recs := List.filter_eq_self.2 fun r hr => by simp [hnf r hr c hc]
  have e2 : (entry o k recs).map (fun r => r.d c) = (entry o k recs).map fun _ => x := List.map_congr_left fun r hr => hd r hr c hc
  have e3 : ((entry o k recs).map fun r => r.d c).sum = (entry o k recs).length * x := by rw [e2]; simp
  simp only [e1, e3]
  have hl : (entry o k recs).length ≠ 0 := by simpa using hne
  rw [if_neg hl]
  have : ((entry o k recs).length : ℝ) ≠ 0 := by exact_mod_cast hl
  field_simp

theorem mem_entry {o : Opts} {k : Key} {recs : List Rec} {r : Rec} (h : r ∈ entry o k recs) : r ∈ recs ∧ Used o r ∧ (r.pol, (r.i, r.j)) = k := by
  unfold entry at h
  rw [List.mem_filter] at h
  simp only [Bool.and_eq_true, decide_eq_true_iff] at h
  exact ⟨h.1, (keep_iff o r).1 h.2.1, h.2.2⟩

theorem gains_core {o : Opts} {recs : List Rec} {g : Nat → ℝ} {pol : Char × Char} (hg : ∀ a, 0 < g a)
    (hc : ∀ i j, entry o (pol, (i, j)) recs ≠ [] → logAmp o (fun c => ((entry o (pol, (i, j)) recs).map fun r => r.d c).sum,
      fun c => ((entry o (pol, (i, j)) recs).filter fun r => !r.f c).length) = Real.log (g i * g j))
    (hlt : ∀ r ∈ recs, Used o r → r.i < r.j) (hdet : Determined o recs pol) (hflx : o.flx ≠ 0) :
    ∃ a G, run o recs pol = some ⟨a, G⟩ ∧ a.Pairwise (· < ·) ∧ (∀ k, k ∈ a ↔ ∃ r ∈ recs, Used o r ∧ (k = r.i ∨ k = r.j)) ∧
      (∀ k l : Fin a.length, G k / G l = (g (a.get k) / g (a.get l)) ^ Real.log 10) ∧ (a ≠ [] → ∑ k, G k = a.length / o.flx) := by
  let A := antNos (accum o recs)
  let m := A.length * (A.length - 1) / 2
  let rs := rows o (accum o recs) pol
  let y : Fin A.length → ℝ := fun k => Real.log (g (A.get k))
  have hrow : ∀ row ∈ rs, ∃ (hi : row.i < A.length) (hj : row.j < A.length), row.i ≠ row.j ∧ row.b = y ⟨row.i, hi⟩ + y ⟨row.j, hj⟩ ∧
      ∃ r ∈ recs, Used o r ∧ r.pol = pol ∧ r.i = A.get ⟨row.i, hi⟩ ∧ r.j = A.get ⟨row.j, hj⟩ := by
    intro row hr
    obtain ⟨i, hi, j, hj, v, hv, rfl⟩ := mem_rows.1 hr
    rw [accum_dd] at hv
    split at hv
    · cases hv
    rename_i hne
    obtain ⟨r, hr, hu, hk⟩ := (entry_nil_iff o _ recs).1 hne
    have hkey : r.pol = pol ∧ r.i = A.getD i 0 ∧ r.j = A.getD j 0 := by
      refine ⟨congrArg Prod.fst hk, congrArg (fun k => k.2.1) hk, congrArg (fun k => k.2.2) hk⟩
    have ei : A.getD i 0 = A.get ⟨i, hi⟩ := getD_lt hi
    have ej : A.getD j 0 = A.get ⟨j, hj⟩ := getD_lt hj
    refine ⟨hi, hj, ?_, ?_, r, hr, hu, hkey.1, hkey.2.1.trans ei, hkey.2.2.trans ej⟩
    · intro h
      have h : i = j := h
      subst h
      exact hu.cross (hkey.2.1.trans hkey.2.2.symm)
    · have hv := Option.some.inj hv
      subst hv
      show logAmp o _ = Real.log (g (A.get ⟨i, hi⟩)) + Real.log (g (A.get ⟨j, hj⟩))
      have := hc _ _ hne
      rw [ei, ej] at this
      rw [← Real.log_mul (ne_of_gt (hg _)) (ne_of_gt (hg _)), ← this, ei, ej]
  have hlen : rs.length ≤ m := rows_len hlt pol
  have hb : ∀ r, vecB m rs r = (matA A.length m rs *ᵥ y) r := by
    intro r
    cases h : rs[r.val]? with
    | none => simp [vecB, matA, h, Matrix.mulVec, dotProduct]
    | some row =>
      obtain ⟨hi, hj, hne, hb, _⟩ := hrow row (List.mem_of_getElem? h)
      rw [matA_mul y r h hi hj hne, ← hb]
      simp [vecB, h]
  have hD : ((matA A.length m rs)ᵀ * matW m rs * matA A.length m rs).det ≠ 0 := by
    apply det_ne
    intro u hu
    let w : Nat → ℝ := fun a => if h : ∃ k : Fin A.length, A.get k = a then u h.choose else 0
    have hnd : A.Nodup := (antNos_sorted o recs).imp fun h => ne_of_lt h
    have hw : ∀ k : Fin A.length, w (A.get k) = u k := by
      intro k
      have hex : ∃ k' : Fin A.length, A.get k' = A.get k := ⟨k, rfl⟩
      simp only [w, dif_pos hex]
      congr 1
      exact (List.nodup_iff_injective_get.1 hnd) hex.choose_spec
    have hz := hdet w (by
      intro r hr hru hp
      have mi : r.i ∈ A := (mem_antNos o recs _).2 ⟨r, hr, hru, .inl rfl⟩
      have mj : r.j ∈ A := (mem_antNos o recs _).2 ⟨r, hr, hru, .inr rfl⟩
      obtain ⟨ki, hki⟩ := List.get_of_mem mi
      obtain ⟨kj, hkj⟩ := List.get_of_mem mj
      have hent : entry o (pol, (r.i, r.j)) recs ≠ [] := (entry_nil_iff o _ recs).2 ⟨r, hr, hru, by rw [hp]⟩
      have hdd := accum_dd o recs (pol, (r.i, r.j))
      rw [if_neg hent] at hdd
      have hmem : (⟨ki.val, kj.val, logAmp o _⟩ : Row) ∈ rs := mem_rows.2 ⟨ki.val, ki.isLt, kj.val, kj.isLt, _, by
        have e1 : A.getD ki.val 0 = r.i := (getD_lt ki.isLt).trans hki
        have e2 : A.getD kj.val 0 = r.j := (getD_lt kj.isLt).trans hkj
        show dget (pol, (A.getD ki.val 0, A.getD kj.val 0)) _ = _
        rw [e1, e2]; exact hdd, rfl⟩
      obtain ⟨idx, hidx, he⟩ := List.getElem_of_mem hmem
      have hr' := matA_mul (n := A.length) (m := m) u ⟨idx, by omega⟩ (row := ⟨ki.val, kj.val, _⟩) (by rw [List.getElem?_eq_getElem hidx, he]) ki.isLt
        kj.isLt (by
          intro h
          have h : ki.val = kj.val := h
          have : ki = kj := Fin.ext h
          rw [this] at hki
          exact hru.cross (hki.symm.trans hkj))
      rw [← hki, ← hkj, hw, hw]
      exact hr'.symm.trans (hu _))
    funext k
    obtain ⟨r, hr, hru, hk⟩ := (mem_antNos o recs (A.get k)).1 (List.get_mem A k)
    rw [← hw k]
    rcases hk with hk | hk
    · rw [hk]; exact (hz r hr hru).1
    · rw [hk]; exact (hz r hr hru).2
  have hx := normal_eq hb hD
  let G : Fin A.length → ℝ := fun k => (10 : ℝ) ^ y k
  let S : ℝ := o.flx * ((∑ l, G l) / (A.length : ℝ))
  have hrun : run o recs pol = some ⟨A, fun k => G k / S⟩ := by
    unfold run solve
    simp only
    rw [if_neg (by
      rintro (h | h)
      · exact absurd hlen (by show ¬ rs.length ≤ m; have : m < rs.length := h; omega)
      · exact hD h)]
    simp only [Option.map_some]
    rw [hx]
  have hGpos : ∀ k, 0 < G k := fun k => Real.rpow_pos_of_pos (by norm_num) _
  refine ⟨A, _, hrun, antNos_sorted o recs, mem_antNos o recs, ?_, ?_⟩
  · intro k l
    have hA : A ≠ [] := by
      intro h
      have hk : k.val < A.length := k.isLt
      have h0 : A.length = 0 := by rw [h]; rfl
      omega
    have hn : (0 : ℝ) < A.length := by exact_mod_cast List.length_pos_of_ne_nil hA
    have hsum : 0 < ∑ l, G l := Finset.sum_pos (fun i _ => hGpos i) ⟨k, Finset.mem_univ _⟩
    have hS : S ≠ 0 := mul_ne_zero hflx (ne_of_gt (div_pos hsum hn))
    rw [div_div_div_cancel_right₀ hS]
    show (10 : ℝ) ^ Real.log (g (A.get k)) / (10 : ℝ) ^ Real.log (g (A.get l)) = _
    rw [← Real.rpow_sub (by norm_num), ← Real.log_div (ne_of_gt (hg _)) (ne_of_gt (hg _)), Real.rpow_def_of_pos (by norm_num : (0:ℝ) < 10),
      Real.rpow_def_of_pos (div_pos (hg _) (hg _)), mul_comm]
  · intro hA
    have hn : (0 : ℝ) < A.length := by exact_mod_cast List.length_pos_of_ne_nil hA
    have hsum : 0 < ∑ l, G l := Finset.sum_pos (fun i _ => hGpos i) ⟨⟨0, List.length_pos_of_ne_nil hA⟩, Finset.mem_univ _⟩
    rw [← Finset.sum_div]
    show (∑ l, G l) / (o.flx * ((∑ l, G l) / (A.length : ℝ))) = _
    have h1 := ne_of_gt hsum
    have h2 := ne_of_gt hn
    field_simp

/-! ## C115 -/

/-- C115: with amplitudes that close, without partly flagged records, the script gives gains of mean `1 / flx`, whose ratios are those of
the gains of the antennas raised to the power `ln 10`. -/
theorem c115_gains_partial {o : Opts} {recs : List Rec} {g : Nat → ℝ} {pol : Char × Char} (hg : ∀ a, 0 < g a) (hc : Closed o g recs)
    (hnf : ∀ r ∈ recs, Used o r → ∀ c < o.nchan, r.f c = false) (hlt : ∀ r ∈ recs, Used o r → r.i < r.j) (hdet : Determined o recs pol)
    (hflx : o.flx ≠ 0) :
    ∃ a G, run o recs pol = some ⟨a, G⟩ ∧ a.Pairwise (· < ·) ∧ (∀ k, k ∈ a ↔ ∃ r ∈ recs, Used o r ∧ (k = r.i ∨ k = r.j)) ∧
      (∀ k l : Fin a.length, G k / G l = (g (a.get k) / g (a.get l)) ^ Real.log 10) ∧ (a ≠ [] → ∑ k, G k = a.length / o.flx) := by
  refine gains_core hg ?_ hlt hdet hflx
  intro i j hne
  unfold logAmp
  have hav : ∀ c ∈ Finset.range o.nchan, average (fun c => ((entry o (pol, (i, j)) recs).map fun r => r.d c).sum,
      fun c => ((entry o (pol, (i, j)) recs).filter fun r => !r.f c).length) c = g i * g j := by
    intro c hcc
    refine average_closed hne (fun q hq => ?_) (fun q hq => ?_) (Finset.mem_range.1 hcc)
    · obtain ⟨h1, h2, _⟩ := mem_entry hq
      exact hnf q h1 h2
    · obtain ⟨h1, h2, h3⟩ := mem_entry hq
      intro c hc'
      rw [hc q h1 h2 c hc']
      have e1 : q.i = i := congrArg (fun k => k.2.1) h3
      have e2 : q.j = j := congrArg (fun k => k.2.2) h3
      rw [e1, e2]
  obtain ⟨r, _, hu, _⟩ := (entry_nil_iff o _ recs).1 hne
  rw [Finset.sum_congr rfl hav, Finset.sum_const, Finset.card_range, nsmul_eq_mul]
  obtain ⟨c, hcc, _⟩ := hu.data
  have hn : (o.nchan : ℝ) ≠ 0 := by exact_mod_cast (by omega : o.nchan ≠ 0)
  rw [mul_div_cancel_left₀ _ hn]

/-- C115: the ratio of a larger to a smaller gain comes out too large. -/
theorem c115_base_violated {o : Opts} {recs : List Rec} {g : Nat → ℝ} {pol : Char × Char} (hg : ∀ a, 0 < g a) (hc : Closed o g recs)
    (hnf : ∀ r ∈ recs, Used o r → ∀ c < o.nchan, r.f c = false) (hlt : ∀ r ∈ recs, Used o r → r.i < r.j) (hdet : Determined o recs pol)
    (hflx : o.flx ≠ 0) :
    ∃ a G, run o recs pol = some ⟨a, G⟩ ∧ ∀ k l : Fin a.length, g (a.get l) < g (a.get k) → g (a.get k) / g (a.get l) < G k / G l := by
  obtain ⟨a, G, e, _, _, h, _⟩ := c115_gains_partial hg hc hnf hlt hdet hflx
  refine ⟨a, G, e, ?_⟩
  intro k l hkl
  rw [h k l]
  apply Real.self_lt_rpow_of_one_lt
  · rw [lt_div_iff₀ (hg _)]; simpa using hkl
  · rw [Real.lt_log_iff_exp_lt (by norm_num)]
    exact lt_trans Real.exp_one_lt_d9 (by norm_num)

/-- three antennas of gain one; a channel of the first baseline is flagged in one record of two -/
def flagRec (i j : Nat) (f : Nat → Bool) : Rec := ⟨i, j, ('x', 'x'), fun _ => 1, f⟩

def flagRecs : List Rec :=
  [flagRec 0 1 (fun _ => false), flagRec 0 1 (fun c => decide (c = 0)), flagRec 0 2 (fun _ => false), flagRec 1 2 (fun _ => false)]

def flagOpts : Opts := ⟨2, [], fun _ _ => true, 1⟩

theorem flag_used (i j : Nat) (f : Nat → Bool) (h : i ≠ j) (hf : f 1 = false) : Used flagOpts (flagRec i j f) :=
  ⟨h, ⟨1, by decide, hf⟩, rfl, by simp [flagOpts], rfl⟩

theorem flag_det : Determined flagOpts flagRecs ('x', 'x') := by
  intro u hu
  have h1 : u 0 + u 1 = 0 := hu (flagRec 0 1 fun _ => false) (by simp [flagRecs]) (flag_used _ _ _ (by decide) rfl) rfl
  have h2 : u 0 + u 2 = 0 := hu (flagRec 0 2 fun _ => false) (by simp [flagRecs]) (flag_used _ _ _ (by decide) rfl) rfl
  have h3 : u 1 + u 2 = 0 := hu (flagRec 1 2 fun _ => false) (by simp [flagRecs]) (flag_used _ _ _ (by decide) rfl) rfl
  intro r hr _
  simp only [flagRecs, List.mem_cons, List.not_mem_nil, or_false] at hr
  rcases hr with rfl | rfl | rfl | rfl <;> simp only [flagRec] <;> constructor <;> linarith

/-- C115: the gains of equal antennas differ if a channel is flagged in some of the records of a baseline: flagged data are added, but not
counted. -/
theorem c115_flag_violated : Closed flagOpts (fun _ => 1) flagRecs ∧ (∀ r ∈ flagRecs, Used flagOpts r ∧ r.i < r.j) ∧
    Determined flagOpts flagRecs ('x', 'x') ∧
    ∃ a G, run flagOpts flagRecs ('x', 'x') = some ⟨a, G⟩ ∧ ∃ k l, a.get k = 0 ∧ a.get l = 2 ∧ 1 < G k / G l := by
  have hU : ∀ r ∈ flagRecs, Used flagOpts r ∧ r.i < r.j := by
    intro r hr
    simp only [flagRecs, List.mem_cons, List.not_mem_nil, or_false] at hr
    rcases hr with rfl | rfl | rfl | rfl
    · exact ⟨flag_used _ _ _ (by decide) rfl, by decide⟩
    · exact ⟨flag_used _ _ _ (by decide) (by decide), by decide⟩
    · exact ⟨flag_used _ _ _ (by decide) rfl, by decide⟩
    · exact ⟨flag_used _ _ _ (by decide) rfl, by decide⟩
  refine ⟨?_, hU, flag_det, ?_⟩
  · intro r hr _ c _
    simp only [flagRecs, List.mem_cons, List.not_mem_nil, or_false] at hr
    rcases hr with rfl | rfl | rfl | rfl <;> simp [flagRec]
  let s : ℝ := Real.sqrt (3 / 2)
  have hs : 0 < s := Real.sqrt_pos.2 (by norm_num)
  have hss : s * s = 3 / 2 := Real.mul_self_sqrt (by norm_num)
  let h : Nat → ℝ := fun a => if a = 2 then s⁻¹ else s
  have hpos : ∀ a, 0 < h a := by intro a; simp only [h]; split <;> positivity
  obtain ⟨a, G, e, _, hmem, hr, _⟩ := gains_core (o := flagOpts) (recs := flagRecs) (g := h) (pol := ('x', 'x')) hpos (by
    intro i j hne
    obtain ⟨r, hr, hu, hk⟩ := (entry_nil_iff flagOpts _ flagRecs).1 hne
    have hi : r.i = i := congrArg (fun k => k.2.1) hk
    have hj : r.j = j := congrArg (fun k => k.2.2) hk
    subst hi hj
    have hkeep : ∀ r ∈ flagRecs, keep flagOpts r = true := fun r hr => (keep_iff _ _).2 (hU r hr).1
    have hent : ∀ i j, entry flagOpts (('x', 'x'), (i, j)) flagRecs = flagRecs.filter fun r => decide (r.i = i) && decide (r.j = j) := by
      intro i j
      unfold entry
      apply List.filter_congr
      intro r hr
      rw [hkeep r hr, Bool.true_and]
      simp only [flagRecs, List.mem_cons, List.not_mem_nil, or_false] at hr
      rcases hr with rfl | rfl | rfl | rfl <;>
        rw [Bool.eq_iff_iff, decide_eq_true_iff, Bool.and_eq_true, decide_eq_true_iff, decide_eq_true_iff] <;> simp [flagRec]
    rw [hent]
    simp only [flagRecs, List.mem_cons, List.not_mem_nil, or_false] at hr
    unfold logAmp
    congr 1
    rcases hr with rfl | rfl | rfl | rfl <;>
      simp [flagRecs, flagRec, flagOpts, average, Finset.sum_range_succ, h, List.filter_cons, hss, ne_of_gt hs] <;> norm_num)
    (fun r hr _ => (hU r hr).2) flag_det (by simp [flagOpts])
  have m0 : 0 ∈ a := (hmem 0).2 ⟨flagRec 0 1 fun _ => false, by simp [flagRecs], flag_used _ _ _ (by decide) rfl, .inl rfl⟩
  have m2 : 2 ∈ a := (hmem 2).2 ⟨flagRec 0 2 fun _ => false, by simp [flagRecs], flag_used _ _ _ (by decide) rfl, .inr rfl⟩
  obtain ⟨k, hk⟩ := List.get_of_mem m0
  obtain ⟨l, hl⟩ := List.get_of_mem m2
  refine ⟨a, G, e, k, l, hk, hl, ?_⟩
  rw [hr k l, hk, hl]
  apply Real.one_lt_rpow
  · simp only [h, if_true]
    rw [if_neg (by decide), div_inv_eq_mul, hss]; norm_num
  · exact Real.log_pos (by norm_num)

/-! ## Cases -/

/-- three antennas of gains one, two and three, all baselines -/
def demoRec (i j : Nat) : Rec := ⟨i, j, ('x', 'x'), fun _ => (i + 1) * (j + 1), fun _ => false⟩

def demoRecs : List Rec := [demoRec 0 1, demoRec 0 2, demoRec 1 2]

def demoOpts : Opts := ⟨1, [], fun _ _ => true, 1⟩

theorem demo_used (i j : Nat) (h : i ≠ j) : Used demoOpts (demoRec i j) := ⟨h, ⟨0, by decide, rfl⟩, rfl, by simp [demoOpts], rfl⟩

theorem demo_det : Determined demoOpts demoRecs ('x', 'x') := by
  intro u hu
  have h1 : u 0 + u 1 = 0 := hu (demoRec 0 1) (by simp [demoRecs]) (demo_used _ _ (by decide)) rfl
  have h2 : u 0 + u 2 = 0 := hu (demoRec 0 2) (by simp [demoRecs]) (demo_used _ _ (by decide)) rfl
  have h3 : u 1 + u 2 = 0 := hu (demoRec 1 2) (by simp [demoRecs]) (demo_used _ _ (by decide)) rfl
  intro r hr _
  simp only [demoRecs, List.mem_cons, List.not_mem_nil, or_false] at hr
  rcases hr with rfl | rfl | rfl <;> simp only [demoRec] <;> constructor <;> linarith

theorem demo_closed : Closed demoOpts (fun a => a + 1) demoRecs := by
  intro r hr _ c _
  simp only [demoRecs, List.mem_cons, List.not_mem_nil, or_false] at hr
  rcases hr with rfl | rfl | rfl <;> rfl

example := c115_gains_partial (o := demoOpts) (recs := demoRecs) (g := fun a => a + 1) (pol := ('x', 'x')) (fun a => by positivity) demo_closed
  (by intro r hr _ c _; simp only [demoRecs, List.mem_cons, List.not_mem_nil, or_false] at hr; rcases hr with rfl | rfl | rfl <;> rfl)
  (by intro r hr _; simp only [demoRecs, List.mem_cons, List.not_mem_nil, or_false] at hr; rcases hr with rfl | rfl | rfl <;> decide)
  demo_det (by simp [demoOpts])

example := c115_base_violated (o := demoOpts) (recs := demoRecs) (g := fun a => a + 1) (pol := ('x', 'x')) (fun a => by positivity) demo_closed
  (by intro r hr _ c _; simp only [demoRecs, List.mem_cons, List.not_mem_nil, or_false] at hr; rcases hr with rfl | rfl | rfl <;> rfl)
  (by intro r hr _; simp only [demoRecs, List.mem_cons, List.not_mem_nil, or_false] at hr; rcases hr with rfl | rfl | rfl <;> decide)
  demo_det (by simp [demoOpts])

end Verif.Misc.AmpClose
