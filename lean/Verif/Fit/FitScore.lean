import Verif.Util.Dict
import Mathlib.Analysis.Complex.Basic
import Mathlib.Analysis.Real.Sqrt
import Mathlib.Algebra.BigOperators.Ring.Finset
import Mathlib.Data.List.Nodup
import Mathlib.Tactic.Linarith
/-!
# C124: what fitmdl.py minimises, alone and with daemons

Model of `/repo/scripts/fitmdl.py` 95-175 (`fit_func`) and 203-231 (`fit_func` of the master), with the meaning the code has in python 2
(in python 3 `has_key` raises as soon as there is a record).  A record has a key (time, baseline and polarisation; the three nested
dictionaries of `dbuf` are one dictionary here), the channels taken with `-c`, and tells whether it is an auto-correlation and whether
its baseline is shorter than `--minuv`.  What `aa.sim` gives for the parameters of a call is the function `sim` (C16, C17, C85).
Numbers are exact.
-/
set_option linter.unusedSectionVars false
namespace Verif.Fit.Score
open Verif.Util

variable {κ : Type} [DecidableEq κ]

structure Rec (κ : Type) where
  key : κ
  auto : Bool
  short : Bool
  data : List ℂ
  flags : List Bool

/-- an entry of `dbuf`: data, flags and `nsamp` -/
structure Entry where
  data : List ℂ
  flags : List Bool
  nsamp : ℝ

/-- `np.where(f, 0, np.abs(d)**2).sum()`, fitmdl.py 131 and 160-162 -/
noncomputable def power (d : List ℂ) (f : List Bool) : ℝ := ((d.zip f).map fun x => if x.2 then 0 else ‖x.1‖ ^ 2).sum

/-- the caching of the data, fitmdl.py 113-131 -/
noncomputable def cache (simAutos : Bool) (rs : List (Rec κ)) (D : List (κ × Entry)) : List (κ × Entry) :=
  rs.foldl (fun D r =>
    if !simAutos && r.auto then D
    else if r.short then D
    else dset r.key ⟨r.data, r.flags, power r.data r.flags⟩ D) D

/-- the sums over the cache, fitmdl.py 145-163 -/
noncomputable def sums (sim : κ → List ℂ) (D : List (κ × Entry)) : ℝ × ℝ :=
  D.foldl (fun s e => (s.1 + power (List.zipWith (· - ·) e.2.data (sim e.1)) e.2.flags, s.2 + e.2.nsamp)) (0, 0)

/-- what `fit_func` returns: a number or NaN -/
inductive Value where
  | num (x : ℝ)
  | nan

/-- `x / y` of numpy doubles when `x` is `y` or `y` is not 0 -/
noncomputable def quot (x y : ℝ) : Value := if y = 0 then .nan else .num (x / y)

/-- the end of `fit_func`, fitmdl.py 97 and 164-175: the value and the new `first_fit` -/
noncomputable def finish (first : Option ℝ) (s : ℝ × ℝ) : Value × Option ℝ :=
  if first = some 0 then (.num 0, first)
  else if s.2 = 0 then (.num 0, some 0)
  else
    let score := Real.sqrt (s.1 / s.2)
    let first' := first.getD score
    (quot score first', some first')

/-- the calls the minimiser makes, one for each `sim`: the values returned -/
noncomputable def calls (D : List (κ × Entry)) : Option ℝ → List (κ → List ℂ) → List Value
  | _, [] => []
  | first, sim :: sims => (finish first (sums sim D)).1 :: calls D (finish first (sums sim D)).2 sims

/-- the end of the master's `fit_func`, fitmdl.py 205 and 215-231: the sums come from the daemons as python floats, whose division
by zero raises (`none`) -/
noncomputable def finishMaster (first : Option ℝ) (ss : List (ℝ × ℝ)) : Option (Value × Option ℝ) :=
  if first = some 0 then some (.num 0, first)
  else
    let s := ss.foldl (fun a b => (a.1 + b.1, a.2 + b.2)) (0, 0)
    if s.2 = 0 then none
    else
      let score := Real.sqrt (s.1 / s.2)
      let first' := first.getD score
      some (quot score first', some first')

/-- the calls the minimiser makes of the master; `Ds` are the caches of the daemons -/
noncomputable def callsMaster (Ds : List (List (κ × Entry))) : Option ℝ → List (κ → List ℂ) → Option (List Value)
  | _, [] => some []
  | first, sim :: sims =>
    match finishMaster first (Ds.map (sums sim)) with
    | none => none
    | some (v, first') => (callsMaster Ds first' sims).map (v :: ·)

/-- fitmdl.py 178, 197, 250, 265: what the script does -/
inductive Mode where
  | daemon (port : Int)
  | master
  | all
  | snap
deriving DecidableEq

def mode (baseport : Int) (daemon : Option Int) (master : Bool) (snap : Bool) : Mode :=
  if (daemon.getD 0) ≠ 0 then .daemon (baseport + daemon.getD 0)
  else if master then .master
  else if !snap then .all
  else .snap

/-! ## Specification -/

/-- the record takes part in the fit -/
def Used (simAutos : Bool) (r : Rec κ) : Prop := (simAutos = true ∨ r.auto = false) ∧ r.short = false

/-- every array has as many channels as the data -/
def Shaped (sim : κ → List ℂ) (r : Rec κ) : Prop := r.flags.length = r.data.length ∧ (sim r.key).length = r.data.length

open Classical in
/-- the squared distance of model and data over the samples that are not flagged; of the records with the same time, baseline and
polarisation the last one counts -/
noncomputable def chi2 (simAutos : Bool) (sim : κ → List ℂ) : List (Rec κ) → ℝ
  | [] => 0
  | r :: rs =>
    (if Used simAutos r ∧ ∀ s ∈ rs, Used simAutos s → s.key ≠ r.key then
      ∑ c ∈ Finset.range r.data.length, (if r.flags.getD c true then 0 else ‖r.data.getD c 0 - (sim r.key).getD c 0‖ ^ 2) else 0) + chi2 simAutos sim rs

/-! ## Lemmas -/

theorem sum_range_list {α : Type} (l : List α) (d : α) (F : α → ℝ) : (l.map F).sum = ∑ c ∈ Finset.range l.length, F (l.getD c d) := by
  induction l with
  | nil => simp
  | cons x l ih =>
    rw [List.map_cons, List.sum_cons, ih, List.length_cons, Finset.sum_range_succ']
    simp [add_comm]

theorem power_sub {d s : List ℂ} {f : List Bool} (hf : f.length = d.length) (hs : s.length = d.length) :
    power (List.zipWith (· - ·) d s) f = ∑ c ∈ Finset.range d.length, (if f.getD c true then 0 else ‖d.getD c 0 - s.getD c 0‖ ^ 2) := by
  unfold power
  rw [sum_range_list _ (0, true)]
  have hl : ((List.zipWith (· - ·) d s).zip f).length = d.length := by simp [hf, hs]
  rw [hl]
  refine Finset.sum_congr rfl fun c hc => ?_
  have hc := Finset.mem_range.1 hc
  have h1 : (List.zipWith (· - ·) d s).zip f = (List.zipWith (· - ·) d s).zip f := rfl
  have e : ((List.zipWith (· - ·) d s).zip f).getD c (0, true) = (d.getD c 0 - s.getD c 0, f.getD c true) := by
    have hcs : c < s.length := by omega
    have hcf : c < f.length := by omega
    simp [List.getD, hc, hcs, hcf]
  rw [e]

theorem power_zero (d : List ℂ) (f : List Bool) (hf : f.length = d.length) :
    power d f = ∑ c ∈ Finset.range d.length, (if f.getD c true then 0 else ‖d.getD c 0 - (List.replicate d.length (0 : ℂ)).getD c 0‖ ^ 2) := by
  rw [← power_sub hf (by simp)]
  congr 1
  induction d generalizing f with
  | nil => rfl
  | cons x d ih => 
    cases f with
    | nil => simp at hf
    | cons b f =>
      rw [List.length_cons, List.replicate_succ, List.zipWith_cons_cons, ← ih f (by simpa using hf)]
      simp

variable {V : Type}

theorem sum_dset_filter (F : κ × V → ℝ) (P : κ → Bool) (k : κ) (v : V) (D : List (κ × V)) (hd : (D.map Prod.fst).Nodup) :
    (((dset k v D).filter fun e => P e.1).map F).sum = ((D.filter fun e => P e.1 && decide (e.1 ≠ k)).map F).sum + (if P k then F (k, v) else 0) := by
  induction D with
  | nil => by_cases h : P k <;> simp [dset, h]
  | cons e D ih =>
    rw [List.map_cons, List.nodup_cons] at hd
    by_cases he : e.1 = k
    · have hD : ∀ x ∈ D, x.1 ≠ k := fun x hx h => hd.1 (by rw [he, ← h]; exact List.mem_map_of_mem hx)
      have e1 : dset k v (e :: D) = (k, v) :: D := by obtain ⟨a, b⟩ := e; simp only at he; simp [dset, he]
      have e2 : (D.filter fun x => P x.1 && decide (x.1 ≠ k)) = D.filter fun x => P x.1 := by
        apply List.filter_congr
        intro x hx
        simp [hD x hx]
      rw [e1, List.filter_cons_of_neg (p := fun e : κ × V => P e.1 && decide (e.1 ≠ k)) (by simp [he]), e2]
      by_cases h : P k
      · rw [List.filter_cons_of_pos (by simpa using h)]; simp [h, add_comm]
      · rw [List.filter_cons_of_neg (by simpa using h)]; simp [h]
    · have e1 : dset k v (e :: D) = e :: dset k v D := by obtain ⟨a, b⟩ := e; simp only at he; simp [dset, he]
      rw [e1]
      by_cases h : P e.1
      · rw [List.filter_cons_of_pos (by simpa using h), List.filter_cons_of_pos (p := fun e : κ × V => P e.1 && decide (e.1 ≠ k)) (by simp [h, he]),
          List.map_cons, List.sum_cons, ih hd.2, List.map_cons, List.sum_cons, add_assoc]
      · rw [List.filter_cons_of_neg (by simpa using h), List.filter_cons_of_neg (p := fun e : κ × V => P e.1 && decide (e.1 ≠ k)) (by simp [h]), ih hd.2]

open Classical in
/-- a sum over the cache is a sum over the last records with their keys -/
noncomputable def lastSum (simAutos : Bool) (F : κ × Entry → ℝ) : List (Rec κ) → ℝ
  | [] => 0
  | r :: rs => (if Used simAutos r ∧ ∀ s ∈ rs, Used simAutos s → s.key ≠ r.key then F (r.key, ⟨r.data, r.flags, power r.data r.flags⟩) else 0) +
      lastSum simAutos F rs

theorem cache_cons (simAutos : Bool) (r : Rec κ) (rs : List (Rec κ)) (D : List (κ × Entry)) :
    (Used simAutos r → cache simAutos (r :: rs) D = cache simAutos rs (dset r.key ⟨r.data, r.flags, power r.data r.flags⟩ D)) ∧
    (¬ Used simAutos r → cache simAutos (r :: rs) D = cache simAutos rs D) := by
  unfold cache Used
  rw [List.foldl_cons]
  cases simAutos <;> cases r.auto <;> cases r.short <;> simp

open Classical in
/-- no record of the list replaces the entry with this key -/
noncomputable def stays (simAutos : Bool) (rs : List (Rec κ)) (k : κ) : Bool := decide (∀ s ∈ rs, Used simAutos s → s.key ≠ k)

theorem stays_iff (simAutos : Bool) (rs : List (Rec κ)) (k : κ) : stays simAutos rs k = true ↔ ∀ s ∈ rs, Used simAutos s → s.key ≠ k := by
  simp [stays]

theorem cache_sum (simAutos : Bool) (F : κ × Entry → ℝ) : ∀ (rs : List (Rec κ)) (D : List (κ × Entry)), (D.map Prod.fst).Nodup →
    ((cache simAutos rs D).map F).sum = ((D.filter fun e => stays simAutos rs e.1).map F).sum + lastSum simAutos F rs := by
  intro rs
  induction rs with
  | nil =>
    intro D _
    simp [cache, lastSum, stays]
  | cons r rs ih =>
    intro D hd
    by_cases hu : Used simAutos r
    · rw [(cache_cons simAutos r rs D).1 hu, ih _ (nodup_dset _ _ _ hd), sum_dset_filter F (stays simAutos rs) r.key _ D hd, lastSum, ← add_assoc]
      congr 2
      · congr 2
        apply List.filter_congr
        intro e _
        rw [Bool.eq_iff_iff, Bool.and_eq_true, stays_iff, stays_iff, decide_eq_true_eq]
        constructor
        · rintro ⟨h1, h2⟩ s hs
          rcases List.mem_cons.1 hs with rfl | hs
          · exact fun _ => Ne.symm h2
          · exact h1 s hs
        · intro h
          exact ⟨fun s hs => h s (by simp [hs]), Ne.symm (h r (by simp) hu)⟩
      · by_cases h : ∀ s ∈ rs, Used simAutos s → s.key ≠ r.key
        · rw [if_pos ((stays_iff _ _ _).2 h), if_pos ⟨hu, h⟩]
        · rw [if_neg (fun x => h ((stays_iff _ _ _).1 x)), if_neg (fun x => h x.2)]
    · rw [(cache_cons simAutos r rs D).2 hu, ih _ hd, lastSum, if_neg (fun h => hu h.1), zero_add]
      congr 3
      apply List.filter_congr
      intro e _
      rw [Bool.eq_iff_iff, stays_iff, stays_iff]
      constructor
      · intro h s hs
        rcases List.mem_cons.1 hs with rfl | hs
        · exact fun h' => absurd h' hu
        · exact h s hs
      · exact fun h s hs => h s (by simp [hs])

theorem lastSum_chi (simAutos : Bool) (sim : κ → List ℂ) (rs : List (Rec κ)) (h : ∀ r ∈ rs, Shaped sim r) :
    lastSum simAutos (fun e => power (List.zipWith (· - ·) e.2.data (sim e.1)) e.2.flags) rs = chi2 simAutos sim rs := by
  induction rs with
  | nil => rfl
  | cons r rs ih =>
    have hr := h r (by simp)
    rw [lastSum, chi2, ih (fun x hx => h x (by simp [hx]))]
    congr 2
    exact power_sub hr.1 hr.2

theorem sums_eq (sim : κ → List ℂ) (D : List (κ × Entry)) :
    sums sim D = ((D.map fun e => power (List.zipWith (· - ·) e.2.data (sim e.1)) e.2.flags).sum, (D.map fun e => e.2.nsamp).sum) := by
  have key : ∀ (D : List (κ × Entry)) (a b : ℝ),
      D.foldl (fun s e => (s.1 + power (List.zipWith (· - ·) e.2.data (sim e.1)) e.2.flags, s.2 + e.2.nsamp)) (a, b) =
        (a + (D.map fun e => power (List.zipWith (· - ·) e.2.data (sim e.1)) e.2.flags).sum, b + (D.map fun e => e.2.nsamp).sum) := by
    intro D
    induction D with
    | nil => intro a b; simp
    | cons e D ih => intro a b; rw [List.foldl_cons, ih]; simp [add_assoc]
  unfold sums
  rw [key, zero_add, zero_add]

/-- the sum of the weights of the cache -/
noncomputable def weight (simAutos : Bool) (rs : List (Rec κ)) : ℝ := lastSum simAutos (fun e => e.2.nsamp) rs

theorem sums_cache (simAutos : Bool) (sim : κ → List ℂ) (rs : List (Rec κ)) (h : ∀ r ∈ rs, Shaped sim r) :
    sums sim (cache simAutos rs []) = (chi2 simAutos sim rs, weight simAutos rs) := by
  rw [sums_eq, cache_sum _ _ rs [] (by simp), cache_sum _ _ rs [] (by simp), lastSum_chi simAutos sim rs h]
  simp [weight]

theorem power_nonneg (d : List ℂ) (f : List Bool) : 0 ≤ power d f := by
  unfold power
  apply List.sum_nonneg
  intro x hx
  obtain ⟨y, _, rfl⟩ := List.mem_map.1 hx
  split
  · exact le_refl _
  · positivity

theorem chi2_nonneg (simAutos : Bool) (sim : κ → List ℂ) (rs : List (Rec κ)) : 0 ≤ chi2 simAutos sim rs := by
  induction rs with
  | nil => exact le_refl _
  | cons r rs ih =>
    rw [chi2]
    refine add_nonneg ?_ ih
    split
    · refine Finset.sum_nonneg fun c _ => ?_
      split
      · exact le_refl _
      · positivity
    · exact le_refl _

theorem weight_nonneg (simAutos : Bool) (rs : List (Rec κ)) : 0 ≤ weight simAutos rs := by
  unfold weight
  induction rs with
  | nil => exact le_refl _
  | cons r rs ih =>
    rw [lastSum]
    refine add_nonneg ?_ ih
    split
    · exact power_nonneg _ _
    · exact le_refl _

/-- every sample that takes part is flagged or zero -/
def Empty (simAutos : Bool) (rs : List (Rec κ)) : Prop :=
  ∀ a r b, rs = a ++ r :: b → Used simAutos r → (∀ s ∈ b, Used simAutos s → s.key ≠ r.key) → ∀ c < r.data.length, r.flags.getD c true = true ∨ r.data.getD c 0 = 0

theorem power_eq_zero {d : List ℂ} {f : List Bool} (hf : f.length = d.length) :
    power d f = 0 ↔ ∀ c < d.length, f.getD c true = true ∨ d.getD c 0 = 0 := by
  rw [power_zero d f hf, Finset.sum_eq_zero_iff_of_nonneg]
  · constructor
    · intro h c hc
      have := h c (Finset.mem_range.2 hc)
      by_cases hb : f.getD c true = true
      · exact Or.inl hb
      · right
        rw [if_neg hb] at this
        have := pow_eq_zero_iff (two_ne_zero) |>.1 this
        rw [norm_eq_zero] at this
        simpa [List.getD, hc] using this
    · intro h c hc
      have hc := Finset.mem_range.1 hc
      rcases h c hc with h | h
      · rw [if_pos h]
      · split
        · rfl
        · rw [h]; simp [List.getD, hc]
  · intro c _
    split
    · exact le_refl _
    · positivity

theorem weight_zero (simAutos : Bool) (rs : List (Rec κ)) (hf : ∀ r ∈ rs, r.flags.length = r.data.length) : weight simAutos rs = 0 ↔ Empty simAutos rs := by
  induction rs with
  | nil =>
    simp only [weight, lastSum, true_iff]
    intro a r b h
    simp at h
  | cons r rs ih =>
    have ih := ih (fun x hx => hf x (by simp [hx]))
    have hw : weight simAutos (r :: rs) = lastSum simAutos (fun e => e.2.nsamp) (r :: rs) := rfl
    rw [hw, lastSum]
    have hn := weight_nonneg simAutos rs
    have hw' : weight simAutos rs = lastSum simAutos (fun e => e.2.nsamp) rs := rfl
    rw [← hw']
    have hp := power_nonneg r.data r.flags
    have split : Empty simAutos (r :: rs) ↔ ((Used simAutos r ∧ ∀ s ∈ rs, Used simAutos s → s.key ≠ r.key) →
        ∀ c < r.data.length, r.flags.getD c true = true ∨ r.data.getD c 0 = 0) ∧ Empty simAutos rs := by
      constructor
      · intro h
        exact ⟨fun hu => h [] r rs rfl hu.1 hu.2, fun a q b e => h (r :: a) q b (by rw [e]; rfl)⟩
      · rintro ⟨h1, h2⟩ a q b e
        cases a with
        | nil =>
          obtain ⟨rfl, rfl⟩ := List.cons.inj e
          exact fun u v => h1 ⟨u, v⟩
        | cons x a => exact h2 a q b (List.cons.inj e).2
    rw [split, ← ih, ← power_eq_zero (hf r (by simp))]
    by_cases hc : Used simAutos r ∧ ∀ s ∈ rs, Used simAutos s → s.key ≠ r.key
    · rw [if_pos hc]
      constructor
      · intro h; constructor
        · intro _; linarith
        · linarith
      · rintro ⟨h1, h2⟩; rw [h1 hc, h2, add_zero]
    · rw [if_neg hc, zero_add]
      exact ⟨fun h => ⟨fun h' => absurd h' hc, h⟩, fun h => h.2⟩

theorem calls_later (simAutos : Bool) (rs : List (Rec κ)) (hw : weight simAutos rs ≠ 0) (f : ℝ) (hf : f ≠ 0) :
    ∀ sims : List (κ → List ℂ), (∀ sim ∈ sims, ∀ r ∈ rs, Shaped sim r) →
    calls (cache simAutos rs []) (some f) sims = sims.map fun sim => .num (Real.sqrt (chi2 simAutos sim rs / weight simAutos rs) / f)
  | [], _ => rfl
  | sim :: sims, h => by
    have e : finish (some f) (sums sim (cache simAutos rs [])) = (.num (Real.sqrt (chi2 simAutos sim rs / weight simAutos rs) / f), some f) := by
      rw [sums_cache simAutos sim rs (h sim (by simp))]
      unfold finish
      simp [hf, hw, quot]
    have e2 : calls (cache simAutos rs []) (some f) (sim :: sims) =
      (finish (some f) (sums sim (cache simAutos rs []))).1 :: calls (cache simAutos rs []) (finish (some f) (sums sim (cache simAutos rs []))).2 sims := rfl
    rw [e2, e, calls_later simAutos rs hw f hf sims (fun s hs => h s (by simp [hs]))]
    rfl

theorem ratio {a b w : ℝ} (ha : 0 ≤ a) (_hb : 0 < b) (hw : 0 < w) : Real.sqrt (a / w) / Real.sqrt (b / w) = Real.sqrt (a / b) := by
  rw [← Real.sqrt_div (by positivity)]
  congr 1
  field_simp

/-- C124: the minimiser sees, at every call, the distance of model and data in units of the distance at the start: the square root of the
ratio of the two sums of squares over all samples that are not flagged, whatever their weights.  (The start must not be exact and
some sample must be neither flagged nor zero.) -/
theorem c124_value_partial (simAutos : Bool) (rs : List (Rec κ)) (sim0 : κ → List ℂ) (sims : List (κ → List ℂ))
    (hs : ∀ sim ∈ sim0 :: sims, ∀ r ∈ rs, Shaped sim r) (hne : ¬ Empty simAutos rs) (h0 : chi2 simAutos sim0 rs ≠ 0) :
    calls (cache simAutos rs []) none (sim0 :: sims) =
      (sim0 :: sims).map fun sim => .num (Real.sqrt (chi2 simAutos sim rs / chi2 simAutos sim0 rs)) := by
  have hw : weight simAutos rs ≠ 0 := fun h => hne ((weight_zero simAutos rs (fun r hr => (hs sim0 (by simp) r hr).1)).1 h)
  have hw' : 0 < weight simAutos rs := lt_of_le_of_ne (weight_nonneg _ _) (Ne.symm hw)
  have h0' : 0 < chi2 simAutos sim0 rs := lt_of_le_of_ne (chi2_nonneg _ _ _) (Ne.symm h0)
  have hf : Real.sqrt (chi2 simAutos sim0 rs / weight simAutos rs) ≠ 0 := by
    rw [Real.sqrt_ne_zero (by positivity)]; positivity
  have e : finish none (sums sim0 (cache simAutos rs [])) = (.num 1, some (Real.sqrt (chi2 simAutos sim0 rs / weight simAutos rs))) := by
    rw [sums_cache simAutos sim0 rs (hs sim0 (by simp))]
    unfold finish
    simp only [reduceCtorEq, if_false, hw, Option.getD_none, quot, hf]
    rw [div_self hf]
  have e2 : calls (cache simAutos rs []) none (sim0 :: sims) =
      (finish none (sums sim0 (cache simAutos rs []))).1 :: calls (cache simAutos rs []) (finish none (sums sim0 (cache simAutos rs []))).2 sims := rfl
  rw [e2, e, calls_later simAutos rs hw _ hf sims (fun s hs' => hs s (by simp [hs'])), List.map_cons]
  congr 1
  · rw [div_self h0, Real.sqrt_one]
  · apply List.map_congr_left
    intro sim _
    rw [ratio (chi2_nonneg _ _ _) h0' hw']

/-- C124: an exact start (the fit of a simulation with the parameters it was made with) is not recognised: the first value is NaN, and from
then on every set of parameters scores 0. -/
theorem c124_exact_violated (simAutos : Bool) (rs : List (Rec κ)) (sim0 : κ → List ℂ) (sims : List (κ → List ℂ))
    (hs : ∀ r ∈ rs, Shaped sim0 r) (hne : ¬ Empty simAutos rs) (h0 : chi2 simAutos sim0 rs = 0) :
    calls (cache simAutos rs []) none (sim0 :: sims) = .nan :: sims.map fun _ => .num 0 := by
  have hw : weight simAutos rs ≠ 0 := fun h => hne ((weight_zero simAutos rs (fun r hr => (hs r hr).1)).1 h)
  have e : finish none (sums sim0 (cache simAutos rs [])) = (.nan, some 0) := by
    rw [sums_cache simAutos sim0 rs hs]
    unfold finish
    simp [hw, h0, quot]
  have later : ∀ sims : List (κ → List ℂ), calls (cache simAutos rs []) (some 0) sims = sims.map fun _ => .num 0 := by
    intro sims
    induction sims with
    | nil => rfl
    | cons s sims ih =>
      have e3 : finish (some 0) (sums s (cache simAutos rs [])) = (.num 0, some 0) := by unfold finish; simp
      have e2 : calls (cache simAutos rs []) (some 0) (s :: sims) =
        (finish (some 0) (sums s (cache simAutos rs []))).1 :: calls (cache simAutos rs []) (finish (some 0) (sums s (cache simAutos rs []))).2 sims := rfl
      rw [e2, e3, ih]; rfl
  have e2 : calls (cache simAutos rs []) none (sim0 :: sims) =
      (finish none (sums sim0 (cache simAutos rs []))).1 :: calls (cache simAutos rs []) (finish none (sums sim0 (cache simAutos rs []))).2 sims := rfl
  rw [e2, e, later]

/-! ## Daemons -/

theorem lastSum_append (simAutos : Bool) (F : κ × Entry → ℝ) (a b : List (Rec κ))
    (h : ∀ r ∈ a, ∀ s ∈ b, Used simAutos r → Used simAutos s → s.key ≠ r.key) : lastSum simAutos F (a ++ b) = lastSum simAutos F a + lastSum simAutos F b := by
  induction a with
  | nil => simp [lastSum]
  | cons r a ih =>
    rw [List.cons_append, lastSum, lastSum, ih (fun x hx => h x (by simp [hx])), add_assoc]
    congr 1
    have : (Used simAutos r ∧ ∀ s ∈ a ++ b, Used simAutos s → s.key ≠ r.key) ↔ (Used simAutos r ∧ ∀ s ∈ a, Used simAutos s → s.key ≠ r.key) := by
      constructor
      · rintro ⟨h1, h2⟩; exact ⟨h1, fun s hs => h2 s (by simp [hs])⟩
      · rintro ⟨h1, h2⟩
        refine ⟨h1, fun s hs hu => ?_⟩
        rcases List.mem_append.1 hs with hs | hs
        · exact h2 s hs hu
        · exact h r (by simp) s hs h1 hu
    by_cases hc : Used simAutos r ∧ ∀ s ∈ a, Used simAutos s → s.key ≠ r.key
    · rw [if_pos (this.2 hc), if_pos hc]
    · rw [if_neg (fun x => hc (this.1 x)), if_neg hc]

/-- no sample is in the files of two daemons -/
def Apart (simAutos : Bool) (groups : List (List (Rec κ))) : Prop :=
  groups.Pairwise fun a b => ∀ r ∈ a, ∀ s ∈ b, Used simAutos r → Used simAutos s → s.key ≠ r.key

theorem lastSum_flatten (simAutos : Bool) (F : κ × Entry → ℝ) : ∀ groups : List (List (Rec κ)), Apart simAutos groups →
    lastSum simAutos F groups.flatten = (groups.map (lastSum simAutos F)).sum
  | [], _ => rfl
  | g :: gs, h => by
    have h := List.pairwise_cons.1 h
    rw [List.flatten_cons, lastSum_append, lastSum_flatten simAutos F gs h.2, List.map_cons, List.sum_cons]
    intro r hr s hs
    obtain ⟨b, hb, hs⟩ := List.mem_flatten.1 hs
    exact h.1 b hb r hr s hs

theorem fold_pairs (ss : List (ℝ × ℝ)) : ss.foldl (fun a b => (a.1 + b.1, a.2 + b.2)) (0, 0) = ((ss.map Prod.fst).sum, (ss.map Prod.snd).sum) := by
  have key : ∀ (ss : List (ℝ × ℝ)) (a b : ℝ), ss.foldl (fun a b => (a.1 + b.1, a.2 + b.2)) (a, b) = (a + (ss.map Prod.fst).sum, b + (ss.map Prod.snd).sum) := by
    intro ss
    induction ss with
    | nil => intro a b; simp
    | cons s ss ih => intro a b; rw [List.foldl_cons, ih]; simp [add_assoc]
  rw [key, zero_add, zero_add]

theorem master_sums (simAutos : Bool) (sim : κ → List ℂ) (groups : List (List (Rec κ))) (ha : Apart simAutos groups)
    (hs : ∀ g ∈ groups, ∀ r ∈ g, Shaped sim r) :
    ((groups.map fun g => cache simAutos g []).map (sums sim)).foldl (fun a b => (a.1 + b.1, a.2 + b.2)) (0, 0) = sums sim (cache simAutos groups.flatten []) := by
  have hsf : ∀ r ∈ groups.flatten, Shaped sim r := by
    intro r hr
    obtain ⟨g, hg, hr⟩ := List.mem_flatten.1 hr
    exact hs g hg r hr
  rw [fold_pairs, sums_cache simAutos sim _ hsf]
  simp only [List.map_map]
  have e1 : (groups.map (Prod.fst ∘ sums sim ∘ fun g => cache simAutos g [])) = groups.map (chi2 simAutos sim) := by
    apply List.map_congr_left
    intro g hg
    simp only [Function.comp]
    rw [sums_cache simAutos sim g (hs g hg)]
  have e2 : (groups.map (Prod.snd ∘ sums sim ∘ fun g => cache simAutos g [])) = groups.map (weight simAutos) := by
    apply List.map_congr_left
    intro g hg
    simp only [Function.comp]
    rw [sums_cache simAutos sim g (hs g hg)]
  rw [e1, e2]
  congr 1
  · rw [← lastSum_chi simAutos sim _ hsf, lastSum_flatten simAutos _ groups ha]
    congr 1
    apply List.map_congr_left
    intro g hg
    exact (lastSum_chi simAutos sim g (hs g hg)).symm
  · exact (lastSum_flatten simAutos _ groups ha).symm

/-- C124: a master with daemons computes what one process computes that reads all their files, provided that no sample is in the files of two
daemons and that some sample is neither flagged nor zero. -/
theorem c124_master_partial (simAutos : Bool) (groups : List (List (Rec κ))) (ha : Apart simAutos groups) (sims : List (κ → List ℂ))
    (hs : ∀ sim ∈ sims, ∀ g ∈ groups, ∀ r ∈ g, Shaped sim r) (hf : ∀ g ∈ groups, ∀ r ∈ g, r.flags.length = r.data.length)
    (hne : ¬ Empty simAutos groups.flatten) :
    callsMaster (groups.map fun g => cache simAutos g []) none sims = some (calls (cache simAutos groups.flatten []) none sims) := by
  have hw : weight simAutos groups.flatten ≠ 0 := fun h => hne ((weight_zero simAutos _ (by
    intro r hr
    obtain ⟨g, hg, hr⟩ := List.mem_flatten.1 hr
    exact hf g hg r hr)).1 h)
  have key : ∀ (sims : List (κ → List ℂ)), (∀ sim ∈ sims, ∀ g ∈ groups, ∀ r ∈ g, Shaped sim r) → ∀ first,
      callsMaster (groups.map fun g => cache simAutos g []) first sims = some (calls (cache simAutos groups.flatten []) first sims) := by
    intro sims
    induction sims with
    | nil => intro _ first; rfl
    | cons sim sims ih =>
      intro hs first
      have hsf : ∀ r ∈ groups.flatten, Shaped sim r := by
        intro r hr
        obtain ⟨g, hg, hr⟩ := List.mem_flatten.1 hr
        exact hs sim (by simp) g hg r hr
      have e : finishMaster first ((groups.map fun g => cache simAutos g []).map (sums sim)) = some (finish first (sums sim (cache simAutos groups.flatten []))) := by
        unfold finishMaster finish
        rw [master_sums simAutos sim groups ha (hs sim (by simp))]
        have : (sums sim (cache simAutos groups.flatten [])).2 ≠ 0 := by rw [sums_cache simAutos sim _ hsf]; exact hw
        by_cases h1 : first = some 0
        · simp [h1]
        · simp [h1, this]
      have e2 : callsMaster (groups.map fun g => cache simAutos g []) first (sim :: sims) =
        match finishMaster first ((groups.map fun g => cache simAutos g []).map (sums sim)) with
        | none => none
        | some (v, first') => (callsMaster (groups.map fun g => cache simAutos g []) first' sims).map (v :: ·) := rfl
      rw [e2, e]
      simp only
      rw [ih (fun s hs' => hs s (by simp [hs']))]
      rfl
  exact key sims hs none

/-- C124: where there is nothing to fit a single process scores 0, but the master stops with a division by zero: it divides before it looks. -/
theorem c124_empty_violated (simAutos : Bool) (groups : List (List (Rec κ))) (ha : Apart simAutos groups) (sim : κ → List ℂ) (sims : List (κ → List ℂ))
    (hs : ∀ g ∈ groups, ∀ r ∈ g, Shaped sim r) (he : Empty simAutos groups.flatten) :
    callsMaster (groups.map fun g => cache simAutos g []) none (sim :: sims) = none ∧
    ∃ vs, calls (cache simAutos groups.flatten []) none (sim :: sims) = .num 0 :: vs := by
  have hsf : ∀ r ∈ groups.flatten, Shaped sim r := by
    intro r hr
    obtain ⟨g, hg, hr⟩ := List.mem_flatten.1 hr
    exact hs g hg r hr
  have hw : weight simAutos groups.flatten = 0 := (weight_zero simAutos _ (fun r hr => (hsf r hr).1)).2 he
  have hz : (sums sim (cache simAutos groups.flatten [])).2 = 0 := by rw [sums_cache simAutos sim _ hsf]; exact hw
  constructor
  · have e : finishMaster none ((groups.map fun g => cache simAutos g []).map (sums sim)) = none := by
      unfold finishMaster
      rw [master_sums simAutos sim groups ha hs]
      simp [hz]
    have e2 : callsMaster (groups.map fun g => cache simAutos g []) none (sim :: sims) =
        match finishMaster none ((groups.map fun g => cache simAutos g []).map (sums sim)) with
        | none => none
        | some (v, first') => (callsMaster (groups.map fun g => cache simAutos g []) first' sims).map (v :: ·) := rfl
    rw [e2, e]
  · have e : finish none (sums sim (cache simAutos groups.flatten [])) = (.num 0, some 0) := by
      unfold finish
      simp [hz]
    refine ⟨calls (cache simAutos groups.flatten []) (some 0) sims, ?_⟩
    have e2 : calls (cache simAutos groups.flatten []) none (sim :: sims) =
      (finish none (sums sim (cache simAutos groups.flatten []))).1 :: calls (cache simAutos groups.flatten []) (finish none (sums sim (cache simAutos groups.flatten []))).2 sims := rfl
    rw [e2, e]

/-- C124: the daemon whose number is 0 is no daemon: the script fits by itself. -/
theorem c124_daemon_violated (baseport : Int) (n : Int) :
    (n ≠ 0 → ∀ m s, mode baseport (some n) m s = .daemon (baseport + n)) ∧ mode baseport (some 0) false false = .all := by
  constructor
  · intro h m s
    unfold mode
    rw [if_pos (by simpa using h)]
    rfl
  · rfl

/-! ## Examples -/

def one (k : Nat) (x : ℂ) : Rec Nat := ⟨k, false, false, [x], [false]⟩

/-- C124: a sample in the files of two daemons counts twice, and the values differ from those of a single process. -/
theorem c124_twice_violated : ∃ (groups : List (List (Rec Nat))) (sims : List (Nat → List ℂ)) (vs ws : List Value),
    callsMaster (groups.map fun g => cache false g []) none sims = some vs ∧ calls (cache false groups.flatten []) none sims = ws ∧ vs ≠ ws := by
  refine ⟨[[one 0 1], [one 0 1, one 1 1]], [fun _ => [0], fun k => if k = 0 then [1] else [0]], [.num 1, .num (Real.sqrt (1 / 3))], _, ?_, rfl, ?_⟩
  · have h3 : Real.sqrt ((1 + (1 + 1)) / (1 + (1 + 1))) = 1 := by rw [div_self (by norm_num), Real.sqrt_one]
    simp [callsMaster, finishMaster, cache, one, dset, sums, power, quot, h3]
    norm_num
  · have hs : ∀ (f : Nat → List ℂ), (∀ k, (f k).length = 1) → ∀ r ∈ ([[one 0 1], [one 0 1, one 1 1]] : List (List (Rec Nat))).flatten, Shaped f r := by
      intro f hf r hr
      simp [List.flatten] at hr
      rcases hr with rfl | rfl <;> exact ⟨rfl, hf _⟩
    have e := c124_value_partial false ([[one 0 1], [one 0 1, one 1 1]] : List (List (Rec Nat))).flatten (fun _ => [0]) [fun k => if k = 0 then [1] else [0]]
      (by
        intro sim hsim
        rcases List.mem_cons.1 hsim with rfl | h
        · exact hs _ (fun _ => rfl)
        · rw [List.mem_singleton] at h; subst h; exact hs _ (fun k => by split <;> rfl))
      (by
        intro h
        have := h [one 0 1, one 0 1] (one 1 1) [] rfl ⟨Or.inr rfl, rfl⟩ (by simp) 0 (by simp [one])
        simp [one] at this)
      (by simp [chi2, one, Used])
    rw [e]
    intro h
    have h2 := (List.cons.inj (List.cons.inj h).2).1
    have c1 : chi2 false (fun k => if k = 0 then [1] else [0]) ([[one 0 1], [one 0 1, one 1 1]] : List (List (Rec Nat))).flatten = 1 := by
      simp [chi2, one, Used]
    have c0 : chi2 false (fun _ => [0]) ([[one 0 1], [one 0 1, one 1 1]] : List (List (Rec Nat))).flatten = 2 := by
      simp [chi2, one, Used]; norm_num
    beta_reduce at h2
    rw [c1, c0] at h2
    have h3 := Value.num.inj h2
    rw [Real.sqrt_inj (by norm_num) (by norm_num)] at h3
    norm_num at h3

example : chi2 false (fun _ => [0]) [one 0 1, one 1 2] ≠ 0 ∧ ¬ Empty false [one 0 1, one 1 2] := by
  refine ⟨?_, fun h => ?_⟩
  · simp [chi2, one, Used]; norm_num
  · have := h [] (one 0 1) [one 1 2] rfl ⟨Or.inr rfl, rfl⟩ (by simp [one]) 0 (by simp [one])
    simp [one] at this

example : Apart false [[one 0 1], [one 1 2]] := by simp [Apart, one]

end Verif.Fit.Score
