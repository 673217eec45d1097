import Verif.Misc.XrfiSimple
import Mathlib.Analysis.SpecialFunctions.Complex.Log
import Mathlib.Analysis.SpecialFunctions.Log.Base
import Mathlib.Data.Nat.Sqrt
import Mathlib.Tactic.FieldSimp

/-!
# rfi_diagnostic.py (C136)

What is plotted: the largest amplitude of each channel (`-m`, lines 53-57), the fraction of the samples of each channel that are bad (`-d`,
59-66, 71-137), the axis of the channels (44-45, 141-150), the panels (164-165, 207-213), the summary of `--best` (173-194).

Simplified: Python 2 and the numpy of its time (`has_key`, complex numbers compared by their real parts first, a complex number put
into an array of reals loses its imaginary part); exact numbers; what `gen_rfi_thresh` and `flag_by_int` return is a parameter (C100,
C102); `-m` and `-d` are not given together.  What a dictionary holds for a baseline and time is the last record with that key.
-/
set_option linter.unusedSectionVars false
set_option linter.unusedVariables false

noncomputable section
namespace Verif.Misc.RfiDiag
open Verif.Util
open Verif.Misc.XrfiSimple (inner bend bent exceeds Jumps bent_iff exceeds_iff inner_iff map_getElem_fin)

/-! ## Model -/

/-- a record of `uv.all(raw=True)`, rfi_diagnostic.py 49: time, antennas, data, flags (true for bad) -/
structure Rec (n : ℕ) where
  t : ℚ
  i : ℕ
  j : ℕ
  data : Fin n → ℂ
  flags : Fin n → Bool

/-- a name of the command line and the records the selection lets through, rfi_diagnostic.py 40-43 -/
structure File (n : ℕ) where
  name : List Char
  recs : List (Rec n)

variable {n : ℕ}

/-- `bl`, rfi_diagnostic.py 50 -/
abbrev Bl := ℕ × ℕ

/-- is the record one of this baseline, rfi_diagnostic.py 50 -/
def Rec.on (r : Rec n) (bl : Bl) : Bool := decide (r.i = bl.1 ∧ r.j = bl.2)

open Classical in
/-- `f = np.where(np.abs(d) == 0,1,f)`, rfi_diagnostic.py 52 -/
def Rec.bad (r : Rec n) (k : Fin n) : Bool := if ‖r.data k‖ = 0 then true else r.flags k

/-- `data[bl][t]` and `mask[bl][t]`, rfi_diagnostic.py 65-66: the last record -/
def latest (rs : List (Rec n)) (bl : Bl) (t : ℚ) : Option (Rec n) := rs.reverse.find? fun r => r.on bl && decide (r.t = t)

/-- `data_times`, rfi_diagnostic.py 73-74 -/
def timesOf (rs : List (Rec n)) (bl : Bl) : List ℚ := (((rs.filter fun r => r.on bl).map Rec.t).dedup).insertionSort (· ≤ ·)

/-- the rows of the arrays of a baseline, rfi_diagnostic.py 75, 78, 105 -/
def rows (rs : List (Rec n)) (bl : Bl) : List (Rec n) := (timesOf rs bl).filterMap (latest rs bl)

/-- `opts.strategy` -/
inductive Strategy | none | simple | naive | normal
  deriving DecidableEq

/-- what rfi.py finds: the upper threshold and the integrations that are bad, from data and mask -/
structure Finder (n : ℕ) where
  thresh : List (Rec n) → ℝ
  badInt : (R : List (Rec n)) → Fin R.length → Bool

/-- the time part of `simple`, rfi_diagnostic.py 87-92: `np.median(ddt2,axis=1)` is over the channels -/
def bentTime (R : List (Rec n)) (a : Fin R.length) (k : Fin n) : Prop :=
  inner a = false ∨ exceeds (bend (fun a' => R[a'].data k) a) (median ((List.finRange n).map fun k' => bend (fun a' => R[a'].data k') a)) 4

/-- the threshold of `naive`, rfi_diagnostic.py 97-100, for the channels of `d` -/
def naiveLevel (d : Fin n → ℂ) : ℝ :=
  let ad := (List.finRange n).map fun k => ‖d k‖
  median ad + 2 * Real.sqrt (median (ad.map fun x => |x - median ad| ^ 2))

open Classical in
/-- `rfi_counter` after rfi_diagnostic.py 108 -/
def counter (hi : ℝ) (r : Rec n) (k : Fin n) : ℕ := (if r.bad k then 1 else 0) + if hi < ‖r.data k‖ then 1 else 0

/-- `ch_cnt`, rfi_diagnostic.py 109 -/
def chCnt (R : List (Rec n)) (k : Fin n) : ℕ := R.countP fun r => r.bad k

/-- `ch_msk`, rfi_diagnostic.py 110 -/
def chMsk (R : List (Rec n)) (k : Fin n) : Prop := ((((List.finRange n).map (chCnt R)).foldr max 0 : ℕ) : ℝ) * 0.33 < (chCnt R k : ℝ)

/-- `rfi_counter > 0` for row `a` and channel `k`, rfi_diagnostic.py 75-122.  `d`, `i` and `j` in 97 and 114 are those of the last record
that was read. -/
def counted (P : Finder n) (st : Strategy) (rs : List (Rec n)) (bl : Bl) (a : Fin (rows rs bl).length) (k : Fin n) : Prop :=
  let R := rows rs bl
  match st with
  | .none => R[a].bad k = true
  | .simple => R[a].bad k = true ∨ bent 4 R[a].data k ∨ bentTime R a k
  | .naive => R[a].bad k = true ∨ ∃ r, rs.getLast? = some r ∧ naiveLevel r.data < ‖r.data k‖
  | .normal =>
    let hi := P.thresh R
    0 < counter hi R[a] k ∨
      (if (n : ℝ) * 0.33 < ((((List.finRange n).map (counter hi R[a])).sum : ℕ) : ℝ) then True else chMsk R k) ∨
      ∃ r, rs.getLast? = some r ∧ r.i = r.j ∧ P.badInt R a = true

/-- `infected`, `total` and `opts.strategy` -/
structure St (n : ℕ) where
  st : Strategy
  infected : Bl → Fin n → ℕ
  total : Bl → ℕ

/-- `opts.strategy` after rfi_diagnostic.py 46 -/
def stratFor (name : List Char) (st : Strategy) : Strategy :=
  if name.getLast? = some 'r' ∨ name.getLast? = some 'R' then .none else st

open Classical in
/-- what a file adds to `infected[bl]`, rfi_diagnostic.py 128-129 -/
def addInfected (P : Finder n) (st : Strategy) (rs : List (Rec n)) (bl : Bl) (k : Fin n) : ℕ :=
  (List.finRange (rows rs bl).length).countP fun a => decide (counted P st rs bl a k)

/-- one file, rfi_diagnostic.py 40-46, 71-130 -/
def step (P : Finder n) (s : St n) (f : File n) : St n :=
  let st := stratFor f.name s.st
  ⟨st, fun bl k => s.infected bl k + addInfected P st f.recs bl k, fun bl => s.total bl + (rows f.recs bl).length⟩

/-- before the first file, rfi_diagnostic.py 33-37 -/
def init (st : Strategy) : St n := ⟨st, fun _ _ => 0, fun _ => 0⟩

/-- `plot_y` of `-d`, rfi_diagnostic.py 134-136; `none` for a baseline that is not plotted -/
def dwell (P : Finder n) (st : Strategy) (files : List (File n)) (bl : Bl) (k : Fin n) : Option ℝ :=
  let s := files.foldl (step P) (init st)
  if s.total bl = 0 then none else some ((s.infected bl k : ℝ) / s.total bl)

open Classical in
/-- one channel of `-m`, rfi_diagnostic.py 55-57: complex numbers are compared by real part, then imaginary part -/
def holdStep (log : Bool) (y : ℝ) (z : ℂ) : ℝ :=
  let d : ℂ := if log then Complex.log z / Complex.log 10 else z
  if y < d.re ∨ (d.re = y ∧ 0 ≤ d.im) then d.re else y

/-- `plot_y` of `-m`; `none` for a baseline that is not plotted -/
def hold (log : Bool) (files : List (File n)) (bl : Bl) (k : Fin n) : Option ℝ :=
  let zs := ((files.flatMap File.recs).filter fun r => r.on bl).map fun r => r.data k
  if zs = [] then none else some (zs.foldl (holdStep log) 0)

/-- `np.linspace(a, b, n)` -/
def linspace (a b : ℝ) (n k : ℕ) : ℝ := if n = 1 then a else a + (b - a) / (n - 1) * k

/-- `freqs` in MHz, rfi_diagnostic.py 45 -/
def freqs (sfreq sdf : ℝ) (nchan k : ℕ) : ℝ := 1000 * linspace sfreq (sfreq + nchan * sdf) nchan k

/-- `--x_axis` -/
inductive XAxis | freq | z | chan
  deriving DecidableEq

/-- `plot_x`, rfi_diagnostic.py 142-150; `none` is a NameError (`nchan`) -/
def plotX (x : XAxis) (sfreq sdf : ℝ) (nchan k : ℕ) : Option ℝ :=
  match x with
  | .freq => some (freqs sfreq sdf nchan k)
  | .z => some (1427.1 / freqs sfreq sdf nchan k - 1)
  | .chan => none

/-- the panels, rfi_diagnostic.py 164-165, 207-209: is there a place for every baseline; `subplot` raises if not.
`int(math.ceil(float(n)) / m2)` -/
def panelsOk (nbls : ℕ) : Bool :=
  let m2 := Nat.sqrt nbls
  let m1 := nbls / m2
  (List.range nbls).all fun c => decide (c + 1 ≤ m2 * m1)

open Classical in
/-- the last baseline with a given average, rfi_diagnostic.py 184-187 -/
def lastWith (avs : List (Bl × ℝ)) (v : ℝ) : Option Bl := ((avs.reverse.find? fun p => decide (p.2 = v)).map Prod.fst)

open Classical in
/-- `--best`, rfi_diagnostic.py 176-187: worst, median and best baseline -/
def best (avs : List (Bl × ℝ)) : Option Bl × Option Bl × Option Bl :=
  let values := (avs.map Prod.snd).insertionSort (· ≤ ·)
  (lastWith avs (values.getLastD 0), lastWith avs (values.getD (avs.length / 2) 0), lastWith avs (values.headD 0))

/-! ## Specification -/

/-- no two records of a file have the same baseline and time -/
def Once (rs : List (Rec n)) : Prop := rs.Pairwise fun a b => ¬ (a.i = b.i ∧ a.j = b.j ∧ a.t = b.t)

/-- a sample is lost: it is flagged or it is zero -/
def Lost (r : Rec n) (k : Fin n) : Prop := r.flags k = true ∨ r.data k = 0

/-! ## Lemmas -/

theorem bad_iff (r : Rec n) (k : Fin n) : r.bad k = true ↔ Lost r k := by
  unfold Rec.bad Lost
  by_cases h : ‖r.data k‖ = 0
  · rw [if_pos h]; simp [norm_eq_zero.1 h]
  · rw [if_neg h]
    exact ⟨Or.inl, fun q => q.resolve_right fun h' => h (norm_eq_zero.2 h')⟩

theorem on_iff (r : Rec n) (bl : Bl) : r.on bl = true ↔ r.i = bl.1 ∧ r.j = bl.2 := by simp [Rec.on]

theorem latest_mem {rs : List (Rec n)} (h : Once rs) {bl : Bl} {r : Rec n} (hr : r ∈ rs) (hb : r.on bl = true) : latest rs bl r.t = some r := by
  unfold latest
  cases hx : rs.reverse.find? (fun x => x.on bl && decide (x.t = r.t)) with
  | none =>
    rw [List.find?_eq_none] at hx
    exact absurd (by simp [hb]) (hx r (by simpa using hr))
  | some x =>
    have h1 := List.find?_some hx
    have h2 : x ∈ rs := by simpa using List.mem_of_find?_eq_some hx
    simp only [Bool.and_eq_true, decide_eq_true_eq] at h1
    by_contra hne
    have hne' : x ≠ r := fun e => hne (by rw [e])
    obtain ⟨e1, e2⟩ := (on_iff x bl).1 h1.1
    obtain ⟨e3, e4⟩ := (on_iff r bl).1 hb
    obtain ⟨p, hp, rfl⟩ := List.getElem_of_mem h2
    obtain ⟨q, hq, rfl⟩ := List.getElem_of_mem hr
    rcases Nat.lt_trichotomy p q with hpq | hpq | hpq
    · exact List.pairwise_iff_getElem.1 h p q hp hq hpq ⟨e1.trans e3.symm, e2.trans e4.symm, h1.2⟩
    · subst hpq; exact hne' rfl
    · exact List.pairwise_iff_getElem.1 h q p hq hp hpq ⟨e3.trans e1.symm, e4.trans e2.symm, h1.2.symm⟩

theorem rows_perm {rs : List (Rec n)} (h : Once rs) (bl : Bl) : (rows rs bl).Perm (rs.filter fun r => r.on bl) := by
  have hnd : ((rs.filter fun r => r.on bl).map Rec.t).Nodup := by
    rw [List.nodup_iff_pairwise_ne, List.pairwise_map]
    refine (List.Pairwise.filter _ h).imp_of_mem ?_
    intro a b ha hb hab e
    have ha' := (on_iff a bl).1 (List.mem_filter.1 ha).2
    have hb' := (on_iff b bl).1 (List.mem_filter.1 hb).2
    exact hab ⟨ha'.1.trans hb'.1.symm, ha'.2.trans hb'.2.symm, e⟩
  have hp : (timesOf rs bl).Perm ((rs.filter fun r => r.on bl).map Rec.t) := by
    unfold timesOf
    rw [hnd.dedup]
    exact List.perm_insertionSort _ _
  have e : ((rs.filter fun r => r.on bl).map Rec.t).filterMap (latest rs bl) = rs.filter fun r => r.on bl := by
    rw [List.filterMap_map]
    have : ∀ l : List (Rec n), (∀ r ∈ l, r ∈ rs ∧ r.on bl = true) → l.filterMap (latest rs bl ∘ Rec.t) = l := by
      intro l
      induction l with
      | nil => intro _; rfl
      | cons x l ih =>
        intro hl
        obtain ⟨a, b⟩ := hl x (by simp)
        rw [List.filterMap_cons_some (b := x) (by exact latest_mem h a b), ih fun r hr => hl r (by simp [hr])]
    exact this _ fun r hr => List.mem_filter.1 hr
  unfold rows
  exact (hp.filterMap _).trans (by rw [e])

theorem countP_fin {α : Type} (l : List α) (p : α → Bool) : (List.finRange l.length).countP (fun a => p l[a]) = l.countP p := by
  conv_rhs => rw [← map_getElem_fin l]
  rw [List.countP_map]; rfl

theorem count_none (P : Finder n) (rs : List (Rec n)) (h : Once rs) (bl : Bl) (k : Fin n) :
    addInfected P .none rs bl k = rs.countP fun r => r.on bl && r.bad k := by
  classical
  unfold addInfected
  have e : (fun a : Fin (rows rs bl).length => decide (counted P .none rs bl a k)) = fun a => (rows rs bl)[a].bad k := by
    funext a
    unfold counted
    simp
  rw [show (fun a : Fin (rows rs bl).length => @decide (counted P .none rs bl a k) (Classical.propDecidable _)) = fun a => (rows rs bl)[a].bad k from by
    rw [← e], countP_fin (rows rs bl) fun r => r.bad k, (rows_perm h bl).countP_eq, List.countP_filter]
  congr 1; funext r; exact Bool.and_comm _ _

theorem step_none (P : Finder n) (s : St n) (hs : s.st = .none) (f : File n) : (step P s f).st = .none := by
  show stratFor f.name s.st = .none
  unfold stratFor; split
  · rfl
  · exact hs

theorem fold_none (P : Finder n) : ∀ (files : List (File n)) (s : St n), s.st = .none → (∀ f ∈ files, Once f.recs) → ∀ bl k,
    (files.foldl (step P) s).infected bl k = s.infected bl k + (files.flatMap File.recs).countP (fun r => r.on bl && r.bad k) ∧
    (files.foldl (step P) s).total bl = s.total bl + (files.flatMap File.recs).countP fun r => r.on bl
  | [], s, _, _, bl, k => by simp
  | f :: fs, s, hs, ho, bl, k => by
    have hst := step_none P s hs f
    obtain ⟨a, b⟩ := fold_none P fs (step P s f) hst (fun g hg => ho g (by simp [hg])) bl k
    have e0 : stratFor f.name s.st = .none := hst
    have e1 : (step P s f).infected bl k = s.infected bl k + f.recs.countP fun r => r.on bl && r.bad k := by
      unfold step; simp only
      rw [e0, count_none P f.recs (ho f (by simp)) bl k]
    have e2 : (step P s f).total bl = s.total bl + f.recs.countP fun r => r.on bl := by
      unfold step; simp only
      rw [(rows_perm (ho f (by simp)) bl).length_eq, List.countP_eq_length_filter]
    rw [List.foldl_cons, a, b, e1, e2, List.flatMap_cons, List.countP_append, List.countP_append]
    constructor <;> omega

/-! ## Theorems -/

open Classical in
/-- C136, dwell time: with data that are flagged already (strategy `none`), and if no file has two records of one baseline and time, the value
plotted for a baseline and channel is the fraction of its records, in all files, that are flagged or zero in the channel; a baseline
without records is not plotted. -/
theorem c136_dwell_partial (P : Finder n) (files : List (File n)) (h : ∀ f ∈ files, Once f.recs) (bl : Bl) (k : Fin n) (all : List (Rec n))
    (ha : all = (files.flatMap File.recs).filter fun r => decide (r.i = bl.1 ∧ r.j = bl.2)) :
    dwell P .none files bl k = if all = [] then none else some ((all.countP fun r => decide (Lost r k)) / (all.length : ℝ)) := by
  obtain ⟨e1, e2⟩ := fold_none P files (init .none) rfl h bl k
  have el : all.length = (files.flatMap File.recs).countP fun r => r.on bl := by
    rw [ha, List.countP_eq_length_filter]; rfl
  have ec : (all.countP fun r => decide (Lost r k)) = (files.flatMap File.recs).countP fun r => r.on bl && r.bad k := by
    rw [ha, List.countP_filter]
    congr 1; funext r
    rw [Bool.and_comm]
    unfold Rec.on
    congr 1
    exact (Bool.eq_iff_iff.2 ((bad_iff r k).trans decide_eq_true_iff.symm)).symm
  unfold dwell
  simp only
  rw [e1, e2, ← el, ← ec]
  simp only [init, Nat.zero_add]
  by_cases h0 : all = []
  · rw [if_pos h0, if_pos (by rw [h0]; rfl)]
  · rw [if_neg h0, if_neg (fun hh => h0 (List.eq_nil_of_length_eq_zero hh))]

/-- C136, polarisations: of two records of one baseline and time, as two polarisations have them, only the later one counts. -/
theorem c136_polarisation_violated (P : Finder n) (name : List Char) (r1 r2 : Rec n) (hi : r1.i = r2.i) (hj : r1.j = r2.j) (ht : r1.t = r2.t)
    (k : Fin n) [Decidable (Lost r2 k)] :
    dwell P .none [⟨name, [r1, r2]⟩] (r2.i, r2.j) k = some (if Lost r2 k then 1 else 0) := by
  have on1 : r1.on (r2.i, r2.j) = true := (on_iff _ _).2 ⟨hi, hj⟩
  have on2 : r2.on (r2.i, r2.j) = true := (on_iff _ _).2 ⟨rfl, rfl⟩
  have hR : rows [r1, r2] (r2.i, r2.j) = [r2] := by
    unfold rows timesOf latest
    simp [on1, on2, ht]
  have hc : addInfected P .none [r1, r2] (r2.i, r2.j) k = if Lost r2 k then 1 else 0 := by
    have e : ∀ R : List (Rec n), R = [r2] → ((List.finRange R.length).countP fun a => R[a].bad k) = if Lost r2 k then 1 else 0 := by
      rintro R rfl
      by_cases hl : Lost r2 k
      · rw [if_pos hl]; simp [(bad_iff r2 k).2 hl]
      · rw [if_neg hl]
        have : r2.bad k = false := by
          rw [Bool.eq_false_iff]; exact fun h => hl ((bad_iff r2 k).1 h)
        simp [this]
    rw [← e _ hR]
    unfold addInfected
    congr 1
    funext a
    unfold counted
    simp
  have hst : stratFor name .none = .none := by unfold stratFor; simp
  unfold dwell
  simp only [List.foldl_cons, List.foldl_nil, step, init, hst, hR, hc]
  simp

/-- C136, file names: after a file whose name ends in r or R, no file is searched for interference any more. -/
theorem c136_sticky_violated (P : Finder n) (st : Strategy) (f : File n) (c : Char) (hc : f.name.getLast? = some c) (hr : c = 'r' ∨ c = 'R')
    (fs : List (File n)) : dwell P st (f :: fs) = dwell P .none (f :: fs) := by
  have h : ∀ st, stratFor f.name st = .none := by
    intro st; unfold stratFor; rw [if_pos]; rcases hr with rfl | rfl
    · exact Or.inl hc
    · exact Or.inr hc
  have e : step P (init st) f = step P (init .none) f := by
    unfold step init; simp only [h]
  funext bl k
  unfold dwell
  rw [List.foldl_cons, List.foldl_cons, e]

/-- C136, strategy `simple`: a sample counts if it is lost, if it jumps along the channels by four deviations (as in xrfi_simple.py), if its
integration is the first or the last, or if it jumps in time by four times the deviation of the other channels in the same integration. -/
theorem c136_simple (P : Finder n) (rs : List (Rec n)) (bl : Bl) (a : Fin (rows rs bl).length) (k : Fin n) :
    counted P .simple rs bl a k ↔ Lost (rows rs bl)[a] k ∨ Jumps 4 (rows rs bl)[a].data k ∨ (a : ℕ) = 0 ∨ (a : ℕ) + 1 = (rows rs bl).length ∨
      (4 : ℝ) ^ 2 * median ((List.finRange n).map fun k' => bend (fun a' => (rows rs bl)[a'].data k') a) <
        bend (fun a' => (rows rs bl)[a'].data k) a := by
  have hm : 0 ≤ median ((List.finRange n).map fun k' => bend (fun a' => (rows rs bl)[a'].data k') a) := by
    refine le_median ?_ ?_
    · intro h
      rw [List.map_eq_nil_iff] at h
      have := List.mem_finRange k
      rw [h] at this; simp at this
    · intro x hx
      rw [List.mem_map] at hx
      obtain ⟨k', _, rfl⟩ := hx
      unfold bend; split
      · exact Complex.normSq_nonneg _
      · exact le_refl _
  unfold counted
  simp only [bad_iff, bent_iff]
  unfold bentTime
  rw [exceeds_iff hm]
  have hi : inner a = false ↔ (a : ℕ) = 0 ∨ (a : ℕ) + 1 = (rows rs bl).length := by
    rw [Bool.eq_false_iff, Ne, inner_iff]
    have := a.2
    omega
  rw [hi]
  tauto

/-- the median of equal numbers -/
theorem median_const (l : List ℝ) (x : ℝ) (h0 : l ≠ []) (h : ∀ y ∈ l, y = x) : median l = x := by
  classical
  unfold median
  simp only
  have hp := List.perm_insertionSort (fun a b : ℝ => a ≤ b) l
  have hl := hp.length_eq
  have h' : ∀ y ∈ l.insertionSort (fun a b : ℝ => a ≤ b), y = x := fun y hy => h y (hp.mem_iff.1 hy)
  generalize l.insertionSort (fun a b : ℝ => a ≤ b) = s at *
  have hpos : 0 < l.length := List.length_pos_iff.2 h0
  have g : ∀ m, m < s.length → s.getD m 0 = x := by
    intro m hm
    have : s.getD m 0 = s[m] := by simp [List.getD, hm]
    rw [this]; exact h' _ (List.getElem_mem hm)
  rw [g (s.length / 2) (by omega), g (s.length / 2 - 1) (by omega)]
  split <;> linarith

/-- C136, `simple` and bursts: if the data of a baseline are the same in all channels, nothing is counted but what is lost and the first and last
channel and integration, however much the power jumps in time (xrfi_simple.py compares a sample with other times). -/
theorem c136_simple_violated (P : Finder n) (rs : List (Rec n)) (bl : Bl) (g : Fin (rows rs bl).length → ℂ)
    (hg : ∀ a k, (rows rs bl)[a].data k = g a) (a : Fin (rows rs bl).length) (k : Fin n) :
    counted P .simple rs bl a k ↔ Lost (rows rs bl)[a] k ∨ (k : ℕ) = 0 ∨ (k : ℕ) + 1 = n ∨ (a : ℕ) = 0 ∨ (a : ℕ) + 1 = (rows rs bl).length := by
  rw [c136_simple]
  have e1 : ∀ k' : Fin n, bend (fun a' => (rows rs bl)[a'].data k') a = bend g a := by
    intro k'; congr 1; funext a'; exact hg a' k'
  have hb : 0 ≤ bend g a := by
    unfold bend; split
    · exact Complex.normSq_nonneg _
    · exact le_refl _
  have hm : median ((List.finRange n).map fun k' => bend (fun a' => (rows rs bl)[a'].data k') a) = bend g a := by
    refine median_const _ _ ?_ ?_
    · intro h
      rw [List.map_eq_nil_iff] at h
      have := List.mem_finRange k
      rw [h] at this; simp at this
    · intro y hy
      rw [List.mem_map] at hy
      obtain ⟨k', _, rfl⟩ := hy
      exact e1 k'
  have h1 : ¬ (4 : ℝ) ^ 2 * median ((List.finRange n).map fun k' => bend (fun a' => (rows rs bl)[a'].data k') a) <
        bend (fun a' => (rows rs bl)[a'].data k) a := by
    rw [hm, e1]; nlinarith
  have h2 : Jumps 4 (rows rs bl)[a].data k ↔ (k : ℕ) = 0 ∨ (k : ℕ) + 1 = n := by
    unfold Jumps
    constructor
    · rintro (h | h | ⟨i, hi, h⟩)
      · exact Or.inl h
      · exact Or.inr h
      · exfalso
        have hj : ∀ i : Fin (n - 2), Verif.Misc.XrfiSimple.jump (rows rs bl)[a].data i = 0 := by
          intro i; unfold Verif.Misc.XrfiSimple.jump
          rw [hg, hg, hg]
          simp
        have hm0 : median ((List.finRange (n - 2)).map (Verif.Misc.XrfiSimple.jump (rows rs bl)[a].data)) = 0 := by
          refine median_const _ _ ?_ ?_
          · intro h
            rw [List.map_eq_nil_iff] at h
            have := List.mem_finRange i
            rw [h] at this; simp at this
          · intro y hy
            rw [List.mem_map] at hy
            obtain ⟨k', _, rfl⟩ := hy
            exact hj k'
        rw [hm0, hj i] at h
        simp at h
    · rintro (h | h)
      · exact Or.inl h
      · exact Or.inr (Or.inl h)
  rw [h2]
  tauto

/-- C136, strategy `naive`: the data that are compared with a threshold, and the threshold, are those of the last record of the file, whatever
baseline is counted. -/
theorem c136_naive_violated (P : Finder n) (rs : List (Rec n)) (last : Rec n) (hl : rs.getLast? = some last) (bl : Bl)
    (a : Fin (rows rs bl).length) (k : Fin n) (l : List ℝ) (hd : l = (List.finRange n).map fun k => ‖last.data k‖) :
    counted P .naive rs bl a k ↔ Lost (rows rs bl)[a] k ∨
      median l + 2 * Real.sqrt (median (l.map fun x => (x - median l) ^ 2)) < ‖last.data k‖ := by
  unfold counted
  simp only [bad_iff, hl]
  have : naiveLevel last.data = median l + 2 * Real.sqrt (median (l.map fun x => (x - median l) ^ 2)) := by
    unfold naiveLevel
    simp only [← hd, sq_abs]
  constructor
  · rintro (h | ⟨r, hr, h⟩)
    · exact Or.inl h
    · have e := Option.some.inj hr; subst e; rw [this] at h; exact Or.inr h
  · rintro (h | h)
    · exact Or.inl h
    · exact Or.inr ⟨last, rfl, by rw [this]; exact h⟩

theorem sum_counter (hi : ℝ) (r : Rec n) (l : List (Fin n)) : (l.map (counter hi r)).sum =
    (l.countP fun k => @decide (Lost r k) (Classical.propDecidable _)) + l.countP fun k => @decide (hi < ‖r.data k‖) (Classical.propDecidable _) := by
  classical
  induction l with
  | nil => rfl
  | cons k l ih =>
    rw [List.map_cons, List.sum_cons, ih, List.countP_cons, List.countP_cons]
    unfold counter
    have e : (r.bad k = true) = Lost r k := propext (bad_iff r k)
    simp only [e, decide_eq_true_eq]
    omega

theorem counter_pos (hi : ℝ) (r : Rec n) (k : Fin n) : 0 < counter hi r k ↔ Lost r k ∨ hi < ‖r.data k‖ := by
  unfold counter
  rw [← bad_iff]
  by_cases h1 : r.bad k = true <;> by_cases h2 : hi < ‖r.data k‖ <;> simp [h1, h2]

theorem foldr_max_lt (c : ℝ) (x : ℝ) (hc : 0 ≤ c) (hx : 0 ≤ x) : ∀ l : List ℕ, l ≠ [] → (((l.foldr max 0 : ℕ) : ℝ) * c < x ↔ ∀ m ∈ l, (m : ℝ) * c < x)
  | [], h => absurd rfl h
  | [m], _ => by simp
  | m :: m' :: l, _ => by
    rw [List.foldr_cons, List.forall_mem_cons, ← foldr_max_lt c x hc hx (m' :: l) (by simp), Nat.cast_max, max_mul_of_nonneg _ _ hc, max_lt_iff]

open Classical in
/-- C136, the strategy `normal`: what is counted in addition to lost samples are amplitudes above the threshold; whole integrations that have more
than a third of their channels lost or above; channels lost more than a third as often as each other channel; and the bad integrations, if the
last record read is one of an autocorrelation. -/
theorem c136_normal (P : Finder n) (rs : List (Rec n)) (bl : Bl) (a : Fin (rows rs bl).length) (k : Fin n) :
    counted P .normal rs bl a k ↔ Lost (rows rs bl)[a] k ∨ P.thresh (rows rs bl) < ‖(rows rs bl)[a].data k‖ ∨
      (n : ℝ) * 0.33 < ((List.finRange n).countP fun k' => decide (Lost (rows rs bl)[a] k')) +
        ((List.finRange n).countP fun k' => decide (P.thresh (rows rs bl) < ‖(rows rs bl)[a].data k'‖)) ∨
      (∀ k', (((rows rs bl).countP fun r => decide (Lost r k')) : ℝ) * 0.33 < (rows rs bl).countP fun r => decide (Lost r k)) ∨
      (∃ i, (∃ r, rs.getLast? = some r ∧ r.i = i ∧ r.j = i) ∧ P.badInt (rows rs bl) a = true) := by
  have hn : List.finRange n ≠ [] := fun h => by have := List.mem_finRange k; rw [h] at this; cases this
  have hcnt : ∀ k', chCnt (rows rs bl) k' = (rows rs bl).countP fun r => decide (Lost r k') := by
    intro k'
    unfold chCnt
    congr 1
    funext r
    exact Bool.eq_iff_iff.2 ((bad_iff r k').trans decide_eq_true_iff.symm)
  have hch : chMsk (rows rs bl) k ↔
      ∀ k', (((rows rs bl).countP fun r => decide (Lost r k')) : ℝ) * 0.33 < (rows rs bl).countP fun r => decide (Lost r k) := by
    unfold chMsk
    rw [foldr_max_lt 0.33 _ (by norm_num) (Nat.cast_nonneg _) _ (by simpa using hn), List.forall_mem_map]
    simp only [List.mem_finRange, true_implies, hcnt]
  unfold counted
  simp only
  rw [counter_pos, sum_counter]
  rw [show ∀ p q : Prop, (if p then True else q) = (p ∨ q) from fun p q => by by_cases p <;> simp_all]
  rw [hch, Nat.cast_add]
  constructor
  · rintro ((h | h) | (h | h) | ⟨r, hr, hij, hb⟩)
    · exact .inl h
    · exact .inr (.inl h)
    · exact .inr (.inr (.inl h))
    · exact .inr (.inr (.inr (.inl h)))
    · exact .inr (.inr (.inr (.inr ⟨r.i, ⟨r, hr, rfl, hij.symm⟩, hb⟩)))
  · rintro (h | h | h | h | ⟨i, ⟨r, hr, hi, hj⟩, hb⟩)
    · exact .inl (.inl h)
    · exact .inl (.inr h)
    · exact .inr (.inl (.inl h))
    · exact .inr (.inl (.inr h))
    · exact .inr (.inr ⟨r, hr, hi.trans hj.symm, hb⟩)

/-- C136, strategy `normal`: integrations that autocorrelations show to be bad are counted for every baseline if the last record of the file is an
autocorrelation, and for none if it is not. -/
theorem c136_auto_violated (P : Finder n) (rs : List (Rec n)) (last : Rec n) (hl : rs.getLast? = some last) (bl : Bl)
    (a : Fin (rows rs bl).length) (k : Fin n) :
    (last.i = last.j → P.badInt (rows rs bl) a = true → counted P .normal rs bl a k) ∧
    (last.i ≠ last.j → ∀ b, counted P .normal rs bl a k ↔ counted { P with badInt := b } .normal rs bl a k) := by
  unfold counted
  simp only [hl]
  constructor
  · intro h1 h2
    exact Or.inr (Or.inr ⟨last, rfl, h1, h2⟩)
  · intro h b
    have e : ∀ X : Prop, ¬ ∃ r, some last = some r ∧ r.i = r.j ∧ X := by
      rintro X ⟨r, hr, h', _⟩
      have := Option.some.inj hr; subst this; exact h h'
    simp only [e, or_false]

/-- what is compared in one channel -/
def shown (log : Bool) (z : ℂ) : ℝ := if log then Real.log ‖z‖ / Real.log 10 else z.re

theorem holdStep_eq (log : Bool) (y : ℝ) (z : ℂ) : holdStep log y z = max y (shown log z) := by
  have e : (if log then Complex.log z / Complex.log 10 else z : ℂ).re = shown log z := by
    unfold shown
    cases log
    · simp
    · simp only [if_true]
      have h10 : Complex.log 10 = ((Real.log 10 : ℝ) : ℂ) := by
        rw [Complex.ofReal_log (by norm_num)]; norm_num
      rw [h10, Complex.div_ofReal_re, Complex.log_re]
  unfold holdStep
  simp only [e]
  by_cases h : y < shown log z ∨ (shown log z = y ∧ 0 ≤ (if log then Complex.log z / Complex.log 10 else z : ℂ).im)
  · rw [if_pos h]
    rcases h with h | h
    · rw [max_eq_right h.le]
    · rw [h.1, max_self]
  · rw [if_neg h]
    push Not at h
    rw [max_eq_left h.1]

/-- the value held: the largest of zero and what is compared -/
theorem fold_hold (log : Bool) : ∀ (zs : List ℂ) (y : ℝ), y ≤ zs.foldl (holdStep log) y ∧ (∀ z ∈ zs, shown log z ≤ zs.foldl (holdStep log) y) ∧
    (zs.foldl (holdStep log) y = y ∨ ∃ z ∈ zs, zs.foldl (holdStep log) y = shown log z)
  | [], y => by simp
  | z :: zs, y => by
    obtain ⟨a, b, c⟩ := fold_hold log zs (holdStep log y z)
    rw [List.foldl_cons]
    have e := holdStep_eq log y z
    have h1 : y ≤ holdStep log y z := by rw [e]; exact le_max_left _ _
    have h2 : shown log z ≤ holdStep log y z := by rw [e]; exact le_max_right _ _
    refine ⟨h1.trans a, ?_, ?_⟩
    · intro w hw
      rcases List.mem_cons.1 hw with rfl | hw
      · exact h2.trans a
      · exact b w hw
    · rcases c with c | ⟨w, hw, c⟩
      · rcases max_choice y (shown log z) with q | q
        · left; rw [c, e, q]
        · right; exact ⟨z, by simp, by rw [c, e, q]⟩
      · right; exact ⟨w, by simp [hw], c⟩

/-- C136, maximum hold: if the data of a baseline in a channel are real and not negative (as autocorrelations are), the value plotted is the largest
amplitude in all files. -/
theorem c136_hold_partial (files : List (File n)) (bl : Bl) (k : Fin n) (all : List (Rec n))
    (ha : all = (files.flatMap File.recs).filter fun r => decide (r.i = bl.1 ∧ r.j = bl.2)) (h0 : all ≠ [])
    (hr : ∀ r ∈ all, (r.data k).im = 0 ∧ 0 ≤ (r.data k).re) :
    ∃ y, hold false files bl k = some y ∧ (∀ r ∈ all, ‖r.data k‖ ≤ y) ∧ ∃ r ∈ all, ‖r.data k‖ = y := by
  have hn : ∀ r ∈ all, ‖r.data k‖ = shown false (r.data k) := by
    intro r h
    obtain ⟨a, b⟩ := hr r h
    have e : r.data k = (((r.data k).re : ℝ) : ℂ) := Complex.ext rfl (by simpa using a)
    rw [e, Complex.norm_real, Real.norm_eq_abs, abs_of_nonneg b]
    simp [shown]
  have hz : ((files.flatMap File.recs).filter fun r => r.on bl).map (fun r => r.data k) = all.map fun r => r.data k := by rw [ha]; rfl
  unfold hold
  simp only [hz]
  rw [if_neg (by simpa using h0)]
  obtain ⟨a, b, c⟩ := fold_hold false (all.map fun r => r.data k) 0
  refine ⟨_, rfl, ?_, ?_⟩
  · intro r h
    rw [hn r h]; exact b _ (List.mem_map.2 ⟨r, h, rfl⟩)
  · rcases c with c | ⟨z, hz, c⟩
    · obtain ⟨r, h⟩ := List.exists_mem_of_ne_nil _ h0
      refine ⟨r, h, ?_⟩
      have := b _ (List.mem_map.2 ⟨r, h, rfl⟩)
      rw [c] at this ⊢
      rw [← hn r h] at this
      exact le_antisymm this (norm_nonneg _)
    · obtain ⟨r, h, rfl⟩ := List.mem_map.1 hz
      exact ⟨r, h, by rw [c, hn r h]⟩

/-- C136, maximum hold of complex data: what is plotted is not an amplitude but the largest real part, and zero if all are negative. -/
theorem c136_hold_violated (files : List (File n)) (bl : Bl) (k : Fin n) (all : List (Rec n))
    (ha : all = (files.flatMap File.recs).filter fun r => decide (r.i = bl.1 ∧ r.j = bl.2)) (h0 : all ≠ []) :
    ∃ y, hold false files bl k = some y ∧ 0 ≤ y ∧ (∀ r ∈ all, (r.data k).re ≤ y) ∧ (y = 0 ∨ ∃ r ∈ all, y = (r.data k).re) := by
  have hz : ((files.flatMap File.recs).filter fun r => r.on bl).map (fun r => r.data k) = all.map fun r => r.data k := by rw [ha]; rfl
  unfold hold
  simp only [hz]
  rw [if_neg (by simpa using h0)]
  obtain ⟨a, b, c⟩ := fold_hold false (all.map fun r => r.data k) 0
  refine ⟨_, rfl, a, ?_, ?_⟩
  · intro r h
    have := b _ (List.mem_map.2 ⟨r, h, rfl⟩)
    simpa [shown] using this
  · rcases c with c | ⟨z, hz, c⟩
    · exact Or.inl c
    · obtain ⟨r, h, rfl⟩ := List.mem_map.1 hz
      exact Or.inr ⟨r, h, by simpa [shown] using c⟩

/-- C136, maximum hold on a logarithmic scale: if the largest amplitude is at least one, its logarithm is plotted. -/
theorem c136_log_partial (files : List (File n)) (bl : Bl) (k : Fin n) (all : List (Rec n))
    (ha : all = (files.flatMap File.recs).filter fun r => decide (r.i = bl.1 ∧ r.j = bl.2)) (r : Rec n) (hr : r ∈ all)
    (hmax : ∀ x ∈ all, ‖x.data k‖ ≤ ‖r.data k‖) (h1 : 1 ≤ ‖r.data k‖) :
    hold true files bl k = some (Real.logb 10 ‖r.data k‖) := by
  have hz : ((files.flatMap File.recs).filter fun r => r.on bl).map (fun r => r.data k) = all.map fun r => r.data k := by rw [ha]; rfl
  have h10 : 0 < Real.log 10 := Real.log_pos (by norm_num)
  have h0 : all ≠ [] := List.ne_nil_of_mem hr
  unfold hold
  simp only [hz]
  rw [if_neg (by simpa using h0)]
  obtain ⟨a, b, c⟩ := fold_hold true (all.map fun r => r.data k) 0
  have hb := b _ (List.mem_map.2 ⟨r, hr, rfl⟩)
  have es : ∀ z : ℂ, shown true z = Real.logb 10 ‖z‖ := fun z => by simp [shown, Real.logb]
  rw [es] at hb
  have hpos : 0 ≤ Real.logb 10 ‖r.data k‖ := Real.logb_nonneg (by norm_num) h1
  congr 1
  refine le_antisymm ?_ hb
  rcases c with c | ⟨z, hz, c⟩
  · rw [c]; exact hpos
  · obtain ⟨x, hx, rfl⟩ := List.mem_map.1 hz
    rw [c, es]
    by_cases hx0 : ‖x.data k‖ = 0
    · rw [hx0]; simpa using hpos
    · exact Real.logb_le_logb_of_le (by norm_num) (lt_of_le_of_ne (norm_nonneg _) (Ne.symm hx0)) (hmax x hx)

/-- C136, small amplitudes on a logarithmic scale: if all amplitudes are below one, zero is plotted, the logarithm of one. -/
theorem c136_log_violated (files : List (File n)) (bl : Bl) (k : Fin n) (all : List (Rec n))
    (ha : all = (files.flatMap File.recs).filter fun r => decide (r.i = bl.1 ∧ r.j = bl.2)) (h0 : all ≠ [])
    (hs : ∀ r ∈ all, 0 < ‖r.data k‖ ∧ ‖r.data k‖ < 1) : hold true files bl k = some 0 ∧ ∀ r ∈ all, Real.logb 10 ‖r.data k‖ < 0 := by
  have hz : ((files.flatMap File.recs).filter fun r => r.on bl).map (fun r => r.data k) = all.map fun r => r.data k := by rw [ha]; rfl
  have es : ∀ z : ℂ, shown true z = Real.logb 10 ‖z‖ := fun z => by simp [shown, Real.logb]
  have hneg : ∀ r ∈ all, Real.logb 10 ‖r.data k‖ < 0 := fun r h => Real.logb_neg (by norm_num) (hs r h).1 (hs r h).2
  refine ⟨?_, hneg⟩
  unfold hold
  simp only [hz]
  rw [if_neg (by simpa using h0)]
  obtain ⟨a, b, c⟩ := fold_hold true (all.map fun r => r.data k) 0
  rcases c with c | ⟨z, hz, c⟩
  · rw [c]
  · obtain ⟨x, hx, rfl⟩ := List.mem_map.1 hz
    rw [es] at c
    have := hneg x hx
    linarith

/-- C136, axis: the frequency plotted for a channel exceeds its own by a part of a channel that grows from nothing for the first one to a whole
channel for the last. -/
theorem c136_axis_partial (sfreq sdf : ℝ) (nchan k : ℕ) (hn : 2 ≤ nchan) :
    ∃ x, plotX .freq sfreq sdf nchan k = some x ∧ x = 1000 * (sfreq + k * sdf) + 1000 * sdf * ((k : ℝ) / (nchan - 1)) := by
  refine ⟨_, rfl, ?_⟩
  have h1 : (nchan : ℝ) - 1 ≠ 0 := by
    have : (2 : ℝ) ≤ nchan := by exact_mod_cast hn
    intro h; linarith
  unfold freqs linspace
  rw [if_neg (by omega)]
  field_simp
  ring

/-- C136, axis: it is the channel's own only for the first channel. -/
theorem c136_axis_violated (sfreq sdf : ℝ) (hs : sdf ≠ 0) (nchan k : ℕ) (hn : 2 ≤ nchan) :
    plotX .freq sfreq sdf nchan k = some (1000 * (sfreq + k * sdf)) ↔ k = 0 := by
  obtain ⟨x, e, hx⟩ := c136_axis_partial sfreq sdf nchan k hn
  have h1 : (0 : ℝ) < (nchan : ℝ) - 1 := by
    have : (2 : ℝ) ≤ nchan := by exact_mod_cast hn
    linarith
  rw [e, hx]
  constructor
  · intro h
    have h := Option.some.inj h
    have : 1000 * sdf * ((k : ℝ) / (nchan - 1)) = 0 := by linarith
    have h2 : (k : ℝ) / (nchan - 1) = 0 := by
      rcases mul_eq_zero.1 this with h | h
      · exact absurd (by linarith : sdf = 0) hs
      · exact h
    rcases div_eq_zero_iff.1 h2 with h | h
    · exact_mod_cast h
    · exact absurd h h1.ne'
  · rintro rfl; simp

/-- C136, redshifts: the redshift plotted for a frequency is that of a line at 1427.1 MHz, not that of hydrogen at 1420.40575 MHz, and not even that
for the first channel. -/
theorem c136_redshift_violated (sfreq sdf : ℝ) (hs : 0 < sfreq) (nchan : ℕ) : plotX .z sfreq sdf nchan 0 ≠ some (1420.40575 / (1000 * sfreq) - 1) := by
  unfold plotX freqs linspace
  simp only [Nat.cast_zero, mul_zero, add_zero, ite_self]
  intro h
  have h := Option.some.inj h
  have h2 : (1427.1 : ℝ) / (1000 * sfreq) = 1420.40575 / (1000 * sfreq) := by linarith
  rw [div_left_inj' (by positivity)] at h2
  norm_num at h2

/-- C136, channel numbers: cannot be had. -/
theorem c136_chan_violated (sfreq sdf : ℝ) (nchan k : ℕ) : plotX .chan sfreq sdf nchan k = none := rfl

/-- C136, panels: there is a place for every baseline just if their number is a multiple of the whole part of its root; else the script stops. -/
theorem c136_panels_violated (nbls : ℕ) (h : 0 < nbls) : panelsOk nbls = true ↔ ∃ m c, m ^ 2 ≤ nbls ∧ nbls < (m + 1) ^ 2 ∧ nbls = m * c := by
  have hs : 0 < Nat.sqrt nbls := Nat.sqrt_pos.2 h
  unfold panelsOk
  simp only [List.all_eq_true, List.mem_range, decide_eq_true_eq]
  constructor
  · intro hh
    have h1 := hh (nbls - 1) (by omega)
    have h2 := Nat.mul_div_le nbls (Nat.sqrt nbls)
    exact ⟨Nat.sqrt nbls, nbls / Nat.sqrt nbls, Nat.sqrt_le' nbls, Nat.lt_succ_sqrt' nbls, by omega⟩
  · rintro ⟨m, c, h1, h2, h3⟩ x hx
    have hm : Nat.sqrt nbls = m := by
      refine le_antisymm ?_ (Nat.le_sqrt'.2 h1)
      exact Nat.lt_succ_iff.1 (Nat.sqrt_lt'.2 h2)
    rw [hm, h3, Nat.mul_div_cancel_left _ (hm ▸ hs)]
    omega

theorem lastWith_some (avs : List (Bl × ℝ)) (v : ℝ) (h : v ∈ avs.map Prod.snd) : ∃ b, lastWith avs v = some b ∧ (b, v) ∈ avs := by
  classical
  obtain ⟨p, hp, rfl⟩ := List.mem_map.1 h
  unfold lastWith
  cases hx : avs.reverse.find? (fun q => @decide (q.2 = p.2) (Classical.propDecidable _)) with
  | none =>
    rw [List.find?_eq_none] at hx
    exact absurd (by simp) (hx p (by simpa using hp))
  | some q =>
    have h1 := List.find?_some hx
    have h2 : q ∈ avs := by simpa using List.mem_of_find?_eq_some hx
    simp only [decide_eq_true_eq] at h1
    exact ⟨q.1, rfl, by rw [← h1]; exact h2⟩

/-- C136, `--best`: the baselines shown as the worst, the median and the best have the largest average, an average that at most half of the others are
below and less than half above, and the smallest. -/
theorem c136_best (avs : List (Bl × ℝ)) (h0 : avs ≠ []) :
    ∃ hi med lo vh vm vl, best avs = (some hi, some med, some lo) ∧ (hi, vh) ∈ avs ∧ (∀ p ∈ avs, p.2 ≤ vh) ∧ (lo, vl) ∈ avs ∧ (∀ p ∈ avs, vl ≤ p.2) ∧
      (med, vm) ∈ avs ∧ 2 * avs.countP (fun p => decide (p.2 < vm)) ≤ avs.length ∧ 2 * avs.countP (fun p => decide (vm < p.2)) < avs.length := by
  classical
  set s := (avs.map Prod.snd).insertionSort (fun a b : ℝ => a ≤ b) with hs
  have hp : s.Perm (avs.map Prod.snd) := List.perm_insertionSort _ _
  have hsort : s.Pairwise (· ≤ ·) := List.pairwise_insertionSort _ _
  have hlen : s.length = avs.length := by rw [hp.length_eq, List.length_map]
  have hpos : 0 < s.length := by rw [hlen]; exact List.length_pos_iff.2 h0
  have hm : s.length / 2 < s.length := by omega
  have e1 : s.getLastD 0 = s[s.length - 1] := by
    rw [List.getLastD_eq_getLast?, List.getLast?_eq_getElem?, List.getElem?_eq_getElem (by omega)]; rfl
  have e2 : s.getD (avs.length / 2) 0 = s[s.length / 2] := by rw [← hlen]; simp [List.getD, hm]
  have e3 : s.headD 0 = s[0] := by
    have g : ∀ (l : List ℝ) (h : 0 < l.length), l.headD 0 = l[0] := by
      intro l h
      cases l with
      | nil => simp at h
      | cons a l => rfl
    exact g s hpos
  obtain ⟨hi, a1, a2⟩ := lastWith_some avs s[s.length - 1] (hp.mem_iff.1 (List.getElem_mem _))
  obtain ⟨med, b1, b2⟩ := lastWith_some avs s[s.length / 2] (hp.mem_iff.1 (List.getElem_mem _))
  obtain ⟨lo, c1, c2⟩ := lastWith_some avs s[0] (hp.mem_iff.1 (List.getElem_mem _))
  refine ⟨hi, med, lo, _, _, _, ?_, a2, ?_, c2, ?_, b2, ?_, ?_⟩
  · unfold best
    have : (avs.map Prod.snd).insertionSort (fun a b : ℝ => a ≤ b) = s := rfl
    simp only [this, e1, e2, e3, a1, b1, c1]
  · intro p hpm
    have : p.2 ∈ s := hp.mem_iff.2 (List.mem_map.2 ⟨p, hpm, rfl⟩)
    obtain ⟨q, hq, e⟩ := List.getElem_of_mem this
    rw [← e]
    rcases Nat.lt_or_ge q (s.length - 1) with h | h
    · exact List.pairwise_iff_getElem.1 hsort q _ hq (by omega) h
    · have : q = s.length - 1 := by omega
      subst this; exact le_refl _
  · intro p hpm
    have : p.2 ∈ s := hp.mem_iff.2 (List.mem_map.2 ⟨p, hpm, rfl⟩)
    obtain ⟨q, hq, e⟩ := List.getElem_of_mem this
    rw [← e]
    rcases Nat.eq_zero_or_pos q with h | h
    · subst h; exact le_refl _
    · exact List.pairwise_iff_getElem.1 hsort 0 q (by omega) hq h
  · have e : avs.countP (fun p => decide (p.2 < s[s.length / 2])) = s.countP fun x => decide (x < s[s.length / 2]) := by
      rw [hp.countP_eq, List.countP_map]; rfl
    have h1 : s.countP (fun x => decide (x < s[s.length / 2])) = (s.take (s.length / 2)).countP (fun x => decide (x < s[s.length / 2])) +
        (s.drop (s.length / 2)).countP (fun x => decide (x < s[s.length / 2])) := by rw [← List.countP_append, List.take_append_drop]
    have h2 : (s.drop (s.length / 2)).countP (fun x => decide (x < s[s.length / 2])) = 0 := by
      rw [List.countP_eq_zero]
      intro x hx
      obtain ⟨q, hq, e⟩ := List.getElem_of_mem hx
      rw [List.getElem_drop] at e
      rw [List.length_drop] at hq
      simp only [decide_eq_true_eq, not_lt]
      rw [← e]
      rcases Nat.eq_zero_or_pos q with h | h
      · subst h; exact le_refl _
      · exact List.pairwise_iff_getElem.1 hsort _ _ hm (by omega) (by omega)
    have h3 : (s.take (s.length / 2)).countP (fun x => decide (x < s[s.length / 2])) ≤ s.length / 2 := by
      refine List.countP_le_length.trans ?_
      rw [List.length_take]; omega
    rw [e, h1, h2]; omega
  · have e : avs.countP (fun p => decide (s[s.length / 2] < p.2)) = s.countP fun x => decide (s[s.length / 2] < x) := by
      rw [hp.countP_eq, List.countP_map]; rfl
    have := countP_gt_le (m := s[s.length / 2]) s (s.length / 2 + 1) (by omega) (sorted_take hsort _ hm)
    rw [e]; omega

/-! ## Examples -/

section Example

/-- a record of one channel -/
def one (t : ℚ) (z : ℂ) (f : Bool) : Rec 1 := ⟨t, 0, 1, fun _ => z, fun _ => f⟩

/-- a record of three channels that are alike -/
def three (t : ℚ) (z : ℂ) : Rec 3 := ⟨t, 0, 1, fun _ => z, fun _ => false⟩

/-- one of three samples is flagged, another is zero -/
example (P : Finder 1) : dwell P .none [⟨"a".toList, [one 0 2 false, one 1 0 false]⟩, ⟨"b".toList, [one 2 3 true]⟩] (0, 1) 0 = some (2 / 3) := by
  rw [c136_dwell_partial P _ (by simp [Once, one]) (0, 1) 0 [one 0 2 false, one 1 0 false, one 2 3 true] (by simp [one])]
  simp [Lost, one]

/-- the first polarisation is flagged and is not counted -/
example (P : Finder 1) : dwell P .none [⟨"a".toList, [one 0 2 true, one 0 2 false]⟩] (0, 1) 0 = some 0 := by
  classical
  exact (c136_polarisation_violated P "a".toList (one 0 2 true) (one 0 2 false) rfl rfl rfl 0).trans (by simp [Lost, one])

example (P : Finder 1) (fs : List (File 1)) : dwell P .normal (⟨"zen.uvR".toList, []⟩ :: fs) = dwell P .none (⟨"zen.uvR".toList, []⟩ :: fs) :=
  c136_sticky_violated P _ _ 'R' rfl (Or.inr rfl) _

/-- a burst in all channels of the second of four integrations is not noticed -/
example (P : Finder 3) (a : Fin (rows [three 0 1, three 1 100, three 2 1, three 3 1] (0, 1)).length) (h0 : (a : ℕ) ≠ 0)
    (h1 : (a : ℕ) + 1 ≠ (rows [three 0 1, three 1 100, three 2 1, three 3 1] (0, 1)).length) :
    ¬ counted P .simple [three 0 1, three 1 100, three 2 1, three 3 1] (0, 1) a 1 := by
  have hm : ∀ r ∈ rows [three 0 1, three 1 100, three 2 1, three 3 1] (0, 1), r ∈ [three 0 1, three 1 100, three 2 1, three 3 1] := by
    intro r hr
    obtain ⟨t, -, ht⟩ := List.mem_filterMap.1 hr
    exact List.mem_reverse.1 (List.mem_of_find?_eq_some ht)
  have hs : ∀ r ∈ rows [three 0 1, three 1 100, three 2 1, three 3 1] (0, 1), (∀ k, r.data k = r.data 0) ∧ ¬ Lost r 1 := by
    intro r hr
    have := hm r hr
    simp only [List.mem_cons, List.not_mem_nil, or_false] at this
    rcases this with rfl | rfl | rfl | rfl <;> simp [three, Lost]
  rw [c136_simple_violated P _ _ (fun a => (rows [three 0 1, three 1 100, three 2 1, three 3 1] (0, 1))[a].data 0)
    (fun a k => (hs _ (List.getElem_mem a.isLt)).1 k) a 1]
  rintro (h | h | h | h | h)
  · exact (hs _ (List.getElem_mem a.isLt)).2 h
  · exact absurd h (by decide)
  · exact absurd h (by decide)
  · exact h0 h
  · exact h1 h

example : (rows [three 0 1, three 1 100, three 2 1, three 3 1] (0, 1)).length = 4 := by
  have : timesOf [three 0 1, three 1 100, three 2 1, three 3 1] (0, 1) = [0, 1, 2, 3] := by
    norm_num [timesOf, three, Rec.on, List.insertionSort, List.orderedInsert]
  unfold rows
  rw [this]
  simp [latest, three, Rec.on]

/-- an amplitude above the threshold counts -/
example (hP : Finder 1) (a : Fin (rows [one 0 9 false] (0, 1)).length) (h : (rows [one 0 9 false] (0, 1))[a] = one 0 9 false) :
    counted { hP with thresh := fun _ => 5 } .normal [one 0 9 false] (0, 1) a 0 :=
  (c136_normal { hP with thresh := fun _ => 5 } [one 0 9 false] (0, 1) a 0).2 (.inr (.inl (by rw [h]; norm_num [one])))

/-- every row of every baseline is judged with the last record that was read -/
example (P : Finder 1) (a : Fin (rows [one 0 1 false] (0, 1)).length) :
    counted P .naive [one 0 1 false] (0, 1) a 0 ↔ Lost (rows [one 0 1 false] (0, 1))[a] 0 ∨
      median [1] + 2 * Real.sqrt (median ([1].map fun x : ℝ => (x - median [1]) ^ 2)) < ‖(one 0 1 false).data 0‖ :=
  c136_naive_violated P _ (one 0 1 false) rfl _ a 0 [1] (by simp [one])

example (P : Finder 1) (hP : ∀ R a, P.badInt R a = true) (a : Fin (rows [one 0 1 false, ⟨0, 2, 2, fun _ => 1, fun _ => false⟩] (0, 1)).length) :
    counted P .normal [one 0 1 false, ⟨0, 2, 2, fun _ => 1, fun _ => false⟩] (0, 1) a 0 :=
  (c136_auto_violated P _ ⟨0, 2, 2, fun _ => 1, fun _ => false⟩ rfl _ a 0).1 rfl (hP _ a)

example : ∃ y, hold false [⟨"a".toList, [one 0 2 false, one 1 7 false]⟩] (0, 1) 0 = some y ∧ 7 ≤ y := by
  obtain ⟨y, hy, h, -⟩ := c136_hold_partial [⟨"a".toList, [one 0 2 false, one 1 7 false]⟩] (0, 1) 0 [one 0 2 false, one 1 7 false] (by simp [one]) (by simp)
    (by simp [one])
  exact ⟨y, hy, by simpa [one] using h (one 1 7 false) (by simp)⟩

/-- an amplitude of five is shown as three -/
example : hold false [⟨"a".toList, [one 0 ⟨3, 4⟩ false]⟩] (0, 1) 0 = some 3 := by
  obtain ⟨y, hy, h0, h, h1⟩ := c136_hold_violated [⟨"a".toList, [one 0 ⟨3, 4⟩ false]⟩] (0, 1) 0 [one 0 ⟨3, 4⟩ false] (by simp [one]) (by simp)
  rw [hy]
  have h3 := h (one 0 ⟨3, 4⟩ false) (by simp)
  rcases h1 with h1 | ⟨r, hr, h1⟩
  · simp only [one] at h3; linarith
  · simp only [List.mem_singleton] at hr
    rw [h1, hr]; rfl

example : hold true [⟨"a".toList, [one 0 100 false]⟩] (0, 1) 0 = some (Real.logb 10 ‖(100 : ℂ)‖) :=
  c136_log_partial [⟨"a".toList, [one 0 100 false]⟩] (0, 1) 0 [one 0 100 false] (by simp [one]) (one 0 100 false) (by simp) (by simp) (by simp [one])

example : hold true [⟨"a".toList, [one 0 (1 / 2) false]⟩] (0, 1) 0 = some 0 :=
  (c136_log_violated [⟨"a".toList, [one 0 (1 / 2) false]⟩] (0, 1) 0 [one 0 (1 / 2) false] (by simp [one]) (by simp) (by
    intro r hr
    simp only [List.mem_singleton] at hr
    subst hr
    have : ‖(1 / 2 : ℂ)‖ = 1 / 2 := by simp
    simp only [one]
    rw [this]; norm_num)).1

/-- the last of three channels of 1 MHz from 100 MHz is shown at 103 MHz rather than 102 -/
example : ∃ x, plotX .freq 0.1 0.001 3 2 = some x ∧ x = 103 := by
  obtain ⟨x, h, e⟩ := c136_axis_partial 0.1 0.001 3 2 (by norm_num)
  exact ⟨x, h, by rw [e]; norm_num⟩

example : plotX .freq 0.1 0.001 3 2 ≠ some (1000 * (0.1 + ((2 : ℕ) : ℝ) * 0.001)) := fun h =>
  absurd ((c136_axis_violated 0.1 0.001 (by norm_num) 3 2 (by norm_num)).1 h) (by norm_num)

/-- five baselines have no room, six have -/
example : panelsOk 5 = false ∧ panelsOk 6 = true := by decide +kernel

example : best [((0, 1), 3), ((0, 2), 1), ((1, 2), 2)] = (some (0, 1), some (1, 2), some (0, 2)) := by
  have h : ([3, 1, 2] : List ℝ).insertionSort (· ≤ ·) = [1, 2, 3] := by
    norm_num [List.insertionSort, List.orderedInsert]
  simp only [best, List.map_cons, List.map_nil, h, lastWith]
  norm_num

end Example

end Verif.Misc.RfiDiag
