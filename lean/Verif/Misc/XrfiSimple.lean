import Verif.Util.Median
import Mathlib.Analysis.Complex.Norm
import Mathlib.Analysis.Real.Sqrt
import Mathlib.Data.List.ProdSigma
import Mathlib.Tactic.Positivity
/-!
# C130: flagging with xrfi_simple.py

Model of `/repo/scripts/xrfi_simple.py` 41-136 for one file: the records selected are gathered in dictionaries, statistics flag more of them, the
flags may be combined, saved or loaded, and all records are written with the flags found.  Numbers are exact; times are numbers (no NaN).
The script calls `keys().sort()` and `values()[0]`, which python 3 rejects; the model is of python 2.
-/
noncomputable section
namespace Verif.Misc.XrfiSimple
open Verif.Util

/-! ## Model -/

/-- a record: time, `ij2bl(i,j)`, `uv['pol']`, data and flags (true for bad), xrfi_simple.py 58-61; `selected` is what
`uv_selector` decides of it (C79) -/
structure Rec (n : Nat) where
  t : ℚ
  bl : Int
  pol : Int
  data : Fin n → ℂ
  flags : Fin n → Bool
  selected : Bool

/-- the options, 12-27; `chans` are the channels of `--chan` -/
structure Opts (n : Nat) where
  chans : List (Fin n)
  nsig : ℝ
  df : Option ℝ
  dt : Option ℝ
  thresh : Nat

/-- the keys of `mask[pol][bl][t]` -/
abbrev Key := Int × Int × ℚ

/-- 60, 61, 70 -/
def Rec.key {n : Nat} (r : Rec n) : Key := (r.pol, r.bl, r.t)

/-- the records of the first loop, 58, with the channels of `--chan` flagged, 69 -/
def seen {n : Nat} (o : Opts n) (rs : List (Rec n)) : List (Rec n) :=
  (rs.filter Rec.selected).map fun r => { r with flags := fun k => r.flags k || decide (k ∈ o.chans) }

/-- what `data[pol][bl][t]` and `mask[pol][bl][t]` hold: the last record of that key, 70, 71 -/
def latest {n : Nat} (s : List (Rec n)) (k : Key) : Option (Rec n) := s.reverse.find? fun r => decide (r.key = k)

/-- `data_times`, 77, 78 -/
def timesOf {n : Nat} (s : List (Rec n)) (pol bl : Int) : List ℚ :=
  (((s.filter fun r => decide (r.pol = pol ∧ r.bl = bl)).map Rec.t).dedup).insertionSort (· ≤ ·)

/-- `d`, 79 -/
def matrix {n : Nat} (s : List (Rec n)) (pol bl : Int) : Fin (timesOf s pol bl).length → Fin n → ℂ :=
  fun a k => ((latest s (pol, bl, (timesOf s pol bl)[a])).map fun r => r.data k).getD 0

/-- `x/sig**2 > c**2` for `sig**2 = m`, 87, 94; with `m = 0` the quotient is infinite or NaN -/
def exceeds (x m c : ℝ) : Prop := if m = 0 then 0 < x else c ^ 2 < x / m

/-- not an end of an axis of `m` -/
def inner {m : Nat} (i : Fin m) : Bool := decide (0 < (i : Nat) ∧ (i : Nat) + 1 < m)

/-- `x[1:-1] - .5 * (x[:-2] + x[2:])` squared at `i`, 82, 83, 89, 90 -/
def bend {m : Nat} (x : Fin m → ℂ) (i : Fin m) : ℝ :=
  if h : 0 < (i : Nat) ∧ (i : Nat) + 1 < m then Complex.normSq (x i - (x ⟨i - 1, by omega⟩ + x ⟨i + 1, h.2⟩) / 2) else 0

/-- `np.median` over the inner part of an axis, 84, 91 -/
def bendMedian {m : Nat} (x : Fin m → ℂ) : ℝ := median (((List.finRange m).filter inner).map (bend x))

/-- a sample flagged along one axis, 82-87 or 89-94 -/
def bent {m : Nat} (c : ℝ) (x : Fin m → ℂ) (i : Fin m) : Prop := inner i = false ∨ exceeds (bend x i) (bendMedian x) c

/-- all samples of a baseline, `ad`, 96 -/
def mags {T n : Nat} (d : Fin T → Fin n → ℂ) : List ℝ := (List.finRange T ×ˢ List.finRange n).map fun q => ‖d q.1 q.2‖

/-- the threshold `med + opts.nsig * sig`, 97-99 -/
def level {T n : Nat} (nsig : ℝ) (d : Fin T → Fin n → ℂ) : ℝ :=
  median (mags d) + nsig * Real.sqrt (median ((mags d).map fun x => |x - median (mags d)| ^ 2))

/-- the flags of the statistics, 81-99 -/
def stat {T n : Nat} (o : Opts n) (d : Fin T → Fin n → ℂ) (a : Fin T) (k : Fin n) : Prop :=
  (∃ c, o.df = some c ∧ bent c (d a) k) ∨ (∃ c, o.dt = some c ∧ bent c (fun a' => d a' k) a) ∨
    (o.df = none ∧ o.dt = none ∧ level o.nsig d < ‖d a k‖)

open Classical in
/-- `mask` after 100: the flags of the last record of the key and those of the statistics; `none` is a KeyError -/
def mask {n : Nat} (o : Opts n) (s : List (Rec n)) (key : Key) : Option (Fin n → Bool) :=
  (latest s key).map fun r k => r.flags k || decide (∃ a, (timesOf s key.1 key.2.1)[a] = key.2.2 ∧ stat o (matrix s key.1 key.2.1) a k)

/-- the baselines and polarisations of a time -/
def pairsAt {n : Nat} (s : List (Rec n)) (t : ℚ) : List (Int × Int) := ((s.filter fun r => decide (r.t = t)).map fun r => (r.pol, r.bl)).dedup

/-- `new_mask[t]`, 102-106 -/
def count {n : Nat} (o : Opts n) (s : List (Rec n)) (t : ℚ) (k : Fin n) : Nat :=
  (pairsAt s t).countP fun q => ((mask o s (q.1, q.2, t)).map fun m => m k).getD false

/-- `mask.values()[0].values()[0]` after 107-111, or what 117-121 write and 49-52 read: the flags of each time that was seen -/
def combined {n : Nat} (o : Opts n) (rs : List (Rec n)) (t : ℚ) : Option (Fin n → Bool) :=
  if pairsAt (seen o rs) t = [] then none else some fun k => decide (o.thresh ≤ count o (seen o rs) t k)

/-- where the flags come from -/
inductive Mode (n : Nat)
  | each
  | combine
  | fromNpz (saved : ℚ → Option (Fin n → Bool))

/-- `m` of `rfi_mfunc`, 125-130; `none` is a KeyError, or an IndexError of `mask.values()[0]` if nothing was selected -/
def flagsFor {n : Nat} (o : Opts n) (md : Mode n) (rs : List (Rec n)) (r : Rec n) : Option (Fin n → Bool) :=
  match md with
  | .each => mask o (seen o rs) r.key
  | .combine => if seen o rs = [] then none else some ((combined o rs r.t).getD fun _ => true)
  | .fromNpz saved => some ((saved r.t).getD fun _ => true)

/-- the record written, 131 -/
def apply {n : Nat} (m : Fin n → Bool) (r : Rec n) : Rec n := { r with data := fun k => if m k then 0 else r.data k, flags := m }

/-- the file written, 124-136: all records are piped, whatever was selected -/
def run {n : Nat} (o : Opts n) (md : Mode n) (rs : List (Rec n)) : Option (List (Rec n)) :=
  rs.mapM fun r => (flagsFor o md rs r).map fun m => apply m r

/-- what `--to_npz` saves, 114-121; `none` is an IndexError -/
def toNpz {n : Nat} (o : Opts n) (rs : List (Rec n)) : Option (ℚ → Option (Fin n → Bool)) := if seen o rs = [] then none else some (combined o rs)

/-! ## Specification -/

/-- all magnitudes of a baseline and polarisation -/
def samples {n : Nat} (rs : List (Rec n)) (pol bl : Int) : List ℝ :=
  (rs.filter fun r => decide (r.pol = pol ∧ r.bl = bl)).flatMap fun r => (List.finRange n).map fun k => ‖r.data k‖

/-- so many deviations above the median, the deviation being the root of the median square -/
def tooHigh (nsig : ℝ) (l : List ℝ) : ℝ := median l + nsig * Real.sqrt (median (l.map fun x => |x - median l| ^ 2))

/-- how far the value after `i` is from the mean of its neighbours, squared -/
def jump {m : Nat} (x : Fin m → ℂ) (i : Fin (m - 2)) : ℝ :=
  Complex.normSq (x ⟨i + 1, by omega⟩ - (x ⟨i, by omega⟩ + x ⟨i + 2, by omega⟩) / 2)

/-- a value is the first or the last, or jumps: `c` times the root of the median square -/
def Jumps {m : Nat} (c : ℝ) (x : Fin m → ℂ) (k : Fin m) : Prop :=
  (k : Nat) = 0 ∨ (k : Nat) + 1 = m ∨ ∃ i : Fin (m - 2), (i : Nat) + 1 = k ∧ c ^ 2 * median ((List.finRange (m - 2)).map (jump x)) < jump x i

/-- no two records have the same polarisation, baseline and time -/
def Distinct {n : Nat} (rs : List (Rec n)) : Prop := rs.Pairwise fun a b => ¬ (a.pol = b.pol ∧ a.bl = b.bl ∧ a.t = b.t)

/-! ## Lemmas -/

theorem mapM_some {α β : Type} (f : α → Option β) : ∀ {l : List α} {o : List β}, l.mapM f = some o → o.length = l.length ∧
    ∀ (i : Nat) a, l[i]? = some a → ∃ b, f a = some b ∧ o[i]? = some b := by
  intro l
  induction l with
  | nil =>
    intro o h
    have : o = [] := by simpa using h.symm
    subst this
    exact ⟨rfl, by simp⟩
  | cons x l ih =>
    intro o h
    rw [List.mapM_cons] at h
    cases hx : f x with
    | none => rw [hx] at h; simp at h
    | some b =>
      rw [hx] at h
      cases hl : l.mapM f with
      | none => rw [hl] at h; simp at h
      | some bs =>
        rw [hl] at h
        have ho : o = b :: bs := by simpa using h.symm
        subst ho
        obtain ⟨h1, h2⟩ := ih hl
        refine ⟨by simp [h1], ?_⟩
        intro i a hi
        cases i with
        | zero =>
          rw [List.getElem?_cons_zero] at hi
          obtain rfl := Option.some.inj hi
          exact ⟨b, hx, rfl⟩
        | succ i =>
          rw [List.getElem?_cons_succ] at hi
          exact h2 i a hi

theorem mapM_none {α β : Type} (f : α → Option β) : ∀ {l : List α} {a : α}, a ∈ l → f a = none → l.mapM f = none := by
  intro l
  induction l with
  | nil => intro a ha; cases ha
  | cons x l ih =>
    intro a ha hf
    rw [List.mapM_cons]
    rcases List.mem_cons.1 ha with rfl | ha
    · rw [hf]; rfl
    · rw [ih ha hf]
      cases f x <;> rfl

theorem mapM_exists {α β : Type} (f : α → Option β) : ∀ {l : List α}, (∀ a ∈ l, ∃ b, f a = some b) → ∃ o, l.mapM f = some o := by
  intro l
  induction l with
  | nil => intro _; exact ⟨[], rfl⟩
  | cons x l ih =>
    intro h
    obtain ⟨b, hb⟩ := h x (by simp)
    obtain ⟨o, ho⟩ := ih fun a ha => h a (by simp [ha])
    exact ⟨b :: o, by rw [List.mapM_cons, hb, ho]; rfl⟩

/-- what becomes of record `i` -/
theorem run_at {n : Nat} {o : Opts n} {md : Mode n} {rs out : List (Rec n)} (h : run o md rs = some out) (i : Nat) (r : Rec n) (hr : rs[i]? = some r) :
    ∃ m, flagsFor o md rs r = some m ∧ out[i]? = some (apply m r) := by
  obtain ⟨-, h2⟩ := mapM_some _ h
  obtain ⟨b, hb, hb'⟩ := h2 i r hr
  obtain ⟨m, hm, rfl⟩ := Option.map_eq_some_iff.1 hb
  exact ⟨m, hm, hb'⟩

theorem latest_some {n : Nat} {s : List (Rec n)} {k : Key} {r : Rec n} (h : latest s k = some r) : r ∈ s ∧ r.key = k := by
  unfold latest at h
  refine ⟨List.mem_reverse.1 (List.mem_of_find?_eq_some h), ?_⟩
  have := List.find?_some h
  simpa using this

theorem latest_unique {n : Nat} {s : List (Rec n)} {r : Rec n} (hr : r ∈ s) (hu : ∀ x ∈ s, x.key = r.key → x = r) : latest s r.key = some r := by
  cases h : latest s r.key with
  | none =>
    unfold latest at h
    rw [List.find?_eq_none] at h
    exact absurd (by simp) (h r (List.mem_reverse.2 hr))
  | some x =>
    obtain ⟨h1, h2⟩ := latest_some h
    rw [hu x h1 h2]

theorem latest_none {n : Nat} {s : List (Rec n)} {k : Key} : latest s k = none ↔ ∀ r ∈ s, r.key ≠ k := by
  unfold latest
  rw [List.find?_eq_none]
  simp

theorem mem_seen {n : Nat} {o : Opts n} {rs : List (Rec n)} {x : Rec n} : x ∈ seen o rs ↔
    ∃ r ∈ rs, r.selected = true ∧ x = { r with flags := fun k => r.flags k || decide (k ∈ o.chans) } := by
  unfold seen
  rw [List.mem_map]
  constructor
  · rintro ⟨r, hr, rfl⟩
    rw [List.mem_filter] at hr
    exact ⟨r, hr.1, hr.2, rfl⟩
  · rintro ⟨r, hr, hs, rfl⟩
    exact ⟨r, List.mem_filter.2 ⟨hr, hs⟩, rfl⟩

theorem inner_iff {m : Nat} (i : Fin m) : inner i = true ↔ 0 < (i : Nat) ∧ (i : Nat) + 1 < m := by simp [inner]

theorem filter_inner : ∀ m : Nat, (List.finRange m).filter inner = (List.finRange (m - 2)).map fun i : Fin (m - 2) => (⟨i + 1, by omega⟩ : Fin m)
  | 0 => rfl
  | 1 => by decide
  | m + 2 => by
    have h1 : List.finRange (m + 2) = (0 : Fin (m + 2)) :: (((List.finRange m).map Fin.castSucc ++ [Fin.last m]).map Fin.succ) := by
      rw [← List.finRange_succ_last, ← List.finRange_succ]
    rw [h1, List.filter_cons_of_neg (by simp [inner]), List.map_append, List.filter_append, List.map_map]
    have h2 : ([Fin.last m].map Fin.succ).filter (inner (m := m + 2)) = [] := by
      simp [inner]
    rw [h2, List.append_nil, List.filter_eq_self.2]
    · show _ = (List.finRange m).map _
      apply List.map_congr_left
      intro i _
      apply Fin.ext
      simp
    · intro x hx
      obtain ⟨i, -, rfl⟩ := List.mem_map.1 hx
      rw [inner_iff]
      simp

theorem bend_eq {m : Nat} (x : Fin m → ℂ) (i : Fin (m - 2)) : bend x ⟨i + 1, by omega⟩ = jump x i := by
  unfold bend jump
  rw [dif_pos ⟨by simp, by have := i.isLt; simp only; omega⟩]
  simp only [Nat.add_sub_cancel]

theorem bendMedian_eq {m : Nat} (x : Fin m → ℂ) : bendMedian x = median ((List.finRange (m - 2)).map (jump x)) := by
  unfold bendMedian
  rw [filter_inner, List.map_map]
  congr 1
  apply List.map_congr_left
  intro i _
  exact bend_eq x i

theorem jump_median_nonneg {m : Nat} (x : Fin m → ℂ) (i : Fin (m - 2)) : 0 ≤ median ((List.finRange (m - 2)).map (jump x)) := by
  apply le_median
  · intro h
    have := List.map_eq_nil_iff.1 h
    have h2 := List.mem_finRange i
    rw [this] at h2
    cases h2
  · intro y hy
    obtain ⟨j, -, rfl⟩ := List.mem_map.1 hy
    exact Complex.normSq_nonneg _

theorem exceeds_iff {x m c : ℝ} (hm : 0 ≤ m) : exceeds x m c ↔ c ^ 2 * m < x := by
  unfold exceeds
  by_cases h : m = 0
  · rw [if_pos h, h, mul_zero]
  · rw [if_neg h, lt_div_iff₀ (lt_of_le_of_ne hm (Ne.symm h))]

theorem bent_iff {m : Nat} (c : ℝ) (x : Fin m → ℂ) (k : Fin m) : bent c x k ↔ Jumps c x k := by
  unfold bent Jumps
  by_cases h : 0 < (k : Nat) ∧ (k : Nat) + 1 < m
  · have hi : inner k = true := (inner_iff k).2 h
    have hk : k = ⟨(⟨k - 1, by omega⟩ : Fin (m - 2)).val + 1, by simp only; omega⟩ := by
      apply Fin.ext
      simp only
      omega
    constructor
    · rintro (h0 | h0)
      · rw [hi] at h0; cases h0
      · right; right
        refine ⟨⟨k - 1, by omega⟩, by simp only; omega, ?_⟩
        rw [bendMedian_eq, exceeds_iff (jump_median_nonneg x ⟨k - 1, by omega⟩)] at h0
        rw [← bend_eq, ← hk]
        exact h0
    · rintro (h0 | h0 | ⟨i, hik, h0⟩)
      · omega
      · omega
      · right
        rw [bendMedian_eq, exceeds_iff (jump_median_nonneg x i)]
        have : k = ⟨i + 1, by omega⟩ := Fin.ext hik.symm
        rw [this, bend_eq]
        exact h0
  · have hi : inner k = false := by
      rw [← Bool.not_eq_true, inner_iff]
      exact h
    constructor
    · intro _
      have := k.isLt
      omega
    · intro _
      exact Or.inl hi

theorem distinct_unique {n : Nat} {rs : List (Rec n)} (h : Distinct rs) {a b : Rec n} (ha : a ∈ rs) (hb : b ∈ rs) (he : a.key = b.key) : a = b := by
  by_contra hne
  have h' : rs.Pairwise fun a b => a.key ≠ b.key := h.imp fun {a b} hab hk => hab (by
    unfold Rec.key at hk
    simp only [Prod.mk.injEq] at hk
    exact hk)
  obtain ⟨i, hi, rfl⟩ := List.getElem_of_mem ha
  obtain ⟨j, hj, rfl⟩ := List.getElem_of_mem hb
  rcases Nat.lt_trichotomy i j with hij | hij | hij
  · exact List.pairwise_iff_getElem.1 h' i j hi hj hij he
  · subst hij
    exact hne rfl
  · exact List.pairwise_iff_getElem.1 h' j i hj hi hij he.symm

/-- the records with the channels given flagged -/
def mark {n : Nat} (o : Opts n) (r : Rec n) : Rec n := { r with flags := fun k => r.flags k || decide (k ∈ o.chans) }

theorem seen_all {n : Nat} {o : Opts n} {rs : List (Rec n)} (h : ∀ r ∈ rs, r.selected = true) : seen o rs = rs.map (mark o) := by
  unfold seen
  rw [List.filter_eq_self.2 h]
  rfl

theorem distinct_mark {n : Nat} {o : Opts n} {rs : List (Rec n)} (h : Distinct rs) : Distinct (rs.map (mark o)) := by
  unfold Distinct at *
  rw [List.pairwise_map]
  exact h

theorem times_nodup {n : Nat} {s : List (Rec n)} (h : Distinct s) (pol bl : Int) :
    ((s.filter fun r => decide (r.pol = pol ∧ r.bl = bl)).map Rec.t).Nodup := by
  unfold List.Nodup
  rw [List.pairwise_map]
  have h1 : (s.filter fun r => decide (r.pol = pol ∧ r.bl = bl)).Pairwise fun a b => ¬ (a.pol = b.pol ∧ a.bl = b.bl ∧ a.t = b.t) := List.Pairwise.filter _ h
  rw [List.pairwise_iff_getElem] at h1 ⊢
  intro i j hi hj hij ht
  have ha := (List.mem_filter.1 (List.getElem_mem hi)).2
  have hb := (List.mem_filter.1 (List.getElem_mem hj)).2
  simp only [decide_eq_true_eq] at ha hb
  exact h1 i j hi hj hij ⟨ha.1.trans hb.1.symm, ha.2.trans hb.2.symm, ht⟩

theorem times_perm {n : Nat} {s : List (Rec n)} (h : Distinct s) (pol bl : Int) :
    (timesOf s pol bl).Perm ((s.filter fun r => decide (r.pol = pol ∧ r.bl = bl)).map Rec.t) := by
  unfold timesOf
  refine (List.perm_insertionSort _ _).trans ?_
  rw [(times_nodup h pol bl).dedup]

theorem times_sorted_nodup {n : Nat} {s : List (Rec n)} (pol bl : Int) : (timesOf s pol bl).Nodup := by
  unfold timesOf
  exact ((List.perm_insertionSort _ _).nodup_iff).2 (List.nodup_dedup _)

/-- the rows of the matrix are the records' data -/
theorem matrix_row {n : Nat} {s : List (Rec n)} (h : Distinct s) {r : Rec n} (hr : r ∈ s) (a : Fin (timesOf s r.pol r.bl).length)
    (ha : (timesOf s r.pol r.bl)[a] = r.t) : matrix s r.pol r.bl a = r.data := by
  funext k
  unfold matrix
  rw [ha]
  have := latest_unique hr fun x hx hk => distinct_unique h hx hr hk
  unfold Rec.key at this
  rw [this]
  rfl

theorem map_getElem_fin {α : Type} (l : List α) : ((List.finRange l.length).map fun a => l[a]) = l := by
  apply List.ext_getElem
  · simp
  · intro i h1 h2
    simp

theorem mags_perm {n : Nat} {s : List (Rec n)} (h : Distinct s) (pol bl : Int) : (mags (matrix s pol bl)).Perm (samples s pol bl) := by
  have h1 : mags (matrix s pol bl) = (timesOf s pol bl).flatMap fun t => (List.finRange n).map fun k => ‖((latest s (pol, bl, t)).map fun r => r.data k).getD 0‖ := by
    unfold mags matrix
    show (((List.finRange _).flatMap fun a => (List.finRange n).map (Prod.mk a)).map _) = _
    rw [List.map_flatMap]
    conv_rhs => rw [← map_getElem_fin (timesOf s pol bl), List.flatMap_map]
    congr 1
    funext a
    rw [List.map_map]
    rfl
  rw [h1]
  refine (List.Perm.flatMap_right _ (times_perm h pol bl)).trans ?_
  rw [List.flatMap_map]
  unfold samples
  apply List.Perm.of_eq
  apply List.flatMap_congr
  intro r hr
  rw [List.mem_filter] at hr
  have h2 := hr.2
  simp only [decide_eq_true_eq] at h2
  have := latest_unique hr.1 fun x hx hk => distinct_unique h hx hr.1 hk
  unfold Rec.key at this
  rw [h2.1, h2.2] at this
  rw [this]
  rfl

theorem level_eq {n : Nat} {s : List (Rec n)} (h : Distinct s) (pol bl : Int) (nsig : ℝ) : level nsig (matrix s pol bl) = tooHigh nsig (samples s pol bl) := by
  unfold level tooHigh
  have hp := mags_perm h pol bl
  rw [median_perm hp, median_perm (hp.map fun x => |x - median (samples s pol bl)| ^ 2)]

theorem samples_mark {n : Nat} (o : Opts n) (rs : List (Rec n)) (pol bl : Int) : samples (rs.map (mark o)) pol bl = samples rs pol bl := by
  unfold samples
  rw [List.filter_map, List.flatMap_map]
  rfl

theorem time_index {n : Nat} {s : List (Rec n)} {r : Rec n} (hr : r ∈ s) : ∃ a : Fin (timesOf s r.pol r.bl).length, (timesOf s r.pol r.bl)[a] = r.t := by
  have : r.t ∈ timesOf s r.pol r.bl := by
    unfold timesOf
    rw [(List.perm_insertionSort _ _).mem_iff, List.mem_dedup]
    exact List.mem_map.2 ⟨r, List.mem_filter.2 ⟨hr, by simp⟩, rfl⟩
  obtain ⟨i, hi, he⟩ := List.getElem_of_mem this
  exact ⟨⟨i, hi⟩, he⟩

/-- the flags of a record when all are selected and different -/
theorem mask_eq {n : Nat} {o : Opts n} {rs : List (Rec n)} (hs : ∀ r ∈ rs, r.selected = true) (hd : Distinct rs) {r : Rec n} (hr : r ∈ rs)
    (a : Fin (timesOf (rs.map (mark o)) r.pol r.bl).length) (ha : (timesOf (rs.map (mark o)) r.pol r.bl)[a] = r.t) :
    ∃ m, mask o (seen o rs) r.key = some m ∧
      ∀ k, m k = true ↔ r.flags k = true ∨ k ∈ o.chans ∨ stat o (matrix (rs.map (mark o)) r.pol r.bl) a k := by
  rw [seen_all hs]
  have hm : mark o r ∈ rs.map (mark o) := List.mem_map_of_mem hr
  have hl := latest_unique hm fun x hx hk => distinct_unique (distinct_mark hd) hx hm hk
  have hk : (mark o r).key = r.key := rfl
  rw [hk] at hl
  unfold mask
  rw [hl]
  refine ⟨_, rfl, ?_⟩
  intro k
  have huniq : (∃ a', (timesOf (rs.map (mark o)) r.key.1 r.key.2.1)[a'] = r.key.2.2 ∧ stat o (matrix (rs.map (mark o)) r.key.1 r.key.2.1) a' k) ↔
      stat o (matrix (rs.map (mark o)) r.pol r.bl) a k := by
    constructor
    · rintro ⟨a', ha', hst⟩
      have : a' = a := by
        apply Fin.ext
        exact (List.Nodup.getElem_inj_iff (times_sorted_nodup (s := rs.map (mark o)) r.pol r.bl)).1 (ha'.trans ha.symm)
      rw [← this]
      exact hst
    · intro hst
      exact ⟨a, ha, hst⟩
  simp only [mark, Bool.or_eq_true, decide_eq_true_eq, or_assoc]
  rw [← huniq]

theorem matrix_row' {n : Nat} {s : List (Rec n)} (hd : Distinct s) {r : Rec n} (hr : r ∈ s) {pol bl : Int} (hp : r.pol = pol) (hb : r.bl = bl)
    (a : Fin (timesOf s pol bl).length) (ha : (timesOf s pol bl)[a] = r.t) : matrix s pol bl a = r.data := by
  subst hp
  subst hb
  exact matrix_row hd hr a ha

/-- the times of a baseline in order are the only such list -/
theorem times_only {n : Nat} {s : List (Rec n)} {pol bl : Int} {ts : List ℚ} (h1 : ts.Pairwise (· < ·))
    (h2 : ∀ t, t ∈ ts ↔ ∃ x ∈ s, x.pol = pol ∧ x.bl = bl ∧ x.t = t) : timesOf s pol bl = ts := by
  apply List.Perm.eq_of_pairwise (le := (· ≤ ·)) (fun a b _ _ h1 h2 => le_antisymm h1 h2) (List.pairwise_insertionSort _ _) (h1.imp fun h => le_of_lt h)
  refine (List.perm_insertionSort _ _).trans ?_
  rw [List.perm_ext_iff_of_nodup (List.nodup_dedup _) (h1.imp fun h => ne_of_lt h)]
  intro t
  rw [List.mem_dedup, List.mem_map, h2]
  constructor
  · rintro ⟨x, hx, rfl⟩
    rw [List.mem_filter] at hx
    have := hx.2
    simp only [decide_eq_true_eq] at this
    exact ⟨x, hx.1, this.1, this.2, rfl⟩
  · rintro ⟨x, hx, hp, hb, rfl⟩
    exact ⟨x, List.mem_filter.2 ⟨hx, by simp [hp, hb]⟩, rfl⟩

theorem run_each {n : Nat} {o : Opts n} {rs : List (Rec n)} (hs : ∀ r ∈ rs, r.selected = true) (hd : Distinct rs) : ∃ out, run o .each rs = some out := by
  apply mapM_exists
  intro r hr
  obtain ⟨a, ha⟩ := time_index (s := rs.map (mark o)) (List.mem_map_of_mem (f := mark o) hr)
  obtain ⟨m, hm, -⟩ := mask_eq (o := o) hs hd hr a ha
  exact ⟨apply m r, by show (mask o (seen o rs) r.key).map _ = _; rw [hm]; rfl⟩

/-! ## Properties -/

/-- **C130** (in all modes the file written has the records of the one read, in their order; data are zero where flagged and as they were elsewhere) -/
theorem c130_data {n : Nat} (o : Opts n) (md : Mode n) (rs out : List (Rec n)) (h : run o md rs = some out) :
    out.length = rs.length ∧ ∀ (i : Nat) (r : Rec n), rs[i]? = some r → ∃ r', out[i]? = some r' ∧ r'.t = r.t ∧ r'.bl = r.bl ∧ r'.pol = r.pol ∧
      ∀ k, (r'.flags k = true → r'.data k = 0) ∧ (r'.flags k = false → r'.data k = r.data k) := by
  refine ⟨(mapM_some _ h).1, ?_⟩
  intro i r hr
  obtain ⟨m, -, ho⟩ := run_at h i r hr
  refine ⟨_, ho, rfl, rfl, rfl, ?_⟩
  intro k
  unfold apply
  simp only
  constructor
  · intro hk; rw [hk, if_pos rfl]
  · intro hk; rw [hk]; simp

/-- **C130** (if all records are selected and different, exactly the samples are flagged that were flagged, that are in a channel given, or that the
statistics asked for single out: `ts` are the times of the record's baseline in order and `X` its data) -/
theorem c130_flags_partial {n : Nat} (o : Opts n) (rs : List (Rec n)) (hs : ∀ r ∈ rs, r.selected = true) (hd : Distinct rs) :
    ∃ out, run o .each rs = some out ∧ ∀ (i : Nat) (r : Rec n), rs[i]? = some r → ∃ r', out[i]? = some r' ∧
      ∀ (ts : List ℚ) (X : Fin ts.length → Fin n → ℂ) (a : Fin ts.length), ts.Pairwise (· < ·) →
        (∀ t, t ∈ ts ↔ ∃ x ∈ rs, x.pol = r.pol ∧ x.bl = r.bl ∧ x.t = t) →
        (∀ a', ∀ x ∈ rs, x.pol = r.pol → x.bl = r.bl → x.t = ts[a'] → X a' = x.data) → ts[a] = r.t →
        ∀ k, r'.flags k = true ↔ r.flags k = true ∨ k ∈ o.chans ∨ (∃ c, o.df = some c ∧ Jumps c r.data k) ∨
          (∃ c, o.dt = some c ∧ Jumps c (fun a' => X a' k) a) ∨
          (o.df = none ∧ o.dt = none ∧ tooHigh o.nsig (samples rs r.pol r.bl) < ‖r.data k‖) := by
  obtain ⟨out, ho⟩ := run_each (o := o) hs hd
  refine ⟨out, ho, ?_⟩
  intro i r hi
  have hr := List.mem_of_getElem? hi
  obtain ⟨m, hm, hout⟩ := run_at ho i r hi
  refine ⟨_, hout, ?_⟩
  intro ts X a h1 h2 h3 h4 k
  have hts : timesOf (rs.map (mark o)) r.pol r.bl = ts := by
    apply times_only h1
    intro t
    rw [h2]
    constructor
    · rintro ⟨x, hx, hh⟩
      exact ⟨mark o x, List.mem_map_of_mem hx, hh⟩
    · rintro ⟨x, hx, hh⟩
      obtain ⟨y, hy, rfl⟩ := List.mem_map.1 hx
      exact ⟨y, hy, hh⟩
  subst hts
  have hX : X = matrix (rs.map (mark o)) r.pol r.bl := by
    funext a'
    obtain ⟨x, hx, hp, hb, ht⟩ := (h2 _).1 (List.getElem_mem a'.isLt)
    rw [h3 a' x hx hp hb ht]
    exact (matrix_row' (distinct_mark (o := o) hd) (List.mem_map_of_mem (f := mark o) hx) hp hb a' ht.symm).symm
  obtain ⟨m', hm', hfl⟩ := mask_eq (o := o) hs hd hr a h4
  have hmm : m' = m := Option.some.inj (hm'.symm.trans hm)
  subst hmm
  show m' k = true ↔ _
  rw [hfl k]
  have hrow : matrix (rs.map (mark o)) r.pol r.bl a = r.data := by
    rw [← hX]
    exact h3 a r hr rfl rfl h4.symm
  unfold stat
  rw [hX, level_eq (distinct_mark hd), samples_mark, hrow]
  simp only [bent_iff]

/-- **C130** (the statistics of the default mode flag at most half of the samples of a baseline) -/
theorem c130_half (nsig : ℝ) (hn : 0 ≤ nsig) (l : List ℝ) [DecidablePred fun x : ℝ => tooHigh nsig l < x] :
    2 * l.countP (fun x => decide (tooHigh nsig l < x)) ≤ l.length := by
  classical
  refine le_trans ?_ (median_half l)
  apply Nat.mul_le_mul_left
  apply List.countP_mono_left
  intro x _ hx
  simp only [decide_eq_true_eq] at hx ⊢
  refine lt_of_le_of_lt ?_ hx
  unfold tooHigh
  have := mul_nonneg hn (Real.sqrt_nonneg (median (l.map fun x => |x - median l| ^ 2)))
  linarith

/-- **C130** (`--df` or `--dt` of at least 1 flag at most half of the values that are not the first or the last) -/
theorem c130_jumps_half {m : Nat} (c : ℝ) (hc : 1 ≤ c) (x : Fin m → ℂ) [DecidablePred (Jumps c x)] :
    2 * ((List.finRange m).filter fun i : Fin m => decide (0 < (i : Nat) ∧ (i : Nat) + 1 < m)).countP (fun i : Fin m => decide (Jumps c x i)) ≤ m - 2 := by
  classical
  have h := median_half ((List.finRange (m - 2)).map (jump x))
  rw [List.length_map, List.length_finRange, List.countP_map] at h
  refine le_trans ?_ h
  apply Nat.mul_le_mul_left
  have hf : ((List.finRange m).filter fun i : Fin m => decide (0 < (i : Nat) ∧ (i : Nat) + 1 < m)) = _ := filter_inner m
  rw [hf, List.countP_map]
  apply List.countP_mono_left
  intro i _ hi
  simp only [decide_eq_true_eq, Function.comp] at hi ⊢
  rcases hi with h0 | h0 | ⟨j, hj, h0⟩
  · simp at h0
  · have := i.isLt
    simp only at h0
    omega
  · have hij : j = i := by
      apply Fin.ext
      simpa using hj
    subst hij
    refine lt_of_le_of_lt ?_ h0
    have hm := jump_median_nonneg x j
    have : (1 : ℝ) ≤ c ^ 2 := by nlinarith
    nlinarith

/-- the baselines of a time are its records if these are different -/
theorem pairs_eq {n : Nat} {s : List (Rec n)} (hd : Distinct s) (t : ℚ) : pairsAt s t = (s.filter fun r => decide (r.t = t)).map fun r => (r.pol, r.bl) := by
  unfold pairsAt
  rw [List.Nodup.dedup]
  unfold List.Nodup
  rw [List.pairwise_map]
  have h1 : (s.filter fun r => decide (r.t = t)).Pairwise fun a b => ¬ (a.pol = b.pol ∧ a.bl = b.bl ∧ a.t = b.t) := List.Pairwise.filter _ hd
  rw [List.pairwise_iff_getElem] at h1 ⊢
  intro i j hi hj hij he
  have ha := (List.mem_filter.1 (List.getElem_mem hi)).2
  have hb := (List.mem_filter.1 (List.getElem_mem hj)).2
  simp only [decide_eq_true_eq] at ha hb
  rw [Prod.mk.injEq] at he
  exact h1 i j hi hj hij ⟨he.1, he.2, ha.trans hb.symm⟩

theorem mark_pol {n : Nat} (o : Opts n) (r : Rec n) : (mark o r).pol = r.pol := rfl
theorem mark_bl {n : Nat} (o : Opts n) (r : Rec n) : (mark o r).bl = r.bl := rfl
theorem mark_t {n : Nat} (o : Opts n) (r : Rec n) : (mark o r).t = r.t := rfl
theorem apply_t {n : Nat} (m : Fin n → Bool) (r : Rec n) : (apply m r).t = r.t := rfl
theorem apply_flags {n : Nat} (m : Fin n → Bool) (r : Rec n) : (apply m r).flags = m := rfl

/-- **C130** (with `--combine` a sample is flagged if as many records of its time as the threshold says would be flagged there without; so all records of a
time have the same flags) -/
theorem c130_combine_partial {n : Nat} (o : Opts n) (rs : List (Rec n)) (hs : ∀ r ∈ rs, r.selected = true) (hd : Distinct rs) :
    ∃ out1 out2, run o .each rs = some out1 ∧ run o .combine rs = some out2 ∧ ∀ (i : Nat) (r' : Rec n), out2[i]? = some r' →
      ∀ k, r'.flags k = true ↔ o.thresh ≤ out1.countP fun x => decide (x.t = r'.t) && x.flags k := by
  obtain ⟨out1, h1⟩ := run_each (o := o) hs hd
  obtain ⟨out2, h2⟩ : ∃ out2, run o .combine rs = some out2 := by
    apply mapM_exists
    intro r hr
    have hsn : seen o rs ≠ [] := by
      rw [seen_all hs]
      intro h
      rw [List.map_eq_nil_iff] at h
      subst h
      cases hr
    exact ⟨apply ((combined o rs r.t).getD fun _ => true) r, by simp only [flagsFor, if_neg hsn]; rfl⟩
  refine ⟨out1, out2, h1, h2, ?_⟩
  intro i r' hi k
  have hlen : i < rs.length := by
    have := (List.getElem?_eq_some_iff.1 hi).1
    rw [(mapM_some _ h2).1] at this
    exact this
  obtain ⟨m, hm, ho⟩ := run_at h2 i rs[i] (by simp [hlen])
  rw [hi] at ho
  obtain rfl := Option.some.inj ho
  have hsn : seen o rs ≠ [] := by
    rw [seen_all hs]
    intro h
    rw [List.map_eq_nil_iff] at h
    subst h
    simp at hlen
  have hm1 : (if seen o rs = [] then none else some ((combined o rs (rs[i]).t).getD fun _ => true)) = some m := hm
  rw [if_neg hsn] at hm1
  have hm' : m = (combined o rs (rs[i]).t).getD fun _ => true := (Option.some.inj hm1).symm
  have hne : pairsAt (seen o rs) (rs[i]).t ≠ [] := by
    rw [seen_all hs]
    intro h
    have hmem : ((mark o rs[i]).pol, (mark o rs[i]).bl) ∈ pairsAt (rs.map (mark o)) (rs[i]).t := by
      unfold pairsAt
      rw [List.mem_dedup]
      exact List.mem_map.2 ⟨mark o rs[i], List.mem_filter.2 ⟨List.mem_map_of_mem (List.getElem_mem hlen), by simp [mark]⟩, rfl⟩
    rw [h] at hmem
    cases hmem
  have hcnt : count o (seen o rs) (rs[i]).t k = out1.countP fun x => decide (x.t = (rs[i]).t) && x.flags k := by
    have hout : out1 = rs.map fun r => apply ((mask o (seen o rs) r.key).getD fun _ => true) r := by
      apply List.ext_getElem
      · rw [List.length_map]
        exact (mapM_some _ h1).1
      · intro j hj hj'
        rw [List.getElem_map]
        rw [List.length_map] at hj'
        obtain ⟨m1, hm1, ho1⟩ := run_at h1 j rs[j] (by simp [hj'])
        have hm1' : mask o (seen o rs) (rs[j]).key = some m1 := hm1
        rw [hm1']
        rw [List.getElem?_eq_getElem hj] at ho1
        exact Option.some.inj ho1
    unfold count
    rw [hout, List.countP_map]
    rw [seen_all hs, pairs_eq (distinct_mark hd), List.filter_map, List.countP_map, List.countP_map, List.countP_filter]
    apply List.countP_congr
    intro r hr
    obtain ⟨a, ha⟩ := time_index (s := rs.map (mark o)) (List.mem_map_of_mem (f := mark o) hr)
    obtain ⟨m1, hm1, -⟩ := mask_eq (o := o) hs hd hr a ha
    rw [seen_all hs] at hm1
    by_cases e2 : r.t = (rs[i]).t
    · have hk : (r.pol, r.bl, (rs[i]).t) = r.key := by rw [← e2]; rfl
      simp only [Function.comp, mark_pol, mark_bl, mark_t, apply_t, apply_flags, e2, decide_true, Bool.and_true, Bool.true_and]
      rw [hk, hm1]
      rfl
    · simp only [Function.comp, mark_t, apply_t, e2, decide_false, Bool.and_false, Bool.false_and]
  show m k = true ↔ _
  rw [hm']
  unfold combined
  rw [if_neg hne]
  simp only [Option.getD_some, decide_eq_true_eq]
  rw [hcnt]
  rfl

/-- **C130** (flags saved with `--to_npz` and read with `--from_npz` are the ones `--combine` gives) -/
theorem c130_npz {n : Nat} (o : Opts n) (rs : List (Rec n)) (saved : ℚ → Option (Fin n → Bool)) (h : toNpz o rs = some saved) :
    run o (.fromNpz saved) rs = run o .combine rs := by
  unfold toNpz at h
  by_cases hn : seen o rs = []
  · rw [if_pos hn] at h; cases h
  rw [if_neg hn] at h
  obtain rfl := Option.some.inj h
  unfold run
  congr 1
  funext r
  simp only [flagsFor, if_neg hn]

/-- **C130, violated** (with `--combine` the flags of the input and the channels given are dropped at times with fewer records than the threshold) -/
theorem c130_thresh_violated {n : Nat} (o : Opts n) (rs out : List (Rec n)) (h : run o .combine rs = some out) (i : Nat) (r : Rec n) (hi : rs[i]? = some r)
    (hs : r.selected = true) (hfew : rs.countP (fun x => decide (x.t = r.t)) < o.thresh) :
    ∃ r', out[i]? = some r' ∧ ∀ k, r'.flags k = false := by
  obtain ⟨m, hm, ho⟩ := run_at h i r hi
  refine ⟨_, ho, ?_⟩
  intro k
  have hmem : ({ r with flags := fun k => r.flags k || decide (k ∈ o.chans) } : Rec n) ∈ seen o rs := mem_seen.2 ⟨r, List.mem_of_getElem? hi, hs, rfl⟩
  have hsn : seen o rs ≠ [] := List.ne_nil_of_mem hmem
  have hm1 : (if seen o rs = [] then none else some ((combined o rs r.t).getD fun _ => true)) = some m := hm
  rw [if_neg hsn] at hm1
  obtain rfl := Option.some.inj hm1
  have hne : pairsAt (seen o rs) r.t ≠ [] := by
    intro h
    have h2 : (r.pol, r.bl) ∈ pairsAt (seen o rs) r.t := by
      unfold pairsAt
      rw [List.mem_dedup]
      exact List.mem_map.2 ⟨_, List.mem_filter.2 ⟨hmem, by simp⟩, rfl⟩
    rw [h] at h2
    cases h2
  have hcnt : count o (seen o rs) r.t k ≤ rs.countP (fun x => decide (x.t = r.t)) := by
    unfold count
    refine le_trans List.countP_le_length ?_
    unfold pairsAt
    refine le_trans (List.Sublist.length_le (List.dedup_sublist _)) ?_
    rw [List.length_map, ← List.countP_eq_length_filter]
    unfold seen
    rw [List.countP_map]
    exact List.Sublist.countP_le List.filter_sublist
  show ((combined o rs r.t).getD fun _ => true) k = false
  unfold combined
  rw [if_neg hne]
  simp only [Option.getD_some, decide_eq_false_iff_not]
  omega

/-- **C130, violated** (`-a` selects records for the statistics but all are written: without `--combine` one that was not selected is a KeyError, and with it all
its channels are flagged unless one of its time was selected) -/
theorem c130_select_violated {n : Nat} (o : Opts n) (rs : List (Rec n)) (r : Rec n) (hr : r ∈ rs) :
    ((∀ x ∈ rs, x.selected = true → ¬ (x.pol = r.pol ∧ x.bl = r.bl ∧ x.t = r.t)) → run o .each rs = none) ∧
    ((∃ x ∈ rs, x.selected = true) → (∀ x ∈ rs, x.selected = true → x.t ≠ r.t) →
      ∀ out, run o .combine rs = some out → ∀ i : Nat, rs[i]? = some r → ∃ r' : Rec n, out[i]? = some r' ∧ ∀ k, r'.flags k = true) := by
  constructor
  · intro h
    apply mapM_none _ hr
    have : latest (seen o rs) r.key = none := by
      rw [latest_none]
      intro x hx he
      obtain ⟨y, hy, hs, rfl⟩ := mem_seen.1 hx
      unfold Rec.key at he
      rw [Prod.mk.injEq, Prod.mk.injEq] at he
      exact h y hy hs he
    show (mask o (seen o rs) r.key).map _ = none
    unfold mask
    rw [this]
    rfl
  · rintro ⟨x, hx, hxs⟩ h out ho i hi
    obtain ⟨m, hm, ho'⟩ := run_at ho i r hi
    refine ⟨_, ho', ?_⟩
    intro k
    have hsn : seen o rs ≠ [] := List.ne_nil_of_mem (mem_seen.2 ⟨x, hx, hxs, rfl⟩)
    have hm1 : (if seen o rs = [] then none else some ((combined o rs r.t).getD fun _ => true)) = some m := hm
    rw [if_neg hsn] at hm1
    obtain rfl := Option.some.inj hm1
    have hnil : pairsAt (seen o rs) r.t = [] := by
      rw [List.eq_nil_iff_forall_not_mem]
      intro q hq
      unfold pairsAt at hq
      rw [List.mem_dedup] at hq
      obtain ⟨y, hy, -⟩ := List.mem_map.1 hq
      obtain ⟨hy1, hy2⟩ := List.mem_filter.1 hy
      obtain ⟨z, hz, hzs, rfl⟩ := mem_seen.1 hy1
      simp only [decide_eq_true_eq] at hy2
      exact h z hz hzs hy2
    show ((combined o rs r.t).getD fun _ => true) k = true
    unfold combined
    rw [if_pos hnil]
    rfl

/-- **C130, violated** (of two records of the same baseline, polarisation and time both get the flags of the second) -/
theorem c130_repeat_violated {n : Nat} (o : Opts n) (hc : o.chans = []) (hf : o.df = none) (ht : o.dt = none) (hn : 0 ≤ o.nsig) (r1 r2 : Rec n)
    (hs1 : r1.selected = true) (hs2 : r2.selected = true) (hk : r1.pol = r2.pol ∧ r1.bl = r2.bl ∧ r1.t = r2.t)
    (h1 : ∀ k, r1.data k = 0) (h2 : ∀ k, r2.data k = 0) :
    ∃ a b, run o .each [r1, r2] = some [a, b] ∧ a.flags = r2.flags ∧ b.flags = r2.flags := by
  have hmark : ∀ r : Rec n, ({ r with flags := fun k => r.flags k || decide (k ∈ o.chans) } : Rec n) = r := by
    intro r
    simp [hc]
  have hseen : seen o [r1, r2] = [r1, r2] := by
    unfold seen
    rw [List.filter_eq_self.2 (by simp [hs1, hs2])]
    simp only [List.map_cons, List.map_nil, hmark]
  have hkey : r1.key = r2.key := by
    unfold Rec.key
    rw [hk.1, hk.2.1, hk.2.2]
  have hl : latest [r1, r2] r2.key = some r2 := by
    unfold latest
    simp
  have hd : ∀ pol bl a k, matrix [r1, r2] pol bl a k = 0 := by
    intro pol bl a k
    unfold matrix
    cases hx : latest [r1, r2] (pol, bl, (timesOf [r1, r2] pol bl)[a]) with
    | none => rfl
    | some x =>
      rcases List.mem_cons.1 (latest_some hx).1 with rfl | h
      · exact h1 k
      · rw [List.mem_singleton] at h
        subst h
        exact h2 k
  have hst : ∀ a k, ¬ stat o (matrix [r1, r2] r2.pol r2.bl) a k := by
    rintro a k (⟨c, hc, -⟩ | ⟨c, hc, -⟩ | ⟨-, -, hlt⟩)
    · rw [hf] at hc; cases hc
    · rw [ht] at hc; cases hc
    · rw [hd, norm_zero] at hlt
      refine absurd hlt (not_lt.2 ?_)
      unfold level
      have := mul_nonneg hn (Real.sqrt_nonneg (median ((mags (matrix [r1, r2] r2.pol r2.bl)).map fun x => |x - median (mags (matrix [r1, r2] r2.pol r2.bl))| ^ 2)))
      have hmed : 0 ≤ median (mags (matrix [r1, r2] r2.pol r2.bl)) := by
        apply le_median
        · intro h
          unfold mags at h
          rw [List.map_eq_nil_iff] at h
          have : (a, k) ∈ List.finRange (timesOf [r1, r2] r2.pol r2.bl).length ×ˢ List.finRange n := by simp
          rw [h] at this
          cases this
        · intro y hy
          unfold mags at hy
          obtain ⟨q, -, rfl⟩ := List.mem_map.1 hy
          exact norm_nonneg _
      linarith
  have hm : mask o [r1, r2] r2.key = some r2.flags := by
    unfold mask
    rw [hl, Option.map_some]
    congr 1
    funext k
    have : ¬ ∃ a, (timesOf [r1, r2] r2.key.1 r2.key.2.1)[a] = r2.key.2.2 ∧ stat o (matrix [r1, r2] r2.key.1 r2.key.2.1) a k := by
      rintro ⟨a, -, h⟩
      exact hst a k h
    simp only [this, decide_false, Bool.or_false]
  refine ⟨apply r2.flags r1, apply r2.flags r2, ?_, rfl, rfl⟩
  have e1 : flagsFor o .each [r1, r2] r1 = some r2.flags := by
    show mask o (seen o [r1, r2]) r1.key = _
    rw [hseen, hkey, hm]
  have e2 : flagsFor o .each [r1, r2] r2 = some r2.flags := by
    show mask o (seen o [r1, r2]) r2.key = _
    rw [hseen, hm]
  unfold run
  simp only [List.mapM_cons, List.mapM_nil, e1, e2]
  rfl

/-! ## Concrete cases -/

/-- two antennas' records at one time and one of them at a second -/
def demo (t : ℚ) (bl : Int) (x : ℂ) (f : Bool) (s : Bool) : Rec 3 :=
  { t := t, bl := bl, pol := -5, data := fun k => if k = 1 then x else 1, flags := fun k => f && decide (k = 0), selected := s }

def demoOpts : Opts 3 := { chans := [2], nsig := 2, df := none, dt := none, thresh := 2 }

/-- three records all selected and different: c130_flags_partial, c130_combine_partial, c130_thresh_violated (the third is alone at its time, and flagged) -/
example : (∀ r ∈ [demo 0 257 9 false true, demo 0 258 1 false true, demo 1 257 1 true true], r.selected = true) ∧
    Distinct [demo 0 257 9 false true, demo 0 258 1 false true, demo 1 257 1 true true] ∧ (demo 1 257 1 true true).flags 0 = true ∧
    [demo 0 257 9 false true, demo 0 258 1 false true, demo 1 257 1 true true].countP (fun x => decide (x.t = (demo 1 257 1 true true).t)) < demoOpts.thresh := by
  refine ⟨by simp [demo], ?_, rfl, ?_⟩
  · simp [Distinct, demo]
  · simp [demo, demoOpts]

/-- so the flag of the third is gone -/
example : ∃ out r', run demoOpts .combine [demo 0 257 9 false true, demo 0 258 1 false true, demo 1 257 1 true true] = some out ∧ out[2]? = some r' ∧
    ∀ k, r'.flags k = false := by
  obtain ⟨-, out, -, h, -⟩ := c130_combine_partial demoOpts [demo 0 257 9 false true, demo 0 258 1 false true, demo 1 257 1 true true] (by simp [demo])
    (by simp [Distinct, demo])
  obtain ⟨r', h1, h2⟩ := c130_thresh_violated demoOpts _ out h 2 (demo 1 257 1 true true) rfl rfl (by simp [demo, demoOpts])
  exact ⟨out, r', h, h1, h2⟩

/-- one record not selected -/
example : run demoOpts .each [demo 0 257 9 false true, demo 0 258 1 false false] = none :=
  (c130_select_violated demoOpts _ (demo 0 258 1 false false) (by simp)).1 (by simp [demo])

/-- the flag of the first of two equal ones is lost -/
example (r1 r2 : Rec 3) (h1 : r1 = { demo 0 257 0 true true with data := fun _ => 0 }) (h2 : r2 = { demo 0 257 0 false true with data := fun _ => 0 }) :
    ∃ a b, run { demoOpts with chans := [] } .each [r1, r2] = some [a, b] ∧ r1.flags 0 = true ∧ a.flags 0 = false := by
  subst h1 h2
  obtain ⟨a, b, h, ha, -⟩ := c130_repeat_violated { demoOpts with chans := [] } rfl rfl rfl (by norm_num [demoOpts])
    { demo 0 257 0 true true with data := fun _ => 0 } { demo 0 257 0 false true with data := fun _ => 0 } rfl rfl ⟨rfl, rfl, rfl⟩ (fun _ => rfl) (fun _ => rfl)
  refine ⟨a, b, h, rfl, ?_⟩
  rw [ha]
  rfl

end Verif.Misc.XrfiSimple
