import Verif.Util.Text
import Mathlib.Analysis.SpecialFunctions.Complex.Log
import Mathlib.Algebra.BigOperators.Field
import Mathlib.Data.List.Sort
import Mathlib.Tactic.Linarith
import Mathlib.Tactic.NormNum
import Mathlib.Tactic.FieldSimp

/-!
# plot_uv.py (C134)

What is plotted: which records become rows of which panel (lines 64-83, 127-206), at which coordinates (253-272), differences of neighbouring
times and channels (215-216), the delay transform (113-118, 173-188).

Simplified: Python 2 (`has_key`, `sort(cmp=...)`, `map` that returns lists; with Python 3 the script stops at the first record); times are
rational numbers; what is done with one record (channels, phasing) is a parameter of the rows; the delay transform is that of
unflagged data without `--clean`; the drawing itself is `imshow`'s rule that an image of n rows divides its extent evenly.
-/
set_option linter.unusedSectionVars false
set_option linter.unusedVariables false

namespace Verif.Misc.PlotUv
open Verif.Util

/-! ## Model: which records become rows -/

/-- `bl = '%d,%d,%d' % (i,j,uv['pol'])`, plot_uv.py 148 -/
abbrev Key := Nat × Nat × Int

structure Rec (D : Type) where
  t : ℚ
  lst : ℚ
  key : Key
  d : D
  deriving DecidableEq, Repr

/-- `--time_axis` -/
inductive Axis | index | physical | lst
  deriving DecidableEq, Repr

/-- the loop over ranges, plot_uv.py 70-74; `none` is the IndexError of `opt[1]` -/
def inRanges (t : ℚ) : List (List ℚ) → Option Bool
  | [] => some false
  | opt :: opts =>
    match opt with
    | [] => none
    | [lo] => if t ≥ lo then none else inRanges t opts
    | lo :: hi :: _ => if t ≥ lo ∧ t < hi then some true else inRanges t opts

/-- `gen_times`, plot_uv.py 64-83, after `convert_arg_range`; `none` is 'all'.  `inttime` is that of the file in days. -/
def timeSel (opt : Option (List (List ℚ))) (axis : Axis) (inttime : ℚ) (decimate : ℕ) (t cnt : ℚ) : Option Bool :=
  match opt with
  | none => some true
  | some opts =>
    match opts.head? with
    | none => none
    | some o =>
      if o.length ≠ 1 then inRanges (if axis = .index then cnt else t) opts
      else
        let l := opts.map (·.headD 0)
        if axis = .index then some (decide (cnt ∈ l))
        else some (l.any fun o => decide (t ≥ o) && decide (t < o + inttime * decimate))

structure St (E : Type) where
  times : List ℚ
  use : Bool
  lst : List ℚ
  jd : List ℚ
  cnt : List ℕ
  rows : Key → List E

/-- before the first record, plot_uv.py 127-129 -/
def start {E : Type} : St E := ⟨[], false, [], [], [], fun _ => []⟩

structure Opts (D E : Type) where
  time : Option (List (List ℚ))
  axis : Axis
  inttime : ℚ
  decimate : ℕ
  /-- what becomes of one record, plot_uv.py 162-190 -/
  proc : Rec D → E

/-- a record of a time that has not been seen just before, plot_uv.py 149-160 -/
def newTime {D E : Type} (o : Opts D E) (s : St E) (r : Rec D) : Option (St E) :=
  if s.times = [] ∨ s.times.getLast? ≠ some r.t then
    let times := s.times ++ [r.t]
    (timeSel o.time o.axis o.inttime o.decimate r.t (((times.length - 1 : ℕ) : ℚ) / o.decimate)).map fun use =>
      if use then { s with times := times, use := true, lst := s.lst ++ [r.lst], jd := s.jd ++ [r.t], cnt := s.cnt ++ [times.length - 1] }
      else { s with times := times, use := false }
  else some s

/-- `plot_x[bl].append(d)`, plot_uv.py 191-192 -/
def append {E : Type} (rows : Key → List E) (k : Key) (e : E) : Key → List E :=
  fun k' => if k' = k then rows k ++ [e] else rows k'

/-- the body of the loop over the records, plot_uv.py 147-192 -/
def step {D E : Type} (o : Opts D E) (s : St E) (r : Rec D) : Option (St E) :=
  (newTime o s r).map fun s => if s.use then { s with rows := append s.rows r.key (o.proc r) } else s

/-- the loop over the records of all files, plot_uv.py 135-193 -/
def gather {D E : Type} (o : Opts D E) (recs : List (Rec D)) : Option (St E) := recs.foldlM (step o) start

/-! ## Model: order of the antennas, panels, axes, differences, delays -/

/-- `s.find(p) != -1` -/
def contains (p : List Char) : List Char → Bool
  | [] => p.isEmpty
  | c :: cs => p.isPrefixOf (c :: cs) || contains p cs

/-- `opts.ant.find('%d_%d' % (j,i)) != -1`: the data are conjugated, plot_uv.py 163 -/
def conjugated (ant : List Char) (i j : Nat) : Bool := contains (printNat j ++ '_' :: printNat i) ant

/-- `sort_func`, plot_uv.py 196-200: -1 if the first is to come before the second.  (It never returns 0; the keys are different.) -/
def before (a b : Key) : Bool :=
  decide (b.1 > a.1 ∨ (b.1 = a.1 ∧ b.2.1 > a.2.1) ∨ (b.1 = a.1 ∧ b.2.1 = a.2.1 ∧ b.2.2 < a.2.2))

/-- `bls.sort(cmp=sort_func)`, plot_uv.py 201 -/
def panels (keys : List Key) : List Key := keys.insertionSort (fun a b => before b a = false)

/-- `m2`, `m1`, plot_uv.py 205-206 -/
def grid (n : ℕ) : ℕ × ℕ :=
  let m2 := Nat.sqrt n
  (m2, (⌈(n : ℚ) / (m2 : ℚ)⌉).toNat)

/-- `d[:-2]/2 + d[2:]/2 - d[1:-1]`, plot_uv.py 215-216 -/
def second {K : Type} [Field K] (d : List K) : List K :=
  List.zipWith (fun a b => a - b) (List.zipWith (fun a b => a / 2 + b / 2) (d.take (d.length - 2)) (d.drop 2)) ((d.drop 1).take (d.length - 2))

/-- `t1,t2` of the axis of numbers or of Julian dates, plot_uv.py 253-263; `none` is an IndexError.  (The axis of sidereal times is not modelled.) -/
def timeExtent (axis : Axis) (cnt : List ℕ) (jd : List ℚ) : Option (ℚ × ℚ) :=
  match axis with
  | .index =>
    match cnt.head?, cnt.getLast? with
    | some a, some b => some (a - 1 / 2, b + 1 / 2)
    | _, _ => none
  | _ =>
    match jd with
    | a :: b :: _ => some (a - (b - a) / 2, jd.getLastD 0 + (b - a) / 2)
    | _ => none

/-- the test for contiguous channels, plot_uv.py 113-116: `none` is the ValueError -/
noncomputable def contiguousCheck (freqs : List ℝ) : Option Unit :=
  match freqs.head?, freqs.getLast? with
  | some a, some b => @ite _ ((freqs.length : ℝ) = b - a + 1) (Classical.propDecidable _) none (some ())
  | _, _ => none

/-- `np.fft.fftfreq(n, d)` -/
noncomputable def fftfreq (n : ℕ) (d : ℝ) (k : ℕ) : ℝ := if k < (n + 1) / 2 then k / (n * d) else ((k : ℝ) - n) / (n * d)

/-- `np.fft.fftshift` of `n` numbers -/
def fftshift {α : Type} (n : ℕ) (x : ℕ → α) (c : ℕ) : α := x ((c + (n - n / 2)) % n)

/-- `np.fft.ifft` -/
noncomputable def ifft (n : ℕ) (x : ℕ → ℂ) (k : ℕ) : ℂ :=
  (∑ m ∈ Finset.range n, x m * Complex.exp (2 * Real.pi * Complex.I * (k * m / n))) / n

/-- the delays, plot_uv.py 117-118 -/
noncomputable def delays (n : ℕ) (df : ℝ) : ℕ → ℝ := fftshift n (fftfreq n df)

/-- the delay transform of unflagged data, plot_uv.py 173-188 -/
noncomputable def delayTransform (n : ℕ) (w : ℕ → ℝ) (d : ℕ → ℂ) : ℕ → ℂ := fftshift n (ifft n fun m => d m * w m)

/-- `c1,c2` of the delay axis in bins, plot_uv.py 266-268 (with true division) -/
def binExtent (n : ℕ) : ℚ × ℚ := ((n : ℚ) / 2 - n - 1 / 2, (n : ℚ) / 2 - 1 / 2)

/-- `c1,c2` of the delay axis in nanoseconds, plot_uv.py 270-272 -/
noncomputable def delayExtent (n : ℕ) (df : ℝ) : ℝ × ℝ :=
  let step := delays n df 1 - delays n df 0
  (delays n df 0 - 0.5 * step, delays n df (n - 1) + 0.5 * step)

/-! ## Specification -/

/-- an integration: its time, its sidereal time and its records -/
structure Integration (D : Type) where
  t : ℚ
  lst : ℚ
  recs : List (Key × D)

def Integration.records {D : Type} (g : Integration D) : List (Rec D) := g.recs.map fun kd => ⟨g.t, g.lst, kd.1, kd.2⟩

/-- integrations as they are read: none is empty, and no two that follow each other are of the same time -/
def Proper {D : Type} (gs : List (Integration D)) : Prop :=
  (∀ g ∈ gs, g.recs ≠ []) ∧ gs.IsChain (fun a b => a.t ≠ b.t)

/-- the time of an integration on the axis of the plot -/
def coord {D : Type} (axis : Axis) (g : Integration D) (n : ℕ) : ℚ :=
  match axis with
  | .index => n
  | .physical => g.t
  | .lst => g.lst

/-- does the option `-t` name the integration with the number `n`?  Everything; or one of the ranges; or one of the times. -/
inductive TimeOpt
  | all
  | ranges (l : List (ℚ × ℚ))
  | times (l : List ℚ)

def TimeOpt.Names {D : Type} (o : TimeOpt) (axis : Axis) (len : ℚ) (g : Integration D) (n : ℕ) : Prop :=
  match o with
  | .all => True
  | .ranges l => ∃ r ∈ l, r.1 ≤ coord axis g n ∧ coord axis g n < r.2
  | .times l => ∃ a ∈ l, if axis = .index then coord axis g n = a else a ≤ coord axis g n ∧ coord axis g n < a + len

/-- the option as it is given -/
def TimeOpt.arg : TimeOpt → Option (List (List ℚ))
  | .all => none
  | .ranges l => some (l.map fun r => [r.1, r.2])
  | .times l => some (l.map fun a => [a])

/-- the middle of row `r` of an image of `n` rows between `lo` and `hi` -/
def middle {K : Type} [Field K] (lo hi : K) (n r : ℕ) : K := lo + (r + 1 / 2) * (hi - lo) / n

/-! ## Lemmas: rows -/

/-- the state after an integration -/
def after {D E : Type} (o : Opts D E) (s : St E) (g : Integration D) (b : Bool) : St E :=
  if b then ⟨s.times ++ [g.t], true, s.lst ++ [g.lst], s.jd ++ [g.t], s.cnt ++ [s.times.length],
    fun k => s.rows k ++ ((g.recs.filter fun kd => decide (kd.1 = k)).map fun kd => o.proc ⟨g.t, g.lst, kd.1, kd.2⟩)⟩
  else { s with times := s.times ++ [g.t], use := false }

theorem same_time {D E : Type} (o : Opts D E) (s : St E) (r : Rec D) (h : s.times.getLast? = some r.t) :
    newTime o s r = some s := by
  unfold newTime
  rw [if_neg]
  rintro (h' | h')
  · rw [h'] at h; cases h
  · exact h' h

theorem rest_used {D E : Type} (o : Opts D E) (t lst : ℚ) : ∀ (l : List (Key × D)) (s : St E), s.times.getLast? = some t → s.use = true →
    (l.map fun kd => (⟨t, lst, kd.1, kd.2⟩ : Rec D)).foldlM (step o) s =
      some { s with rows := fun k => s.rows k ++ ((l.filter fun kd => decide (kd.1 = k)).map fun kd => o.proc ⟨t, lst, kd.1, kd.2⟩) }
  | [], s, _, _ => by simp
  | kd :: l, s, ht, hu => by
    have hs : step o s ⟨t, lst, kd.1, kd.2⟩ = some { s with rows := append s.rows kd.1 (o.proc ⟨t, lst, kd.1, kd.2⟩) } := by
      unfold step
      rw [same_time o s _ ht]
      simp [hu]
    rw [List.map_cons, List.foldlM_cons, hs]
    have ih := rest_used o t lst l { s with rows := append s.rows kd.1 (o.proc ⟨t, lst, kd.1, kd.2⟩) } ht hu
    simp only [Option.bind_eq_bind, Option.bind_some]
    rw [ih]
    congr 2
    funext k
    simp only [append]
    by_cases hk : k = kd.1
    · subst hk
      simp
    · have : ¬ kd.1 = k := fun h => hk h.symm
      simp [hk, this]

theorem rest_unused {D E : Type} (o : Opts D E) (t lst : ℚ) : ∀ (l : List (Key × D)) (s : St E), s.times.getLast? = some t → s.use = false →
    (l.map fun kd => (⟨t, lst, kd.1, kd.2⟩ : Rec D)).foldlM (step o) s = some s
  | [], s, _, _ => by simp
  | kd :: l, s, ht, hu => by
    have hs : step o s ⟨t, lst, kd.1, kd.2⟩ = some s := by
      unfold step
      rw [same_time o s _ ht]
      simp [hu]
    rw [List.map_cons, List.foldlM_cons, hs]
    simp only [Option.bind_eq_bind, Option.bind_some]
    exact rest_unused o t lst l s ht hu

theorem one_integration {D E : Type} (o : Opts D E) (s : St E) (g : Integration D) (b : Bool) (hne : g.recs ≠ [])
    (ht : s.times.getLast? ≠ some g.t)
    (hb : timeSel o.time o.axis o.inttime o.decimate g.t ((s.times.length : ℚ) / o.decimate) = some b) :
    g.records.foldlM (step o) s = some (after o s g b) := by
  obtain ⟨kd, l, hl⟩ := List.exists_cons_of_ne_nil hne
  unfold Integration.records
  rw [hl, List.map_cons, List.foldlM_cons]
  have hn : newTime o s ⟨g.t, g.lst, kd.1, kd.2⟩ = some (if b then
      { s with times := s.times ++ [g.t], use := true, lst := s.lst ++ [g.lst], jd := s.jd ++ [g.t], cnt := s.cnt ++ [s.times.length] }
      else { s with times := s.times ++ [g.t], use := false }) := by
    unfold newTime
    rw [if_pos (.inr ht)]
    simp only [List.length_append, List.length_cons, List.length_nil, Nat.add_sub_cancel, Nat.zero_add]
    rw [hb]
    rfl
  cases b with
  | true =>
    have hs : step o s ⟨g.t, g.lst, kd.1, kd.2⟩ = some ⟨s.times ++ [g.t], true, s.lst ++ [g.lst],
        s.jd ++ [g.t], s.cnt ++ [s.times.length], append s.rows kd.1 (o.proc ⟨g.t, g.lst, kd.1, kd.2⟩)⟩ := by
      unfold step
      rw [hn]
      rfl
    rw [hs]
    simp only [Option.bind_eq_bind, Option.bind_some]
    rw [rest_used o g.t g.lst l _ (by simp) rfl]
    unfold after
    simp only [if_true]
    congr 2
    funext k
    simp only [append, hl]
    by_cases hk : k = kd.1
    · subst hk
      simp
    · have : ¬ kd.1 = k := fun h => hk h.symm
      simp [hk, this]
  | false =>
    have hs : step o s ⟨g.t, g.lst, kd.1, kd.2⟩ = some { s with times := s.times ++ [g.t], use := false } := by
      unfold step
      rw [hn]
      rfl
    rw [hs]
    simp only [Option.bind_eq_bind, Option.bind_some]
    rw [rest_unused o g.t g.lst l _ (by simp) rfl]
    rfl

theorem after_times {D E : Type} (o : Opts D E) (s : St E) (g : Integration D) (b : Bool) : (after o s g b).times = s.times ++ [g.t] := by
  cases b <;> rfl

theorem all_integrations {D E : Type} (o : Opts D E) (f : Integration D → ℕ → Bool) :
    ∀ (gs : List (Integration D)) (s : St E), (∀ g ∈ gs, g.recs ≠ []) → gs.IsChain (fun a b => a.t ≠ b.t) →
      (∀ g, gs.head? = some g → s.times.getLast? ≠ some g.t) →
      (∀ g ∈ gs, ∀ n : ℕ, timeSel o.time o.axis o.inttime o.decimate g.t ((n : ℚ) / o.decimate) = some (f g n)) →
      ∃ s', (gs.flatMap Integration.records).foldlM (step o) s = some s' ∧
        s'.jd = s.jd ++ (((gs.zipIdx s.times.length).filter fun gn => f gn.1 gn.2).map fun gn => gn.1.t) ∧
        s'.lst = s.lst ++ (((gs.zipIdx s.times.length).filter fun gn => f gn.1 gn.2).map fun gn => gn.1.lst) ∧
        s'.cnt = s.cnt ++ (((gs.zipIdx s.times.length).filter fun gn => f gn.1 gn.2).map fun gn => gn.2) ∧
        ∀ k, s'.rows k = s.rows k ++ (((gs.zipIdx s.times.length).filter fun gn => f gn.1 gn.2).flatMap fun gn =>
          (gn.1.recs.filter fun kd => decide (kd.1 = k)).map fun kd => o.proc ⟨gn.1.t, gn.1.lst, kd.1, kd.2⟩)
  | [], s, _, _, _, _ => ⟨s, by simp⟩
  | g :: gs, s, hne, hch, hh, hf => by
    have h1 := one_integration o s g (f g s.times.length) (hne g (by simp)) (hh g rfl) (hf g (by simp) _)
    obtain ⟨s', e, hjd, hlst, hcnt, hrows⟩ := all_integrations o f gs (after o s g (f g s.times.length)) (fun g' h => hne g' (by simp [h]))
      (List.IsChain.of_cons hch) (by
        intro g' hg'
        rw [after_times]
        simp only [List.getLast?_append, List.getLast?_singleton, Option.some_or, ne_eq, Option.some.injEq]
        cases gs with
        | nil => cases hg'
        | cons g2 gs =>
          simp only [List.head?_cons, Option.some.injEq] at hg'
          subst hg'
          exact (List.isChain_cons_cons.1 hch).1) (fun g' h => hf g' (by simp [h]))
    refine ⟨s', ?_, ?_⟩
    · rw [List.flatMap_cons, List.foldlM_append, h1]
      exact e
    · rw [after_times] at hjd hlst hcnt hrows
      simp only [List.length_append, List.length_cons, List.length_nil, Nat.zero_add] at hjd hlst hcnt hrows
      rw [List.zipIdx_cons]
      cases hb : f g s.times.length with
      | true =>
        rw [hb] at hjd hlst hcnt hrows
        rw [List.filter_cons_of_pos (by simpa using hb)]
        simp only [after, if_true] at hjd hlst hcnt hrows
        refine ⟨by simp [hjd], by simp [hlst], by simp [hcnt], fun k => ?_⟩
        rw [hrows k]
        simp
      | false =>
        rw [hb] at hjd hlst hcnt hrows
        rw [List.filter_cons_of_neg (by simpa using hb)]
        simp only [after, Bool.false_eq_true, if_false] at hjd hlst hcnt hrows
        exact ⟨hjd, hlst, hcnt, hrows⟩

theorem inRanges_pairs (t : ℚ) : ∀ l : List (ℚ × ℚ), inRanges t (l.map fun r => [r.1, r.2]) =
    some (l.any fun r => decide (r.1 ≤ t) && decide (t < r.2))
  | [] => rfl
  | r :: l => by
    have e : inRanges t ((r :: l).map fun r => [r.1, r.2]) =
      if t ≥ r.1 ∧ t < r.2 then some true else inRanges t (l.map fun r => [r.1, r.2]) := rfl
    rw [e, inRanges_pairs t l]
    by_cases h : t ≥ r.1 ∧ t < r.2
    · rw [if_pos h]
      have : r.1 ≤ t := h.1
      simp [this, h.2]
    · rw [if_neg h]
      congr 1
      rw [List.any_cons]
      have : (decide (r.1 ≤ t) && decide (t < r.2)) = false := by
        rw [Bool.eq_false_iff]
        intro h'
        rw [Bool.and_eq_true, decide_eq_true_eq, decide_eq_true_eq] at h'
        exact h h'
      rw [this, Bool.false_or]

/-- options that are not an empty list -/
def TimeOpt.NonEmpty : TimeOpt → Prop
  | .all => True
  | .ranges l => l ≠ []
  | .times l => l ≠ []

theorem timeSel_names {D : Type} (opt : TimeOpt) (hne : opt.NonEmpty) (axis : Axis) (hax : axis ≠ .lst) (inttime : ℚ) (dec : ℕ)
    (hdec : axis = .index → dec = 1) (g : Integration D) (n : ℕ) :
    ∃ b, timeSel opt.arg axis inttime dec g.t ((n : ℚ) / dec) = some b ∧ (b = true ↔ opt.Names axis (inttime * dec) g n) := by
  cases opt with
  | all => exact ⟨true, rfl, by simp [TimeOpt.Names]⟩
  | ranges l =>
    obtain ⟨r, l', rfl⟩ := List.exists_cons_of_ne_nil hne
    have hc : (if axis = .index then (n : ℚ) / dec else g.t) = coord axis g n := by
      cases axis with
      | index => simp [coord, hdec rfl]
      | physical => simp [coord]
      | lst => exact absurd rfl hax
    have e : timeSel (TimeOpt.ranges (r :: l')).arg axis inttime dec g.t ((n : ℚ) / dec) =
        inRanges (if axis = .index then (n : ℚ) / dec else g.t) ((r :: l').map fun r => [r.1, r.2]) := rfl
    rw [e, inRanges_pairs, hc]
    refine ⟨_, rfl, ?_⟩
    simp only [TimeOpt.Names, List.any_eq_true, Bool.and_eq_true, decide_eq_true_eq]
  | times l =>
    obtain ⟨a, l', rfl⟩ := List.exists_cons_of_ne_nil hne
    have hm : ((a :: l').map fun a => [a]).map (fun o : List ℚ => o.headD 0) = a :: l' := by
      rw [List.map_map]
      exact List.map_id' _
    have e : timeSel (TimeOpt.times (a :: l')).arg axis inttime dec g.t ((n : ℚ) / dec) =
        if axis = .index then some (decide ((n : ℚ) / dec ∈ ((a :: l').map fun a => [a]).map (fun o : List ℚ => o.headD 0)))
        else some ((((a :: l').map fun a => [a]).map (fun o : List ℚ => o.headD 0)).any
          fun o => decide (g.t ≥ o) && decide (g.t < o + inttime * dec)) := rfl
    rw [e, hm]
    cases axis with
    | index =>
      have hd := hdec rfl
      subst hd
      refine ⟨_, by rw [if_pos rfl], ?_⟩
      rw [decide_eq_true_eq, Nat.cast_one, div_one]
      constructor
      · intro h
        exact ⟨_, h, by rw [if_pos rfl]; rfl⟩
      · rintro ⟨a', ha', h⟩
        rw [if_pos rfl] at h
        have h' : (n : ℚ) = a' := h
        rw [h']
        exact ha'
    | physical =>
      refine ⟨_, by rw [if_neg (by simp)], ?_⟩
      simp [TimeOpt.Names, coord]
    | lst => exact absurd rfl hax

/-! ## C134: rows -/

/-- the integrations that are named, with their numbers -/
noncomputable def chosen {D : Type} (opt : TimeOpt) (axis : Axis) (len : ℚ) (gs : List (Integration D)) : List (Integration D × ℕ) :=
  gs.zipIdx.filter fun gn => @decide (opt.Names axis len gn.1 gn.2) (Classical.propDecidable _)

/-- **C134** (partial: without selections by sidereal time, and by number only if nothing is decimated).  The times that are plotted are
those of the integrations named by `-t`, in the order of the files, and the rows of a baseline and polarisation are its records in these
integrations, in the same order. -/
theorem c134_rows_partial {D E : Type} (opt : TimeOpt) (hne : opt.NonEmpty) (axis : Axis) (hax : axis ≠ .lst) (inttime : ℚ) (dec : ℕ)
    (hdec : axis = .index → dec = 1) (proc : Rec D → E) (gs : List (Integration D)) (hg : Proper gs) :
    ∃ s, gather ⟨opt.arg, axis, inttime, dec, proc⟩ (gs.flatMap Integration.records) = some s ∧
      s.jd = (chosen opt axis (inttime * dec) gs).map (fun gn => gn.1.t) ∧
      s.lst = (chosen opt axis (inttime * dec) gs).map (fun gn => gn.1.lst) ∧
      s.cnt = (chosen opt axis (inttime * dec) gs).map (fun gn => gn.2) ∧
      ∀ k, s.rows k = (chosen opt axis (inttime * dec) gs).flatMap fun gn =>
        (gn.1.recs.filter fun kd => decide (kd.1 = k)).map fun kd => proc ⟨gn.1.t, gn.1.lst, kd.1, kd.2⟩ := by
  have hf : ∀ g ∈ gs, ∀ n : ℕ, timeSel opt.arg axis inttime dec g.t ((n : ℚ) / dec) =
      some (@decide (opt.Names axis (inttime * dec) g n) (Classical.propDecidable _)) := by
    intro g _ n
    obtain ⟨b, hb, hiff⟩ := timeSel_names opt hne axis hax inttime dec hdec g n
    rw [hb]
    congr 1
    exact Bool.eq_iff_iff.2 (hiff.trans (@decide_eq_true_iff _ (Classical.propDecidable _)).symm)
  obtain ⟨s', h1, h2, h3, h4, h5⟩ := all_integrations ⟨opt.arg, axis, inttime, dec, proc⟩
    (fun g n => @decide (opt.Names axis (inttime * dec) g n) (Classical.propDecidable _)) gs start hg.1 hg.2 (by simp [start]) hf
  exact ⟨s', h1, by simpa [start, chosen] using h2, by simpa [start, chosen] using h3, by simpa [start, chosen] using h4,
    fun k => by simpa [start, chosen] using h5 k⟩

/-- **C134** (partial: as above, and for a baseline with one record in every integration).  The rows of the baseline are as many as
the times, and each row is the record of the time beside it. -/
theorem c134_aligned_partial {D E : Type} (opt : TimeOpt) (hne : opt.NonEmpty) (axis : Axis) (hax : axis ≠ .lst) (inttime : ℚ) (dec : ℕ)
    (hdec : axis = .index → dec = 1) (proc : Rec D → E) (gs : List (Integration D)) (hg : Proper gs) (k : Key)
    (hk : ∀ g ∈ gs, ∃ d, (g.recs.filter fun kd => decide (kd.1 = k)) = [(k, d)]) :
    ∃ s, gather ⟨opt.arg, axis, inttime, dec, proc⟩ (gs.flatMap Integration.records) = some s ∧
      (s.rows k).length = s.jd.length ∧
      ∀ (r : ℕ) (t : ℚ), s.jd[r]? = some t → ∃ g ∈ gs, g.t = t ∧ ∃ d, (k, d) ∈ g.recs ∧ (s.rows k)[r]? = some (proc ⟨t, g.lst, k, d⟩) := by
  obtain ⟨s, h1, hjd, -, -, hrows⟩ := c134_rows_partial opt hne axis hax inttime dec hdec proc gs hg
  refine ⟨s, h1, ?_⟩
  have hc : ∀ gn ∈ chosen opt axis (inttime * dec) gs, gn.1 ∈ gs := by
    intro gn hgn
    exact List.fst_mem_of_mem_zipIdx (List.mem_filter.1 hgn).1
  have hrk := hrows k
  rw [hjd, hrk]
  clear hjd hrk hrows h1
  generalize chosen opt axis (inttime * dec) gs = l at hc
  induction l with
  | nil => simp
  | cons gn l ih =>
    obtain ⟨d, hd⟩ := hk gn.1 (hc gn (by simp))
    obtain ⟨ih1, ih2⟩ := ih (fun gn' h => hc gn' (by simp [h]))
    rw [List.flatMap_cons, hd]
    refine ⟨by simpa using ih1, ?_⟩
    intro r t hr
    cases r with
    | zero =>
      have ht : gn.1.t = t := by simpa using hr
      subst ht
      have hmem : (k, d) ∈ gn.1.recs := List.mem_of_mem_filter (by rw [hd]; simp)
      exact ⟨gn.1, hc gn (by simp), rfl, d, hmem, by simp⟩
    | succ r =>
      obtain ⟨g, hgm, ht, d', hd', hr'⟩ := ih2 r t (by simpa using hr)
      exact ⟨g, hgm, ht, d', hd', by simpa using hr'⟩

/-- three integrations of two baselines -/
def night : List (Integration ℕ) :=
  [⟨10, 1, [((0, 1, -5), 11), ((0, 2, -5), 12)]⟩, ⟨11, 2, [((0, 1, -5), 21), ((0, 2, -5), 22)]⟩, ⟨12, 3, [((0, 1, -5), 31), ((0, 2, -5), 32)]⟩]

theorem night_proper : Proper night := by
  refine ⟨?_, ?_⟩
  · intro g hg
    simp only [night, List.mem_cons, List.not_mem_nil, or_false] at hg
    rcases hg with rfl | rfl | rfl <;> simp
  · norm_num [night]

example : ∃ s, gather ⟨(TimeOpt.ranges [(11, 20)]).arg, .physical, 1, 1, fun r => r.d⟩ (night.flatMap Integration.records) = some s ∧
      (s.rows (0, 2, -5)).length = s.jd.length ∧
      ∀ (r : ℕ) (t : ℚ), s.jd[r]? = some t → ∃ g ∈ night, g.t = t ∧ ∃ d, ((0, 2, -5), d) ∈ g.recs ∧ (s.rows (0, 2, -5))[r]? = some d :=
  c134_aligned_partial (.ranges [(11, 20)]) (by simp [TimeOpt.NonEmpty]) .physical (by simp) 1 1 (by simp) (fun r => r.d) night night_proper
    (0, 2, -5) (by
      intro g hg
      simp only [night, List.mem_cons, List.not_mem_nil, or_false] at hg
      rcases hg with rfl | rfl | rfl
      · exact ⟨12, by decide⟩
      · exact ⟨22, by decide⟩
      · exact ⟨32, by decide⟩)

example : (gather ⟨some [[11, 20]], .physical, 1, 1, fun r => r.d⟩ (night.flatMap Integration.records)).map (fun s => (s.jd, s.cnt, s.rows (0, 2, -5))) =
    some ([11, 12], [1, 2], [22, 32]) := by decide +kernel

/-- **C134 violated**.  A baseline without a record in an integration has its later rows one time too early: here the only row
of (0, 2) is of the time 11, and the first time of the axis is 10. -/
theorem c134_missing_violated :
    (gather ⟨none, .physical, 1, 1, fun r => r.d⟩ ((⟨10, 1, (0, 1, -5), 11⟩ : Rec ℕ) :: ⟨11, 2, (0, 1, -5), 21⟩ :: [⟨11, 2, (0, 2, -5), 22⟩])).map
      (fun s => (s.jd, s.rows (0, 1, -5), s.rows (0, 2, -5))) = some ([10, 11], [11, 21], [22]) := by decide +kernel

/-- **C134 violated**.  If integrations are left out with `-x 2`, the number of an integration is divided by two once more: `-t 1` plots
the one that is numbered 2 on the axis. -/
theorem c134_index_violated :
    (gather ⟨some [[1]], .index, 1, 2, fun r => r.d⟩ (night.flatMap Integration.records)).map (fun s => (s.cnt, s.rows (0, 1, -5))) =
      some ([2], [31]) := by decide +kernel

/-- **C134 violated**.  With the axis of sidereal times the option `-t` is still compared with Julian dates. -/
theorem c134_lst_violated :
    (gather ⟨some [[1, 3]], .lst, 1, 1, fun r => r.d⟩ (night.flatMap Integration.records)).map (fun s => s.rows (0, 1, -5)) = some [] ∧
    (TimeOpt.ranges [(1, 3)]).Names .lst 1 (⟨11, 2, [((0, 1, -5), 21)]⟩ : Integration ℕ) 1 := by
  refine ⟨by decide +kernel, ?_⟩
  exact ⟨(1, 3), by simp, by norm_num [coord], by norm_num [coord]⟩

/-! ## C134: order of the antennas, panels -/

theorem contains_length (p : List Char) : ∀ s, contains p s = true → p.length ≤ s.length
  | [], h => by
    have : p = [] := by simpa [contains] using h
    simp [this]
  | c :: cs, h => by
    have e : contains p (c :: cs) = (p.isPrefixOf (c :: cs) || contains p cs) := rfl
    rw [e, Bool.or_eq_true] at h
    rcases h with h | h
    · exact (List.isPrefixOf_iff_prefix.1 h).length_le
    · have := contains_length p cs h
      simp only [List.length_cons]
      omega

theorem contains_same (p s : List Char) (hl : p.length = s.length) : contains p s = true ↔ p = s := by
  cases s with
  | nil =>
    have : p = [] := List.length_eq_zero_iff.1 hl
    simp [this, contains]
  | cons c cs =>
    have e : contains p (c :: cs) = (p.isPrefixOf (c :: cs) || contains p cs) := rfl
    rw [e, Bool.or_eq_true]
    constructor
    · rintro (h | h)
      · exact (List.isPrefixOf_iff_prefix.1 h).eq_of_length hl
      · have := contains_length p cs h
        simp only [List.length_cons] at hl
        omega
    · rintro rfl
      exact .inl (List.isPrefixOf_iff_prefix.2 (List.prefix_refl _))

theorem printNat_inj {a b : Nat} (h : printNat a = printNat b) : a = b := by
  have := congrArg digitsVal h
  rwa [digitsVal_printNat, digitsVal_printNat] at this

theorem no_underscore (n : Nat) : '_' ∉ printNat n := by
  intro h
  have := printNat_all n _ h
  exact absurd this (by decide)

theorem pair_inj {a b c d : Nat} (h : printNat a ++ '_' :: printNat b = printNat c ++ '_' :: printNat d) : a = c ∧ b = d := by
  have h' := congrArg (splitOn '_') h
  rw [splitOn_append_sep (no_underscore a), splitOn_append_sep (no_underscore c), splitOn_no_sep (no_underscore b),
    splitOn_no_sep (no_underscore d)] at h'
  simp only [List.cons.injEq, and_true] at h'
  exact ⟨printNat_inj h'.1, printNat_inj h'.2⟩

/-- **C134** (partial: for a single pair of antennas).  With `-a a_b` the data of the baseline are conjugated iff they are stored
as (b, a), so that the plot shows the baseline in the order asked for. -/
theorem c134_order_partial (a b i j : Nat) (h : (i = a ∧ j = b) ∨ (i = b ∧ j = a)) (hab : a ≠ b) :
    conjugated (printNat a ++ '_' :: printNat b) i j = true ↔ (i = b ∧ j = a) := by
  unfold conjugated
  have hl : (printNat j ++ '_' :: printNat i).length = (printNat a ++ '_' :: printNat b).length := by
    rcases h with ⟨rfl, rfl⟩ | ⟨rfl, rfl⟩ <;> (simp; try omega)
  rw [contains_same _ _ hl]
  constructor
  · intro h'
    have := pair_inj h'
    exact ⟨this.2, this.1⟩
  · rintro ⟨rfl, rfl⟩
    rfl

example : conjugated "11_2".toList 2 11 = true ∧ conjugated "2_11".toList 2 11 = false := by decide +kernel

/-- **C134 violated**.  With several baselines the numbers of another one can be mistaken: `-a 2_11,1_2` conjugates (1, 2). -/
theorem c134_order_violated : conjugated "2_11,1_2".toList 1 2 = true := by decide +kernel

/-- a key comes before another one: by the first antenna, then by the second, then from xx to yx -/
def Earlier (a b : Key) : Prop := a.1 < b.1 ∨ (a.1 = b.1 ∧ (a.2.1 < b.2.1 ∨ (a.2.1 = b.2.1 ∧ b.2.2 < a.2.2)))

theorem before_iff (a b : Key) : before a b = true ↔ Earlier a b := by
  unfold before Earlier
  rw [decide_eq_true_eq]
  omega

/-- **C134**.  There is one panel for each baseline and polarisation, in order, and the panels fit into the grid. -/
theorem c134_panels (keys : List Key) (hn : keys.Nodup) (hne : keys ≠ []) :
    (panels keys).Perm keys ∧ (panels keys).Pairwise Earlier ∧ keys.length ≤ (grid keys.length).1 * (grid keys.length).2 := by
  have hperm : (panels keys).Perm keys := List.perm_insertionSort _ _
  refine ⟨hperm, ?_, ?_⟩
  · have : Std.Total (fun a b : Key => before b a = false) := ⟨by
      intro a b
      by_contra hc
      rw [not_or, Bool.not_eq_false, Bool.not_eq_false, before_iff, before_iff] at hc
      unfold Earlier at hc
      omega⟩
    have : IsTrans Key (fun a b => before b a = false) := ⟨by
      intro a b c h1 h2
      rw [Bool.eq_false_iff, ne_eq, before_iff] at h1 h2 ⊢
      unfold Earlier at *
      omega⟩
    have hs : (panels keys).Pairwise (fun a b => before b a = false) := List.pairwise_insertionSort _ _
    have hnd : (panels keys).Nodup := hperm.nodup_iff.2 hn
    refine (hs.and hnd).imp ?_
    rintro ⟨a1, a2, a3⟩ ⟨b1, b2, b3⟩ ⟨h1, h2⟩
    rw [Bool.eq_false_iff, ne_eq, before_iff] at h1
    unfold Earlier at *
    have h2' : ¬ (a1 = b1 ∧ a2 = b2 ∧ a3 = b3) := by
      rintro ⟨rfl, rfl, rfl⟩
      exact h2 rfl
    simp only at h1 ⊢
    omega
  · have hpos : 0 < keys.length := List.length_pos_iff.2 hne
    generalize keys.length = n at hpos
    have hm : 0 < Nat.sqrt n := Nat.sqrt_pos.2 hpos
    unfold grid
    simp only []
    have h0 : (0 : ℚ) ≤ (n : ℚ) / (Nat.sqrt n : ℚ) := by positivity
    have h1 : (n : ℚ) / (Nat.sqrt n : ℚ) ≤ ((⌈(n : ℚ) / (Nat.sqrt n : ℚ)⌉).toNat : ℚ) := by
      have := Int.le_ceil ((n : ℚ) / (Nat.sqrt n : ℚ))
      have h2 : ((⌈(n : ℚ) / (Nat.sqrt n : ℚ)⌉).toNat : ℤ) = ⌈(n : ℚ) / (Nat.sqrt n : ℚ)⌉ := Int.toNat_of_nonneg (Int.ceil_nonneg h0)
      have h3 : ((⌈(n : ℚ) / (Nat.sqrt n : ℚ)⌉).toNat : ℚ) = ((⌈(n : ℚ) / (Nat.sqrt n : ℚ)⌉ : ℤ) : ℚ) := by
        rw [← h2]
        push_cast
        rfl
      rw [h3]
      exact this
    have hmq : (0 : ℚ) < (Nat.sqrt n : ℚ) := by exact_mod_cast hm
    rw [div_le_iff₀ hmq] at h1
    have : (n : ℚ) ≤ ((Nat.sqrt n * (⌈(n : ℚ) / (Nat.sqrt n : ℚ)⌉).toNat : ℕ) : ℚ) := by
      push_cast
      rw [mul_comm]
      exact h1
    exact_mod_cast this

example : (panels [(0, 2, -5), (0, 1, -6), (0, 1, -5)]) = [(0, 1, -5), (0, 1, -6), (0, 2, -5)] := by decide

/-! ## C134: differences -/

theorem second_get {K : Type} [Field K] (d : List K) (k : ℕ) (a b c : K) (ha : d[k]? = some a) (hb : d[k + 1]? = some b)
    (hc : d[k + 2]? = some c) : (second d)[k]? = some (a / 2 + c / 2 - b) := by
  have hk : k + 2 < d.length := (List.getElem?_eq_some_iff.1 hc).1
  have h1 : (d.take (d.length - 2))[k]? = some a := by rw [List.getElem?_take, if_pos (by omega), ha]
  have h2 : (d.drop 2)[k]? = some c := by rw [List.getElem?_drop, Nat.add_comm 2 k, hc]
  have h3 : ((d.drop 1).take (d.length - 2))[k]? = some b := by
    rw [List.getElem?_take, if_pos (by omega), List.getElem?_drop, Nat.add_comm 1 k, hb]
  unfold second
  rw [List.getElem?_zipWith, List.getElem?_zipWith, h1, h2, h3]

/-- **C134** (partial: up to the sign).  With `--dt` (`--df`) the number at a time (channel) with two neighbours becomes what a straight
line through the neighbours has more than it; there are two numbers less. -/
theorem c134_second_partial {K : Type} [Field K] (d : List K) :
    (second d).length = d.length - 2 ∧
    ∀ (k : ℕ) (a b c : K), d[k]? = some a → d[k + 1]? = some b → d[k + 2]? = some c → (second d)[k]? = some (-(b - (a + c) / 2)) := by
  constructor
  · simp only [second, List.length_zipWith, List.length_take, List.length_drop]
    omega
  · intro k a b c ha hb hc
    rw [second_get d k a b c ha hb hc]
    congr 1
    ring

example : (second [0, 1, 0, 3, (5 : ℚ)]) = [-1, 2, -1 / 2] := by decide +kernel

/-- **C134** (the same).  Nothing remains of numbers on a straight line. -/
theorem c134_second_linear {K : Type} [Field K] [CharZero K] (a b : K) (n : ℕ) :
    second ((List.range n).map fun i : ℕ => a + b * i) = List.replicate (n - 2) 0 := by
  apply List.ext_getElem?
  intro k
  have hl := (c134_second_partial ((List.range n).map fun i : ℕ => a + b * i)).1
  rw [List.length_map, List.length_range] at hl
  by_cases hk : k + 2 < n
  · have hg : ∀ m, m < n → ((List.range n).map fun i : ℕ => a + b * i)[m]? = some (a + b * (m : K)) := by
      intro m hm
      rw [List.getElem?_map, List.getElem?_range hm]
      rfl
    rw [second_get _ k _ _ _ (hg k (by omega)) (hg (k + 1) (by omega)) (hg (k + 2) hk), List.getElem?_replicate, if_pos (by omega)]
    congr 1
    push_cast
    field_simp
    ring
  · rw [List.getElem?_eq_none (by omega), List.getElem?_replicate, if_neg (by omega)]

example : second ((List.range 5).map fun i : ℕ => (3 : ℚ) + 2 * i) = [0, 0, 0] := c134_second_linear 3 2 5

/-- **C134 violated**.  "Remove a linear extrapolation" gives the negative of what is left: a single positive sample comes out negative. -/
theorem c134_second_sign_violated : second [(0 : ℚ), 1, 0] = [-1] := by decide +kernel

/-! ## C134: axes -/

/-- **C134** (partial: for times that follow each other evenly).  The middle of row `r` of the image is at the number of the integration, and on the
physical axis at its Julian date. -/
theorem c134_axis_partial (n : ℕ) (r : ℕ) (hr : r < n) :
    (∀ c jd, ∃ e, timeExtent .index (List.range' c n) jd = some e ∧ middle e.1 e.2 n r = ((c + r : ℕ) : ℚ)) ∧
    (2 ≤ n → ∀ cnt (a s : ℚ), ∃ e, timeExtent .physical cnt ((List.range n).map fun i : ℕ => a + i * s) = some e ∧
      middle e.1 e.2 n r = a + r * s) := by
  have hn : (n : ℚ) ≠ 0 := by
    have : n ≠ 0 := by omega
    exact_mod_cast this
  refine ⟨fun c jd => ?_, fun h2 cnt a s => ?_⟩
  · have h0 : (List.range' c n).head? = some c := by rw [List.head?_range', if_neg (by omega)]
    have h1 : (List.range' c n).getLast? = some (c + n - 1) := by rw [List.getLast?_range', if_neg (by omega)]
    refine ⟨((c : ℚ) - 1 / 2, ((c + n - 1 : ℕ) : ℚ) + 1 / 2), ?_, ?_⟩
    · simp only [timeExtent, h0, h1]
    · unfold middle
      have e : ((c + n - 1 : ℕ) : ℚ) = c + n - 1 := by
        rw [Nat.cast_sub (by omega)]
        push_cast
        ring
      rw [e]
      push_cast
      field_simp
      ring
  · obtain ⟨m, rfl⟩ : ∃ m, n = m + 2 := ⟨n - 2, by omega⟩
    have hl : (((List.range (m + 2)).map fun i : ℕ => a + i * s)).getLastD 0 = a + ((m + 1 : ℕ) : ℚ) * s := by
      rw [List.range_succ, List.map_append, List.map_cons, List.map_nil, List.getLastD_concat]
    have he : ∃ l, ((List.range (m + 2)).map fun i : ℕ => a + i * s) = a :: (a + s) :: l := by
      refine ⟨((List.range m).map fun i : ℕ => a + ((i + 2 : ℕ) : ℚ) * s), ?_⟩
      rw [List.range_succ_eq_map, List.range_succ_eq_map]
      simp [Function.comp_def]
      intro i _
      left
      ring
    obtain ⟨l, hl'⟩ := he
    refine ⟨(a - s / 2, a + ((m + 1 : ℕ) : ℚ) * s + s / 2), ?_, ?_⟩
    · rw [hl'] at hl ⊢
      simp only [timeExtent]
      rw [hl]
      simp
    · unfold middle
      push_cast at *
      field_simp
      ring

example : ∃ e, timeExtent .index (List.range' 3 4) [] = some e ∧ middle e.1 e.2 4 2 = 5 := by
  obtain ⟨e, h1, h2⟩ := (c134_axis_partial 4 2 (by omega)).1 3 []
  exact ⟨e, h1, by simpa using h2⟩

/-- **C134 violated**.  With a gap (or a list of times) the rows are not where the axis says: the rows of the integrations 0 and 10 are
at 2.25 and 7.75; and with `--dt` the axis still has the two times that are gone: of five, the row of the integration 1 is at 1/3.
A single time has no physical axis. -/
theorem c134_axis_violated :
    (timeExtent .index [0, 10] []).map (fun e => (middle e.1 e.2 2 0, middle e.1 e.2 2 1)) = some (9 / 4, 31 / 4) ∧
    (timeExtent .index [0, 1, 2, 3, 4] []).map (fun e => middle e.1 e.2 (second [(0 : ℚ), 0, 0, 0, 0]).length 0) = some (1 / 3) ∧
    timeExtent .physical [0] [2455000] = none := by decide +kernel

/-! ## C134: delays -/

theorem delays_eq (n : ℕ) (df : ℝ) (c : ℕ) (hc : c < n) : delays n df c = ((c : ℝ) - (n / 2 : ℕ)) / (n * df) := by
  unfold delays fftshift fftfreq
  by_cases h : c < n / 2
  · have e : (c + (n - n / 2)) % n = c + (n - n / 2) := Nat.mod_eq_of_lt (by omega)
    rw [e, if_neg (by omega)]
    congr 1
    rw [Nat.cast_add, Nat.cast_sub (Nat.div_le_self n 2)]
    ring
  · have e : (c + (n - n / 2)) % n = c - n / 2 := by
      have : c + (n - n / 2) = (c - n / 2) + n := by omega
      rw [this, Nat.add_mod_right, Nat.mod_eq_of_lt (by omega)]
    rw [e, if_pos (by omega), Nat.cast_sub (by omega)]

/-- **C134**.  The middle of each column of the image of the delay transform is at its delay in nanoseconds. -/
theorem c134_delay_axis (n : ℕ) (hn : 2 ≤ n) (df : ℝ) (c : ℕ) (hc : c < n) :
    middle (delayExtent n df).1 (delayExtent n df).2 n c = ((c : ℝ) - (n / 2 : ℕ)) / (n * df) ∧
      delays n df c = ((c : ℝ) - (n / 2 : ℕ)) / (n * df) := by
  refine ⟨?_, delays_eq n df c hc⟩
  have hn0 : (n : ℝ) ≠ 0 := by
    have : n ≠ 0 := by omega
    exact_mod_cast this
  unfold middle delayExtent
  simp only []
  rw [delays_eq n df 0 (by omega), delays_eq n df 1 (by omega), delays_eq n df (n - 1) (by omega), Nat.cast_sub (by omega)]
  by_cases hd : df = 0
  · simp [hd]
  · push_cast
    field_simp
    ring

example : middle (delayExtent 4 0.1).1 (delayExtent 4 0.1).2 4 3 = ((3 : ℕ) - ((4 / 2 : ℕ) : ℝ)) / ((4 : ℕ) * 0.1) :=
  (c134_delay_axis 4 (by omega) 0.1 3 (by omega)).1

/-- **C134 violated**.  The axis in bins is right for an even number of channels, but with an odd one the delay zero is at -1/2. -/
theorem c134_bins_violated :
    (∀ n c : ℕ, n ≠ 0 → n % 2 = 0 → middle (binExtent n).1 (binExtent n).2 n c = (c : ℚ) - (n / 2 : ℕ)) ∧
    (∀ n : ℕ, n % 2 = 1 → middle (binExtent n).1 (binExtent n).2 n (n / 2) = -1 / 2) := by
  refine ⟨fun n c h0 he => ?_, fun n ho => ?_⟩
  · have hn0 : (n : ℚ) ≠ 0 := by exact_mod_cast h0
    have e : ((n / 2 : ℕ) : ℚ) = (n : ℚ) / 2 := by
      obtain ⟨m, rfl⟩ : ∃ m, n = 2 * m := ⟨n / 2, by omega⟩
      rw [Nat.mul_div_cancel_left m (by omega)]
      push_cast
      ring
    unfold middle binExtent
    rw [e]
    simp only []
    field_simp
    ring
  · obtain ⟨m, rfl⟩ : ∃ m, n = 2 * m + 1 := ⟨n / 2, by omega⟩
    have e : (2 * m + 1) / 2 = m := by omega
    have hn0 : ((2 * m + 1 : ℕ) : ℚ) ≠ 0 := by positivity
    rw [e]
    unfold middle binExtent
    simp only []
    push_cast at *
    field_simp
    ring

/-- **C134 violated**.  The test for contiguous channels compares their number with their distance in GHz: any two or more channels within
a GHz pass it, and a delay axis is drawn for them. -/
theorem c134_contiguous_violated (freqs : List ℝ) (hl : 2 ≤ freqs.length) (a b : ℝ) (ha : freqs.head? = some a) (hb : freqs.getLast? = some b)
    (hab : b - a < 1) : contiguousCheck freqs = some () := by
  unfold contiguousCheck
  rw [ha, hb]
  simp only []
  rw [if_neg]
  intro h
  have : (2 : ℝ) ≤ freqs.length := by exact_mod_cast hl
  linarith

example : contiguousCheck [0.1, 0.15, 0.151] = some () :=
  c134_contiguous_violated _ (by simp) 0.1 0.151 rfl rfl (by norm_num)

theorem phase_back (n k m c : ℕ) (hn : n ≠ 0) (q : ℤ) (h : (k : ℤ) - ((c : ℤ) - (n / 2 : ℕ)) = q * n) (df τ f0 : ℝ) (hdf : df ≠ 0)
    (hτ : τ = ((c : ℝ) - (n / 2 : ℕ)) / (n * df)) :
    Complex.exp (-(2 * Real.pi * Complex.I * ((f0 + m * df) * τ))) * Complex.exp (2 * Real.pi * Complex.I * (k * m / n)) =
      Complex.exp (-(2 * Real.pi * Complex.I * (f0 * τ))) := by
  have hn0 : (n : ℂ) ≠ 0 := by exact_mod_cast hn
  have hdf0 : (df : ℂ) ≠ 0 := by exact_mod_cast hdf
  have hk : (k : ℂ) = ((c : ℂ) - (n / 2 : ℕ)) + q * n := by
    have h' : (k : ℤ) = ((c : ℤ) - (n / 2 : ℕ)) + q * n := by omega
    exact_mod_cast congrArg (Int.cast : ℤ → ℂ) h'
  have hτc : (τ : ℂ) = ((c : ℂ) - (n / 2 : ℕ)) / (n * df) := by
    rw [hτ]
    push_cast
    rfl
  rw [← Complex.exp_add, Complex.exp_eq_exp_iff_exists_int]
  refine ⟨q * m, ?_⟩
  rw [hτc, hk]
  push_cast
  field_simp
  ring

/-- **C134**.  The delay transform of a signal with the delay `τ` of column `c0` of the plot, `A exp(-2πi f τ)`, with a window that is nowhere
negative, is largest in that column. -/
theorem c134_delay_peak (n : ℕ) (hn : n ≠ 0) (df : ℝ) (hdf : df ≠ 0) (f0 : ℝ) (w : ℕ → ℝ) (hw : ∀ m, 0 ≤ w m) (A : ℂ) (c0 : ℕ) (hc0 : c0 < n)
    (d : ℕ → ℂ) (hd : ∀ m, d m = A * Complex.exp (-(2 * Real.pi * Complex.I * ((f0 + m * df) * delays n df c0)))) :
    ‖delayTransform n w d c0‖ = ‖A‖ * (∑ m ∈ Finset.range n, w m) / n ∧
    ∀ c, ‖delayTransform n w d c‖ ≤ ‖delayTransform n w d c0‖ := by
  have hsum : 0 ≤ ∑ m ∈ Finset.range n, w m := Finset.sum_nonneg fun m _ => hw m
  have h0 : ‖delayTransform n w d c0‖ = ‖A‖ * (∑ m ∈ Finset.range n, w m) / n := by
    obtain ⟨q, hq⟩ : ∃ q : ℤ, (((c0 + (n - n / 2)) % n : ℕ) : ℤ) - ((c0 : ℤ) - (n / 2 : ℕ)) = q * n := by
      by_cases h : c0 < n / 2
      · refine ⟨1, ?_⟩
        rw [Nat.mod_eq_of_lt (by omega)]
        omega
      · refine ⟨0, ?_⟩
        have : c0 + (n - n / 2) = (c0 - n / 2) + n := by omega
        rw [this, Nat.add_mod_right, Nat.mod_eq_of_lt (by omega)]
        omega
    have hT : delayTransform n w d c0 =
        A * Complex.exp (-(2 * Real.pi * Complex.I * (f0 * delays n df c0))) * ((∑ m ∈ Finset.range n, w m : ℝ) : ℂ) / n := by
      unfold delayTransform fftshift ifft
      congr 1
      rw [Complex.ofReal_sum, Finset.mul_sum]
      apply Finset.sum_congr rfl
      intro m _
      simp only [hd m]
      have := phase_back n ((c0 + (n - n / 2)) % n) m c0 hn q hq df (delays n df c0) f0 hdf (delays_eq n df c0 hc0)
      rw [← this]
      ring
    rw [hT, norm_div, norm_mul, norm_mul, Complex.norm_real, Complex.norm_natCast, Real.norm_of_nonneg hsum]
    have he : ‖Complex.exp (-(2 * Real.pi * Complex.I * (f0 * delays n df c0)))‖ = 1 := by
      have : (-(2 * Real.pi * Complex.I * (f0 * delays n df c0)) : ℂ) = ((-(2 * Real.pi * (f0 * delays n df c0)) : ℝ) : ℂ) * Complex.I := by
        push_cast
        ring
      rw [this, Complex.norm_exp_ofReal_mul_I]
    rw [he, mul_one]
  refine ⟨h0, fun c => ?_⟩
  rw [h0]
  unfold delayTransform fftshift ifft
  rw [norm_div, Complex.norm_natCast]
  apply div_le_div_of_nonneg_right _ (Nat.cast_nonneg n)
  refine (norm_sum_le _ _).trans ?_
  rw [Finset.mul_sum]
  apply Finset.sum_le_sum
  intro m _
  simp only [hd m]
  rw [norm_mul, norm_mul, norm_mul, Complex.norm_real, Real.norm_of_nonneg (hw m)]
  have he : ∀ x : ℝ, ‖Complex.exp ((x : ℂ) * Complex.I)‖ = 1 := Complex.norm_exp_ofReal_mul_I
  have e1 : (-(2 * Real.pi * Complex.I * ((f0 + m * df) * delays n df c0)) : ℂ) =
      ((-(2 * Real.pi * ((f0 + m * df) * delays n df c0)) : ℝ) : ℂ) * Complex.I := by
    push_cast
    ring
  have e2 : (2 * Real.pi * Complex.I * ((((c + (n - n / 2)) % n : ℕ) : ℂ) * m / n) : ℂ) =
      ((2 * Real.pi * ((((c + (n - n / 2)) % n : ℕ) : ℝ) * m / n) : ℝ) : ℂ) * Complex.I := by
    push_cast
    ring
  rw [e1, e2, he, he]
  simp

example : ‖delayTransform 4 (fun _ => 1) (fun m => 2 * Complex.exp (-(2 * Real.pi * Complex.I * (((0.1 : ℝ) + m * (0.01 : ℝ)) * delays 4 0.01 3)))) 3‖ =
    ‖(2 : ℂ)‖ * (∑ m ∈ Finset.range 4, 1) / (4 : ℕ) :=
  (c134_delay_peak 4 (by omega) 0.01 (by norm_num) 0.1 (fun _ => 1) (fun _ => zero_le_one) 2 3 (by omega) _ (fun _ => rfl)).1

end Verif.Misc.PlotUv
