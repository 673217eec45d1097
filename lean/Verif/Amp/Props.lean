import Verif.Amp.Model
import Verif.Phs.Props
/-!
# Properties C17, C18 : simulated visibilities
-/
noncomputable section
namespace Verif.Amp
open Verif.Coord Verif.Phs Real

/-! ## Specification -/

/-- what matters of a history of calls: the time, the polarisation and the sources given since the time was set -/
structure Hist where
  lst : ℝ
  timeSet : Bool
  pol : Option (Char × Char)
  srcs : Option (List Row)

def Hist.init (lst : ℝ) : Hist := ⟨lst, false, none, none⟩

def Hist.step (h : Hist) : Op → Hist
  | .setJultime lst => { h with lst := lst, timeSet := true, srcs := none }
  | .setEphemtime lst => { h with lst := lst }
  | .setPol p => { h with pol := some p }
  | .simCache rows => if h.timeSet then { h with srcs := some rows } else h
  | .sim _ _ => h

def Hist.of (lst : ℝ) (ops : List Op) : Hist := ops.foldl Hist.step (.init lst)

/-- direction of a source relative to the array at sidereal time `lst` -/
def skyTop (lat lst : ℝ) (v : Vec) : Vec := (eq2top_m (-lst) lat).mulVec v

/-- the visibility of one source: gains, beams, flux and fringe -/
def vis1 (a : SArr) (lst : ℝ) (ai aj : SAnt) (pol : Char × Char) (f : ℝ) (r : Row) : ℂ :=
  (aj.gain pol.2 f * (starRingEnd ℂ) (ai.gain pol.1 f)) *
  (aj.beam pol.2 (skyTop a.lat lst r.eq) f * (starRingEnd ℂ) (ai.beam pol.1 (skyTop a.lat lst r.eq) f)) *
  (r.jys f : ℂ) * (starRingEnd ℂ) (phsAt a.J1 lst ai aj pol r f)

open Classical in
/-- the sources above the horizon -/
def upRows (a : SArr) (lst : ℝ) (rows : List Row) : List Row :=
  rows.filter (fun r => decide (0 < skyTop a.lat lst r.eq 2))

/-- the visibility spectrum of a list of sources -/
def vis (a : SArr) (lst : ℝ) (ai aj : SAnt) (pol : Char × Char) (rows : List Row) : List ℂ :=
  a.afreqs.map (fun f => ((upRows a lst rows).map (vis1 a lst ai aj pol f)).sum)

/-- the history does not move the clock behind `sim_cache`'s back with `set_ephemtime` -/
def NoEphem (ops : List Op) : Prop := ∀ o ∈ ops, ∀ t, o ≠ .setEphemtime t

/-! ## Lemmas -/

/-- every cached beam response is the response towards the cached positions -/
def BeamsOk (a : SArr) (tops : List Vec) (beams : List ((Nat × Char) × List (ℝ → ℂ))) : Prop :=
  ∀ c p r, beams.lookup (c, p) = some r → ∃ ant, a.ants[c]? = some ant ∧ r = tops.map (fun t => ant.beam p t)

/-- the cache holds what the history says -/
def CacheOk (a : SArr) (h : Hist) (c : Cache) : Prop :=
  match h.timeSet, h.srcs with
  | false, _ => c = .missing
  | true, none => c = .cleared
  | true, some rows =>
    (upRows a h.lst rows = [] ∧ c = .empty) ∨
    (upRows a h.lst rows ≠ [] ∧ ∃ beams, c = .full (upRows a h.lst rows)
      ((upRows a h.lst rows).map (fun r => skyTop a.lat h.lst r.eq)) beams ∧
      BeamsOk a ((upRows a h.lst rows).map (fun r => skyTop a.lat h.lst r.eq)) beams)

structure Inv (a : SArr) (s : St) (h : Hist) : Prop where
  lst : s.lst = h.lst
  pol : s.pol = h.pol
  mat : s.eq2top = if h.timeSet then some (eq2top_m (-h.lst) a.lat) else none
  cache : CacheOk a h s.cache

theorem lookup_cons_ne {V : Type} {k k' : Nat × Char} (v : V) (l : List ((Nat × Char) × V)) (h : k' ≠ k) :
    List.lookup k' ((k, v) :: l) = l.lookup k' := by
  rw [List.lookup_cons]
  have : (k' == k) = false := by simpa using h
  rw [this]

theorem fill_ok {a : SArr} {tops : List Vec} {beams : List ((Nat × Char) × List (ℝ → ℂ))} {c : Nat} {p : Char}
    {ant : SAnt} (hant : a.ants[c]? = some ant) (h : BeamsOk a tops beams) :
    BeamsOk a tops (fill tops beams c p ant) ∧
    (fill tops beams c p ant).lookup (c, p) = some (tops.map (fun t => ant.beam p t)) ∧
    ∀ c' p' r, beams.lookup (c', p') = some r → (fill tops beams c p ant).lookup (c', p') = some r := by
  unfold fill
  cases hl : beams.lookup (c, p) with
  | some r =>
    simp only
    obtain ⟨ant', h1, h2⟩ := h c p r hl
    rw [hant] at h1; cases h1
    exact ⟨h, by rw [hl, h2], fun _ _ _ h => h⟩
  | none =>
    simp only
    have hself : List.lookup (c, p) (((c, p), tops.map (fun t => ant.beam p t)) :: beams) =
        some (tops.map (fun t => ant.beam p t)) := by
      rw [List.lookup_cons]; simp
    refine ⟨?_, hself, ?_⟩
    · intro c' p' r hr
      by_cases e : (c', p') = (c, p)
      · cases e
        rw [hself] at hr; cases hr
        exact ⟨ant, hant, rfl⟩
      · rw [lookup_cons_ne _ _ e] at hr
        exact h c' p' r hr
    · intro c' p' r hr
      have e : (c', p') ≠ (c, p) := by intro e; cases e; rw [hl] at hr; cases hr
      rw [lookup_cons_ne _ _ e, hr]

theorem sumAt_eq (a : SArr) (lst : ℝ) (ai aj : SAnt) (pol : Char × Char) (f : ℝ) (rows : List Row) :
    sumAt a.J1 lst ai aj pol f rows ((rows.map (fun r => skyTop a.lat lst r.eq)).map (fun t => ai.beam pol.1 t))
      ((rows.map (fun r => skyTop a.lat lst r.eq)).map (fun t => aj.beam pol.2 t)) =
      (rows.map (vis1 a lst ai aj pol f)).sum := by
  induction rows with
  | nil => simp [sumAt]
  | cons r rows ih =>
    simp only [List.map_cons, List.sum_cons, sumAt]
    rw [ih]
    rfl

theorem getSAnt_ok {a : SArr} {i : Nat} {x : SAnt} : getSAnt a i = .ok x ↔ a.ants[i]? = some x := by
  unfold getSAnt
  cases a.ants[i]? <;> simp

/-- the computation with a correct cache -/
theorem simFull_ok {a : SArr} {s s' : St} {i j : Nat} {rows : List Row}
    {beams : List ((Nat × Char) × List (ℝ → ℂ))} {v : List ℂ} {lst : ℝ} (hl : s.lst = lst)
    (hb : BeamsOk a (rows.map (fun r => skyTop a.lat lst r.eq)) beams)
    (h : simFull a s i j rows (rows.map (fun r => skyTop a.lat lst r.eq)) beams = .ok (s', v)) :
    ∃ ai aj p beams', a.ants[i]? = some ai ∧ a.ants[j]? = some aj ∧ s.pol = some p ∧
      v = a.afreqs.map (fun f => (rows.map (vis1 a lst ai aj p f)).sum) ∧
      s' = { s with cache := .full rows (rows.map (fun r => skyTop a.lat lst r.eq)) beams' } ∧
      BeamsOk a (rows.map (fun r => skyTop a.lat lst r.eq)) beams' := by
  unfold simFull at h
  cases hj : getSAnt a j with
  | error e => rw [hj] at h; cases h
  | ok aj =>
    cases hi : getSAnt a i with
    | error e => rw [hj, hi] at h; cases h
    | ok ai =>
      rw [hj, hi] at h
      rw [getSAnt_ok] at hi hj
      cases hp : s.pol with
      | none => rw [hp] at h; cases h
      | some p =>
        rw [hp] at h
        obtain ⟨f1, f2, f3⟩ := fill_ok (p := p.1) hi hb
        obtain ⟨g1, g2, g3⟩ := fill_ok (p := p.2) hj f1
        have hri := g3 _ _ _ f2
        simp only [bind, Except.bind] at h
        split at h
        · cases h
        split at h
        · cases h
        · simp only [Except.ok.injEq, Prod.mk.injEq] at h
          obtain ⟨h1, h2⟩ := h
          refine ⟨ai, aj, p, _, hi, hj, rfl, ?_, h1.symm, g1⟩
          rw [← h2, hri, g2, hl]
          apply List.map_congr_left
          intro f _
          exact sumAt_eq a lst ai aj p f rows

theorem simFull_total {a : SArr} {s : St} {i j : Nat} {rows : List Row} {tops : List Vec}
    {beams : List ((Nat × Char) × List (ℝ → ℂ))} {ai aj : SAnt} {p : Char × Char}
    (hi : a.ants[i]? = some ai) (hj : a.ants[j]? = some aj) (hp : s.pol = some p) (hf : (0 : ℝ) ∉ a.afreqs)
    (h1 : a.afreqs.length ≠ 1 ∨ rows.length ≤ 1) : ∃ r, simFull a s i j rows tops beams = .ok r := by
  unfold simFull
  rw [getSAnt_ok.2 hi, getSAnt_ok.2 hj, hp]
  simp only [bind, Except.bind]
  rw [if_neg hf, if_neg (by omega)]
  exact ⟨_, rfl⟩

theorem simEmpty_ok {a : SArr} {s s' : St} {i j : Nat} {v : List ℂ} (h : simEmpty a s i j = .ok (s', v)) :
    ∃ ai aj, a.ants[i]? = some ai ∧ a.ants[j]? = some aj ∧ s' = s ∧ v = a.afreqs.map (fun _ => 0) := by
  unfold simEmpty at h
  simp only [bind, Except.bind] at h
  split at h
  · cases h
  · cases hj : getSAnt a j with
    | error e => rw [hj] at h; cases h
    | ok aj =>
      cases hi : getSAnt a i with
      | error e => rw [hj, hi] at h; cases h
      | ok ai =>
        rw [hj, hi] at h
        simp only [Except.ok.injEq, Prod.mk.injEq] at h
        exact ⟨ai, aj, getSAnt_ok.1 hi, getSAnt_ok.1 hj, h.1.symm, h.2.symm⟩

theorem inv_sim {a : SArr} {s s' : St} {h : Hist} {i j : Nat} {v : List ℂ} (hI : Inv a s h)
    (hs : sim a s i j = .ok (s', v)) : Inv a s' h := by
  obtain ⟨h1, h2, h3, h4⟩ := hI
  unfold sim at hs
  cases hc : s.cache with
  | missing => rw [hc] at hs; cases hs
  | cleared => rw [hc] at hs; cases hs
  | empty =>
    rw [hc] at hs
    obtain ⟨_, _, _, _, rfl, _⟩ := simEmpty_ok hs
    exact ⟨h1, h2, h3, h4⟩
  | full rows tops beams =>
    rw [hc] at hs
    rw [hc] at h4
    unfold CacheOk at h4
    cases ht : h.timeSet with
    | false => rw [ht] at h4; cases h4
    | true =>
      cases hsr : h.srcs with
      | none => rw [ht, hsr] at h4; cases h4
      | some rows0 =>
        rw [ht, hsr] at h4
        rcases h4 with ⟨_, h4⟩ | ⟨hne, b, h4, hb⟩
        · cases h4
        · cases h4
          obtain ⟨_, _, _, b', _, _, _, _, rfl, hb'⟩ := simFull_ok h1 hb hs
          refine ⟨h1, h2, h3, ?_⟩
          unfold CacheOk
          rw [ht, hsr]
          exact Or.inr ⟨hne, b', rfl, hb'⟩

theorem inv_step {a : SArr} {s : St} {h : Hist} (hI : Inv a s h) (o : Op) (ho : ∀ t, o ≠ .setEphemtime t) :
    Inv a (step a s o) (h.step o) := by
  cases o with
  | setEphemtime t => exact absurd rfl (ho t)
  | setJultime lst => exact ⟨rfl, hI.pol, rfl, rfl⟩
  | setPol p => exact ⟨hI.lst, rfl, hI.mat, hI.cache⟩
  | simCache rows =>
    unfold step Hist.step simCache
    obtain ⟨h1, h2, h3, h4⟩ := hI
    cases ht : h.timeSet with
    | false =>
      rw [h3, ht]
      exact ⟨h1, h2, h3, h4⟩
    | true =>
      rw [h3, ht]
      simp only [if_true]
      have hup : rows.filter (fun r => @decide (isUp (eq2top_m (-h.lst) a.lat) r) (Classical.propDecidable _)) =
          upRows a h.lst rows := rfl
      rw [hup]
      by_cases he : upRows a h.lst rows = []
      · rw [if_pos he]
        refine ⟨h1, h2, ?_, ?_⟩
        · rfl
        · unfold CacheOk; exact Or.inl ⟨he, rfl⟩
      · rw [if_neg he]
        refine ⟨h1, h2, ?_, ?_⟩
        · rfl
        · unfold CacheOk
          refine Or.inr ⟨he, [], rfl, ?_⟩
          intro c p r hr; cases hr
  | sim i j =>
    show Inv a (match sim a s i j with | .ok r => r.1 | .error _ => s) h
    cases hs : sim a s i j with
    | error e => exact hI
    | ok r => exact inv_sim hI (v := r.2) hs

theorem inv_run {a : SArr} (lst : ℝ) (ops : List Op) (ho : NoEphem ops) :
    Inv a (run a (.init lst) ops) (.of lst ops) := by
  have : ∀ (ops : List Op) s h, Inv a s h → NoEphem ops → Inv a (ops.foldl (step a) s) (ops.foldl Hist.step h) := by
    intro ops
    induction ops with
    | nil => intro s h hI _; exact hI
    | cons o ops ih =>
      intro s h hI hn
      exact ih _ _ (inv_step hI o (fun t => hn o (by simp) t)) (fun o' ho' => hn o' (by simp [ho']))
  exact this ops _ _ ⟨rfl, rfl, rfl, rfl⟩ ho

/-! ## C18 -/

/-- C18: after any history of calls, `sim` answers with the visibility of the sources given to the last `sim_cache`
since the last `set_jultime`, at the time set by that `set_jultime` and for the active polarisation. -/
theorem c18_never_stale (a : SArr) (lst0 : ℝ) (ops : List Op) (hn : NoEphem ops) (i j : Nat) (s' : St) (v : List ℂ)
    (h : sim a (run a (.init lst0) ops) i j = .ok (s', v)) :
    ∃ rows ai aj, (Hist.of lst0 ops).timeSet = true ∧ (Hist.of lst0 ops).srcs = some rows ∧
      a.ants[i]? = some ai ∧ a.ants[j]? = some aj ∧
      ∀ p, (Hist.of lst0 ops).pol = some p → v = vis a (Hist.of lst0 ops).lst ai aj p rows := by
  obtain ⟨h1, h2, h3, h4⟩ := inv_run (a := a) lst0 ops hn
  generalize hh : Hist.of lst0 ops = H at *
  generalize hs : run a (.init lst0) ops = s at *
  unfold CacheOk at h4
  cases ht : H.timeSet with
  | false => rw [ht] at h4; unfold sim at h; rw [show s.cache = _ from h4] at h; cases h
  | true =>
    cases hsr : H.srcs with
    | none => rw [ht, hsr] at h4; unfold sim at h; rw [show s.cache = _ from h4] at h; cases h
    | some rows =>
      rw [ht, hsr] at h4
      unfold sim at h
      rcases h4 with ⟨he, h4⟩ | ⟨hne, b, h4, hb⟩
      · rw [h4] at h
        obtain ⟨ai, aj, e1, e2, _, rfl⟩ := simEmpty_ok h
        refine ⟨rows, ai, aj, rfl, rfl, e1, e2, ?_⟩
        intro p _
        unfold vis
        rw [he]
        rfl
      · rw [h4] at h
        obtain ⟨ai, aj, p, b', e1, e2, e3, rfl, _, _⟩ := simFull_ok h1 hb h
        refine ⟨rows, ai, aj, rfl, rfl, e1, e2, ?_⟩
        intro p' hp'
        rw [← h2, e3] at hp'
        cases hp'
        rfl

/-- C18: and it does answer whenever time, sources and polarisation have been given and the antennas exist, if more than one
channel is active or not more than one of the sources is up (see `c18_one_channel_violated`). -/
theorem c18_answers_partial (a : SArr) (lst0 : ℝ) (ops : List Op) (hn : NoEphem ops) (i j : Nat) (rows : List Row)
    (ai aj : SAnt) (p : Char × Char) (hi : a.ants[i]? = some ai) (hj : a.ants[j]? = some aj)
    (hf : (0 : ℝ) ∉ a.afreqs) (ht : (Hist.of lst0 ops).timeSet = true) (hs : (Hist.of lst0 ops).srcs = some rows)
    (hp : (Hist.of lst0 ops).pol = some p)
    (h1 : a.afreqs.length ≠ 1 ∨ (upRows a (Hist.of lst0 ops).lst rows).length ≤ 1) :
    ∃ s', sim a (run a (.init lst0) ops) i j = .ok (s', vis a (Hist.of lst0 ops).lst ai aj p rows) := by
  have hI := inv_run (a := a) lst0 ops hn
  have hex : ∃ r, sim a (run a (.init lst0) ops) i j = .ok r := by
    obtain ⟨_, h2, h3, h4⟩ := hI
    unfold CacheOk at h4
    rw [ht, hs] at h4
    unfold sim
    rcases h4 with ⟨he, h4⟩ | ⟨hne, b, h4, hb⟩
    · rw [h4]
      simp only
      unfold simEmpty
      simp only [bind, Except.bind]
      rw [if_neg (by rw [h2, hp]; simp), getSAnt_ok.2 hi, getSAnt_ok.2 hj]
      exact ⟨_, rfl⟩
    · rw [h4]
      exact simFull_total hi hj (by rw [h2, hp]) hf h1
  obtain ⟨⟨s', v⟩, hr⟩ := hex
  obtain ⟨rows', ai', aj', _, e2, e3, e4, e5⟩ := c18_never_stale a lst0 ops hn i j s' v hr
  rw [hs] at e2; rw [hi] at e3; rw [hj] at e4
  cases e2; cases e3; cases e4
  exact ⟨s', by rw [hr, e5 p hp]⟩

/-- C18: without `sim_cache` since the last `set_jultime`, `sim` raises. -/
theorem c18_raises (a : SArr) (lst0 : ℝ) (ops : List Op) (hn : NoEphem ops) (i j : Nat)
    (h : (Hist.of lst0 ops).timeSet = false ∨ (Hist.of lst0 ops).srcs = none) (r : St × List ℂ) :
    sim a (run a (.init lst0) ops) i j ≠ .ok r := by
  intro hr
  obtain ⟨rows, _, _, e1, e2, _⟩ := c18_never_stale a lst0 ops hn i j r.1 r.2 hr
  rcases h with h | h
  · rw [h] at e1; cases e1
  · rw [h] at e2; cases e2

/-- C18: asking again, after any other visibilities and changes of polarisation, gives the same answer. -/
theorem c18_repeatable (a : SArr) (lst0 : ℝ) (ops mid : List Op) (hn : NoEphem ops)
    (hm : ∀ o ∈ mid, (∃ k l, o = .sim k l) ∨ ∃ q, o = .setPol q) (i j : Nat) (p : Char × Char) (s1 : St) (v1 : List ℂ)
    (s2 : St) (v2 : List ℂ)
    (h1 : sim a (run a (.init lst0) (ops ++ [.setPol p])) i j = .ok (s1, v1))
    (h2 : sim a (run a (.init lst0) (ops ++ [.setPol p] ++ mid ++ [.setPol p])) i j = .ok (s2, v2)) : v1 = v2 := by
  have hmid : ∀ (mid : List Op) (H : Hist), (∀ o ∈ mid, (∃ k l, o = .sim k l) ∨ ∃ q, o = Op.setPol q) →
      (mid.foldl Hist.step H).lst = H.lst ∧ (mid.foldl Hist.step H).timeSet = H.timeSet ∧
      (mid.foldl Hist.step H).srcs = H.srcs := by
    intro mid
    induction mid with
    | nil => intro H _; exact ⟨rfl, rfl, rfl⟩
    | cons o mid ih =>
      intro H hm
      rw [List.foldl_cons]
      obtain ⟨i1, i2, i3⟩ := ih (H.step o) (fun o' ho' => hm o' (by simp [ho']))
      rcases hm o (by simp) with ⟨k, l, rfl⟩ | ⟨q, rfl⟩
      · exact ⟨i1, i2, i3⟩
      · exact ⟨i1, i2, i3⟩
  have hn1 : NoEphem (ops ++ [.setPol p]) := by
    intro o ho t e
    rw [List.mem_append] at ho
    rcases ho with ho | ho
    · exact hn o ho t e
    · simp at ho; rw [ho] at e; cases e
  have hn2 : NoEphem (ops ++ [.setPol p] ++ mid ++ [.setPol p]) := by
    intro o ho t e
    simp only [List.mem_append, List.mem_singleton] at ho
    rcases ho with ((ho | ho) | ho) | ho
    · exact hn o ho t e
    · rw [ho] at e; cases e
    · rcases hm o ho with ⟨k, l, rfl⟩ | ⟨q, rfl⟩ <;> cases e
    · rw [ho] at e; cases e
  obtain ⟨r1, ai, aj, _, e2, e3, e4, e5⟩ := c18_never_stale a lst0 _ hn1 i j s1 v1 h1
  obtain ⟨r2, ai', aj', _, f2, f3, f4, f5⟩ := c18_never_stale a lst0 _ hn2 i j s2 v2 h2
  obtain ⟨m1, m2, m3⟩ := hmid mid (Hist.of lst0 (ops ++ [.setPol p])) hm
  have hof : Hist.of lst0 (ops ++ [.setPol p] ++ mid ++ [.setPol p]) =
      (mid.foldl Hist.step (Hist.of lst0 (ops ++ [.setPol p]))).step (.setPol p) := by
    unfold Hist.of
    simp only [List.foldl_append, List.foldl_cons, List.foldl_nil]
  have hp1 : (Hist.of lst0 (ops ++ [.setPol p])).pol = some p := by
    unfold Hist.of; simp [List.foldl_append, Hist.step]
  rw [e3] at f3; rw [e4] at f4
  cases f3; cases f4
  rw [e5 p hp1, f5 p (by rw [hof]; rfl)]
  rw [hof] at f2 ⊢
  have hl : ((mid.foldl Hist.step (Hist.of lst0 (ops ++ [.setPol p]))).step (.setPol p)).lst =
      (Hist.of lst0 (ops ++ [.setPol p])).lst := m1
  have hr : r1 = r2 := by
    have : (mid.foldl Hist.step (Hist.of lst0 (ops ++ [.setPol p]))).srcs = some r2 := f2
    rw [m3, e2] at this
    exact Option.some.inj this
  rw [hl, hr]

/-- C18: with one active channel (`select_chans([c])`) and more than one source up, `sim` raises, whatever the array and the
history. -/
theorem c18_one_channel_violated (a : SArr) (lst0 : ℝ) (ops : List Op) (hn : NoEphem ops) (i j : Nat) (rows : List Row)
    (h1 : a.afreqs.length = 1) (hs : (Hist.of lst0 ops).srcs = some rows)
    (hup : 1 < (upRows a (Hist.of lst0 ops).lst rows).length) (r : St × List ℂ) :
    sim a (run a (.init lst0) ops) i j ≠ .ok r := by
  intro hr
  obtain ⟨_, _, _, e1, _⟩ := c18_never_stale a lst0 ops hn i j r.1 r.2 hr
  obtain ⟨_, h2, h3, h4⟩ := inv_run (a := a) lst0 ops hn
  unfold CacheOk at h4
  rw [e1, hs] at h4
  unfold sim at hr
  rcases h4 with ⟨he, h4⟩ | ⟨hne, b, h4, hb⟩
  · rw [he] at hup; simp at hup
  · rw [h4] at hr
    simp only [simFull, bind, Except.bind] at hr
    split at hr
    · cases hr
    split at hr
    · cases hr
    split at hr
    · cases hr
    split at hr
    · cases hr
    rw [if_pos ⟨h1, hup⟩] at hr
    cases hr

/-! ## C17 -/

/-- the answer of `sim(i,j)` after a history -/
def Answer (a : SArr) (lst0 : ℝ) (ops : List Op) (i j : Nat) (v : List ℂ) : Prop :=
  ∃ s', sim a (run a (.init lst0) ops) i j = .ok (s', v)

theorem noEphem_append {ops : List Op} {o : Op} (h : NoEphem ops) (ho : ∀ t, o ≠ .setEphemtime t) :
    NoEphem (ops ++ [o]) := by
  intro o' ho' t
  rw [List.mem_append, List.mem_singleton] at ho'
  rcases ho' with ho' | rfl
  · exact h o' ho' t
  · exact ho t

theorem of_append (lst0 : ℝ) (ops : List Op) (o : Op) :
    Hist.of lst0 (ops ++ [o]) = (Hist.of lst0 ops).step o := by
  unfold Hist.of
  rw [List.foldl_append]
  rfl

theorem phsAt_conj (J1 : ℝ → ℝ) (lst : ℝ) (ai aj : SAnt) (p1 p2 : Char) (r : Row) (f : ℝ) :
    phsAt J1 lst aj ai (p2, p1) r f = (starRingEnd ℂ) (phsAt J1 lst ai aj (p1, p2) r f) := by
  unfold phsAt
  simp only
  have e : ai.pos - aj.pos = -(aj.pos - ai.pos) := by rw [neg_sub]
  rw [e, Matrix.mulVec_neg, wAt_neg, ampAt_neg, map_mul, ← expPhs_conj]
  have o : offsetAt aj ai (p2, p1) f = -offsetAt ai aj (p1, p2) f := by unfold offsetAt; simp
  rw [o, Complex.conj_ofReal]

theorem vis1_conj (a : SArr) (lst : ℝ) (ai aj : SAnt) (p1 p2 : Char) (f : ℝ) (r : Row) :
    vis1 a lst aj ai (p2, p1) f r = (starRingEnd ℂ) (vis1 a lst ai aj (p1, p2) f r) := by
  unfold vis1
  rw [phsAt_conj]
  simp only [map_mul, Complex.conj_conj, Complex.conj_ofReal]
  ring

theorem conj_sum (l : List ℂ) : (starRingEnd ℂ) l.sum = (l.map (starRingEnd ℂ)).sum := map_list_sum _ _

theorem vis_conj (a : SArr) (lst : ℝ) (ai aj : SAnt) (p1 p2 : Char) (rows : List Row) :
    vis a lst aj ai (p2, p1) rows = (vis a lst ai aj (p1, p2) rows).map (starRingEnd ℂ) := by
  unfold vis
  rw [List.map_map]
  apply List.map_congr_left
  intro f _
  simp only [Function.comp_apply]
  rw [conj_sum, List.map_map]
  congr 1
  apply List.map_congr_left
  intro r _
  exact vis1_conj a lst ai aj p1 p2 f r

/-- C17: the visibility of the reversed baseline with the feeds exchanged is the complex conjugate, after any
history.  For the parallel-hand polarisations the feeds are equal and nothing has to be exchanged. -/
theorem c17_hermitian (a : SArr) (lst0 : ℝ) (ops : List Op) (hn : NoEphem ops) (i j : Nat) (p1 p2 : Char)
    (v w : List ℂ) (hv : Answer a lst0 (ops ++ [.setPol (p1, p2)]) i j v)
    (hw : Answer a lst0 (ops ++ [.setPol (p2, p1)]) j i w) : w = v.map (starRingEnd ℂ) := by
  obtain ⟨s1, h1⟩ := hv
  obtain ⟨s2, h2⟩ := hw
  obtain ⟨rows, ai, aj, _, e2, e3, e4, e5⟩ :=
    c18_never_stale a lst0 _ (noEphem_append hn (by intro t e; cases e)) i j s1 v h1
  obtain ⟨rows', aj', ai', _, f2, f3, f4, f5⟩ :=
    c18_never_stale a lst0 _ (noEphem_append hn (by intro t e; cases e)) j i s2 w h2
  rw [of_append] at e2 e5 f2 f5
  have hr : rows = rows' := by
    have e2' : (Hist.of lst0 ops).srcs = some rows := e2
    have f2' : (Hist.of lst0 ops).srcs = some rows' := f2
    rw [e2'] at f2'; exact Option.some.inj f2'
  rw [e3] at f4; rw [e4] at f3
  cases f3; cases f4
  rw [e5 _ rfl, f5 _ rfl, ← hr]
  exact vis_conj a _ ai aj p1 p2 rows

theorem upRows_append (a : SArr) (lst : ℝ) (r1 r2 : List Row) :
    upRows a lst (r1 ++ r2) = upRows a lst r1 ++ upRows a lst r2 := by
  unfold upRows; rw [List.filter_append]

theorem timeSet_of_srcs {lst0 : ℝ} {ops : List Op} {rows rows' : List Row}
    (h : (Hist.of lst0 (ops ++ [.simCache rows])).timeSet = true)
    (h' : (Hist.of lst0 (ops ++ [.simCache rows])).srcs = some rows') : rows' = rows := by
  rw [of_append] at h h'
  unfold Hist.step at h h'
  simp only at h h'
  split at h'
  · exact (Option.some.inj h').symm
  · rename_i ht
    rw [if_neg ht] at h
    exact absurd h ht

theorem step_simCache_lst (lst0 : ℝ) (ops : List Op) (rows : List Row) :
    (Hist.of lst0 (ops ++ [.simCache rows])).lst = (Hist.of lst0 ops).lst ∧
    (Hist.of lst0 (ops ++ [.simCache rows])).pol = (Hist.of lst0 ops).pol := by
  rw [of_append]
  unfold Hist.step
  simp only
  split <;> exact ⟨rfl, rfl⟩

/-- the answer after `sim_cache(rows)` -/
theorem answer_cached {a : SArr} {lst0 : ℝ} {ops : List Op} (hn : NoEphem ops) {i j : Nat} {rows : List Row}
    {v : List ℂ} {p : Char × Char} (hp : (Hist.of lst0 ops).pol = some p)
    (h : Answer a lst0 (ops ++ [.simCache rows]) i j v) :
    ∃ ai aj, a.ants[i]? = some ai ∧ a.ants[j]? = some aj ∧ v = vis a (Hist.of lst0 ops).lst ai aj p rows := by
  obtain ⟨s1, h1⟩ := h
  obtain ⟨rows', ai, aj, e1, e2, e3, e4, e5⟩ :=
    c18_never_stale a lst0 _ (noEphem_append hn (by intro t e; cases e)) i j s1 v h1
  obtain ⟨g1, g2⟩ := step_simCache_lst lst0 ops rows
  have := timeSet_of_srcs e1 e2
  refine ⟨ai, aj, e3, e4, ?_⟩
  rw [e5 p (by rw [g2, hp]), g1, this]

/-- C17: the visibility of two lists of sources together is the sum of their visibilities, channel by channel. -/
theorem c17_additive_partial (a : SArr) (lst0 : ℝ) (ops : List Op) (hn : NoEphem ops) (i j : Nat) (p : Char × Char)
    (hp : (Hist.of lst0 ops).pol = some p) (r1 r2 : List Row) (v v1 v2 : List ℂ)
    (h : Answer a lst0 (ops ++ [.simCache (r1 ++ r2)]) i j v)
    (h1 : Answer a lst0 (ops ++ [.simCache r1]) i j v1) (h2 : Answer a lst0 (ops ++ [.simCache r2]) i j v2) :
    v = List.zipWith (· + ·) v1 v2 := by
  obtain ⟨ai, aj, e1, e2, rfl⟩ := answer_cached hn hp h
  obtain ⟨ai', aj', f1, f2, rfl⟩ := answer_cached hn hp h1
  obtain ⟨ai'', aj'', g1, g2, rfl⟩ := answer_cached hn hp h2
  rw [e1] at f1 g1; rw [e2] at f2 g2
  cases f1; cases f2; cases g1; cases g2
  unfold vis
  rw [List.zipWith_map, List.zipWith_self]
  apply List.map_congr_left
  intro f _
  rw [upRows_append, List.map_append, List.sum_append]

/-- C17: the order in which the sources are listed does not matter. -/
theorem c17_order (a : SArr) (lst0 : ℝ) (ops : List Op) (hn : NoEphem ops) (i j : Nat) (p : Char × Char)
    (hp : (Hist.of lst0 ops).pol = some p) (r1 r2 : List Row) (hr : r1.Perm r2) (v1 v2 : List ℂ)
    (h1 : Answer a lst0 (ops ++ [.simCache r1]) i j v1) (h2 : Answer a lst0 (ops ++ [.simCache r2]) i j v2) :
    v1 = v2 := by
  obtain ⟨ai', aj', f1, f2, rfl⟩ := answer_cached hn hp h1
  obtain ⟨ai'', aj'', g1, g2, rfl⟩ := answer_cached hn hp h2
  rw [f1] at g1; rw [f2] at g2
  cases g1; cases g2
  unfold vis
  apply List.map_congr_left
  intro f _
  exact ((hr.filter _).map _).sum_eq

/-- a source with its flux multiplied -/
def Row.scale (c : ℝ) (r : Row) : Row := { r with jys := fun f => c * r.jys f }

/-- C17: multiplying all fluxes multiplies the visibility. -/
theorem c17_flux (a : SArr) (lst0 : ℝ) (ops : List Op) (hn : NoEphem ops) (i j : Nat) (p : Char × Char)
    (hp : (Hist.of lst0 ops).pol = some p) (rows : List Row) (c : ℝ) (v w : List ℂ)
    (h1 : Answer a lst0 (ops ++ [.simCache rows]) i j v)
    (h2 : Answer a lst0 (ops ++ [.simCache (rows.map (Row.scale c))]) i j w) :
    w = v.map (fun z => (c : ℂ) * z) := by
  obtain ⟨ai', aj', f1, f2, rfl⟩ := answer_cached hn hp h1
  obtain ⟨ai'', aj'', g1, g2, rfl⟩ := answer_cached hn hp h2
  rw [f1] at g1; rw [f2] at g2
  cases g1; cases g2
  unfold vis
  rw [List.map_map]
  apply List.map_congr_left
  intro f _
  simp only [Function.comp_apply]
  have hup : upRows a (Hist.of lst0 ops).lst (rows.map (Row.scale c)) =
      (upRows a (Hist.of lst0 ops).lst rows).map (Row.scale c) := by
    unfold upRows
    rw [List.filter_map]
    rfl
  rw [hup, List.map_map]
  generalize upRows a (Hist.of lst0 ops).lst rows = l
  induction l with
  | nil => simp
  | cons r l ih =>
    simp only [List.map_cons, List.sum_cons, ih, mul_add]
    congr 1
    have hph : phsAt a.J1 (Hist.of lst0 ops).lst ai' aj' p (Row.scale c r) f =
        phsAt a.J1 (Hist.of lst0 ops).lst ai' aj' p r f := rfl
    simp only [Function.comp_apply, vis1, hph]
    simp only [Row.scale]
    push_cast
    ring

theorem phsAt_auto (J1 : ℝ → ℝ) (lst : ℝ) (ai : SAnt) (p : Char) (r : Row) (f : ℝ) :
    phsAt J1 lst ai ai (p, p) r f = 1 := by
  unfold phsAt
  simp only
  rw [sub_self, Matrix.mulVec_zero]
  have h1 : wAt 0 f r.mfreq (some r.ion) = 0 := by simp [wAt, uvwAt, refractAt]
  have h2 : offsetAt ai ai (p, p) f = 0 := by simp [offsetAt]
  have h3 : ampAt J1 0 f (some r.shape) = 1 := by
    obtain ⟨a1, a2, th⟩ := r.shape
    simp [ampAt, resolveAt, uvwAt, airy]
  rw [h1, h2, h3, expPhs_zero]
  simp

/-- an antenna with its amplitude multiplied -/
def SAnt.louder (c : ℝ) (x : SAnt) : SAnt := { x with amp := fun p => c * x.amp p }

/-- C17: multiplying the amplitude of antenna `i` multiplies its visibilities with other antennas by the same number,
and its auto-correlation by the square. -/
theorem c17_amplitude (a : SArr) (lst0 : ℝ) (ops : List Op) (hn : NoEphem ops) (i j : Nat) (p : Char × Char)
    (hp : (Hist.of lst0 ops).pol = some p) (rows : List Row) (c : ℝ) (x : SAnt) (hx : a.ants[i]? = some x)
    (v w : List ℂ) (h1 : Answer a lst0 (ops ++ [.simCache rows]) i j v)
    (h2 : Answer { a with ants := a.ants.set i (x.louder c) } lst0 (ops ++ [.simCache rows]) i j w) :
    w = v.map (fun z => (((if i = j then c ^ 2 else c) : ℝ) : ℂ) * z) := by
  obtain ⟨ai', aj', f1, f2, rfl⟩ := answer_cached hn hp h1
  obtain ⟨ai'', aj'', g1, g2, rfl⟩ := answer_cached hn hp h2
  rw [hx] at f1; cases f1
  have hil : i < a.ants.length := by
    by_contra hlt
    rw [List.getElem?_eq_none (by omega)] at hx; cases hx
  have hai : ai'' = x.louder c := by
    have g1 : (a.ants.set i (x.louder c))[i]? = some ai'' := g1
    rw [List.getElem?_set_self hil] at g1
    exact (Option.some.inj g1).symm
  subst hai
  have hg : ∀ q f, (x.louder c).gain q f = (c : ℂ) * x.gain q f := by
    intro q f
    simp only [SAnt.gain, SAnt.louder]
    push_cast
    ring
  unfold vis
  rw [List.map_map]
  apply List.map_congr_left
  intro f _
  simp only [Function.comp_apply]
  have hu : upRows { a with ants := a.ants.set i (x.louder c) } (Hist.of lst0 ops).lst rows =
      upRows a (Hist.of lst0 ops).lst rows := rfl
  rw [hu]
  generalize upRows a (Hist.of lst0 ops).lst rows = l
  have hone : ∀ r, vis1 { a with ants := a.ants.set i (x.louder c) } (Hist.of lst0 ops).lst (x.louder c) aj'' p f r =
      (((if i = j then c ^ 2 else c) : ℝ) : ℂ) * vis1 a (Hist.of lst0 ops).lst x aj' p f r := by
    intro r
    by_cases hij : i = j
    · subst hij
      rw [hx] at f2; cases f2
      have g2 : (a.ants.set i (x.louder c))[i]? = some aj'' := g2
      rw [List.getElem?_set_self hil] at g2
      cases g2
      have hph : phsAt a.J1 (Hist.of lst0 ops).lst (x.louder c) (x.louder c) p r f =
          phsAt a.J1 (Hist.of lst0 ops).lst x x p r f := rfl
      have hbm : (x.louder c).beam = x.beam := rfl
      simp only [vis1, hg, hph, hbm, map_mul, Complex.conj_ofReal, if_true]
      have hs : skyTop a.lat = skyTop a.lat := rfl
      push_cast
      ring
    · have g2 : (a.ants.set i (x.louder c))[j]? = some aj'' := g2
      rw [List.getElem?_set_ne hij, f2] at g2
      cases g2
      have hph : phsAt a.J1 (Hist.of lst0 ops).lst (x.louder c) aj' p r f =
          phsAt a.J1 (Hist.of lst0 ops).lst x aj' p r f := rfl
      have hbm : (x.louder c).beam = x.beam := rfl
      simp only [vis1, hg, hph, hbm, map_mul, Complex.conj_ofReal, if_neg hij]
      ring
  induction l with
  | nil => simp
  | cons r l ih => simp only [List.map_cons, List.sum_cons, ih, mul_add, hone]

/-- C17: an antenna with itself (same feed) measures the total power: each channel is the real number
`Σ |gain|² |beam|² flux` over the sources above the horizon, hence non-negative when the fluxes are. -/
theorem c17_auto (a : SArr) (lst0 : ℝ) (ops : List Op) (hn : NoEphem ops) (i : Nat) (p : Char)
    (hp : (Hist.of lst0 ops).pol = some (p, p)) (rows : List Row) (v : List ℂ)
    (h : Answer a lst0 (ops ++ [.simCache rows]) i i v) :
    ∃ (ai : SAnt) (power : ℝ → ℝ), a.ants[i]? = some ai ∧ v = a.afreqs.map (fun f => ((power f : ℝ) : ℂ)) ∧
      (∀ f, power f = ((upRows a (Hist.of lst0 ops).lst rows).map (fun r => ‖ai.gain p f‖ ^ 2 *
        ‖ai.beam p (skyTop a.lat (Hist.of lst0 ops).lst r.eq) f‖ ^ 2 * r.jys f)).sum) ∧
      ∀ f, (∀ r ∈ rows, 0 ≤ r.jys f) → 0 ≤ power f := by
  obtain ⟨ai, aj, f1, f2, rfl⟩ := answer_cached hn hp h
  rw [f1] at f2; cases f2
  refine ⟨ai, _, f1, ?_, fun f => rfl, ?_⟩
  · unfold vis
    apply List.map_congr_left
    intro f _
    generalize upRows a (Hist.of lst0 ops).lst rows = l
    induction l with
    | nil => simp
    | cons r l ih =>
      simp only [List.map_cons, List.sum_cons, ih]
      push_cast
      congr 1
      unfold vis1
      rw [phsAt_auto]
      simp only [Complex.mul_conj, Complex.normSq_eq_norm_sq, map_one, mul_one]
      push_cast
      ring
  · intro f hf
    apply List.sum_nonneg
    intro x hx
    rw [List.mem_map] at hx
    obtain ⟨r, hr, rfl⟩ := hx
    have hr' : r ∈ rows := List.mem_of_mem_filter hr
    have := hf r hr'
    positivity

/-- C17: sources below the horizon contribute nothing. -/
theorem c17_below_horizon (a : SArr) (lst0 : ℝ) (ops : List Op) (hn : NoEphem ops) (i j : Nat) (p : Char × Char)
    (hp : (Hist.of lst0 ops).pol = some p) (rows low : List Row)
    (hlow : ∀ r ∈ low, skyTop a.lat (Hist.of lst0 ops).lst r.eq 2 ≤ 0) (v w : List ℂ)
    (h1 : Answer a lst0 (ops ++ [.simCache rows]) i j v)
    (h2 : Answer a lst0 (ops ++ [.simCache (rows ++ low)]) i j w) : v = w := by
  obtain ⟨ai', aj', f1, f2, rfl⟩ := answer_cached hn hp h1
  obtain ⟨ai'', aj'', g1, g2, rfl⟩ := answer_cached hn hp h2
  rw [f1] at g1; rw [f2] at g2
  cases g1; cases g2
  have : upRows a (Hist.of lst0 ops).lst low = [] := by
    unfold upRows
    rw [List.filter_eq_nil_iff]
    intro r hr
    simpa using hlow r hr
  unfold vis
  rw [upRows_append, this, List.append_nil]

/-! ## Witnesses -/

/-- an antenna with unit gain and a beam of 1 -/
def unitAnt (x : ℝ) : SAnt := ⟨![x, 0, 0], fun _ => [0, 0], fun _ => [1], fun _ => [0], fun _ => 1, fun _ _ _ => 1⟩

/-- two antennas on the equator, one channel -/
def pair : SArr := ⟨[unitAnt 0, unitAnt 1], [1], 0, fun _ => 0, false⟩

/-- a source at right ascension 0 on the celestial equator -/
def src0 : Row := ⟨![1, 0, 0], fun _ => 1, 1, (0, 0), (0, 0, 0)⟩

theorem skyTop_src0 (lst : ℝ) : skyTop 0 lst src0.eq 2 = cos lst := by
  unfold skyTop eq2top_m src0
  simp [Matrix.mulVec, dotProduct, Fin.sum_univ_three]

/-- the history used in the examples -/
def hist0 : List Op := [.setJultime 0, .setPol ('x', 'x')]

theorem upRows_src0 (lst : ℝ) (h : 0 < cos lst) : upRows pair lst [src0] = [src0] := by
  unfold upRows
  rw [List.filter_cons_of_pos]
  · rfl
  · have : skyTop pair.lat lst src0.eq 2 = cos lst := skyTop_src0 lst
    rw [this]; simpa using h

theorem upRows_src0_down (lst : ℝ) (h : cos lst ≤ 0) : upRows pair lst [src0] = [] := by
  unfold upRows
  rw [List.filter_cons_of_neg]
  · rfl
  · have : skyTop pair.lat lst src0.eq 2 = cos lst := skyTop_src0 lst
    rw [this]; simpa using h

/-- the hypotheses of C17 and C18 are met: `sim` answers for this array and history -/
example (i j : Fin 2) : ∃ v, Answer pair 0 (hist0 ++ [.simCache [src0]]) i j v := by
  obtain ⟨s', h⟩ := c18_answers_partial pair 0 (hist0 ++ [.simCache [src0]])
    (by intro o ho t e; rw [e] at ho; simp [hist0] at ho) i j [src0]
    (pair.ants.get (Fin.cast (by rfl) i)) (pair.ants.get (Fin.cast (by rfl) j)) ('x', 'x')
    (by fin_cases i <;> rfl) (by fin_cases j <;> rfl) (by simp [pair]) rfl rfl rfl (Or.inr (List.length_filter_le _ _))
  exact ⟨_, s', h⟩

/-- C17/C18: with one source overhead the auto-correlation is its flux -/
example : ∃ v, Answer pair 0 (hist0 ++ [.simCache [src0]]) 0 0 v ∧ v = [1] := by
  have hn : NoEphem hist0 := by intro o ho t e; rw [e] at ho; simp [hist0] at ho
  obtain ⟨s', h⟩ := c18_answers_partial pair 0 (hist0 ++ [.simCache [src0]])
    (noEphem_append hn (by intro t e; cases e)) 0 0 [src0] (unitAnt 0) (unitAnt 0) ('x', 'x') rfl rfl
    (by simp [pair]) rfl rfl rfl (Or.inr (List.length_filter_le _ _))
  refine ⟨_, ⟨s', h⟩, ?_⟩
  obtain ⟨ai, power, h1, h2, h3, _⟩ := c17_auto pair 0 hist0 hn 0 'x' rfl [src0] _ ⟨s', h⟩
  cases h1
  rw [h2]
  have hl : (Hist.of 0 hist0).lst = 0 := rfl
  rw [hl] at h3
  simp only [pair, List.map_cons, List.map_nil]
  rw [h3 1, upRows_src0 0 (by simp)]
  simp [SAnt.gain, unitAnt, polyval, src0]

/-- C17: `sim` answers for each of two sources overhead but not for both together when one channel is active, so
`c17_additive_partial` must assume that it answers. -/
theorem c17_additive_violated : (∃ v, Answer pair 0 (hist0 ++ [.simCache [src0]]) 0 1 v) ∧
    ¬ ∃ v, Answer pair 0 (hist0 ++ [.simCache ([src0] ++ [src0])]) 0 1 v := by
  have hn : NoEphem hist0 := by intro o ho t e; rw [e] at ho; simp [hist0] at ho
  constructor
  · obtain ⟨s', h⟩ := c18_answers_partial pair 0 (hist0 ++ [.simCache [src0]])
      (noEphem_append hn (by intro t e; cases e)) 0 1 [src0] (unitAnt 0) (unitAnt 1) ('x', 'x') rfl rfl
      (by simp [pair]) rfl rfl rfl (Or.inr (List.length_filter_le _ _))
    exact ⟨_, s', h⟩
  · rintro ⟨v, s', h⟩
    refine c18_one_channel_violated pair 0 _ (noEphem_append hn (by intro t e; cases e)) 0 1 ([src0] ++ [src0]) rfl rfl ?_ _ h
    show 1 < (upRows pair 0 ([src0] ++ [src0])).length
    rw [upRows_append, upRows_src0 0 (by simp)]
    decide

/-- two sources overhead and one channel -/
example (r : St × List ℂ) : sim pair (run pair (.init 0) (hist0 ++ [.simCache [src0, src0]])) 0 1 ≠ .ok r := by
  have hn : NoEphem hist0 := by intro o ho t e; rw [e] at ho; simp [hist0] at ho
  refine c18_one_channel_violated pair 0 _ (noEphem_append hn (by intro t e; cases e)) 0 1 [src0, src0] rfl rfl ?_ r
  show 1 < (upRows pair 0 ([src0] ++ [src0])).length
  rw [upRows_append, upRows_src0 0 (by simp)]
  decide

/-- C18: the restriction to histories without `set_ephemtime` is needed.  After `set_ephemtime` the sources cached for
the old time are still used and no error is raised: the source is below the horizon at the new time, so the answer
should be 0, but `sim` still reports its flux. -/
theorem c18_ephemtime_violated : ∃ s', sim pair (run pair (.init 0)
    (hist0 ++ [.simCache [src0], .setEphemtime π])) 0 0 = .ok (s', [1]) ∧
    vis pair π (unitAnt 0) (unitAnt 0) ('x', 'x') [src0] = [0] := by
  refine ⟨(run pair (.init 0) (hist0 ++ [.simCache [src0], .setEphemtime π, .sim 0 0])), ?_, ?_⟩
  · have hn : NoEphem hist0 := by intro o ho t e; rw [e] at ho; simp [hist0] at ho
    have hI := inv_run (a := pair) 0 (hist0 ++ [.simCache [src0]]) (noEphem_append hn (by intro t e; cases e))
    obtain ⟨h1, h2, h3, h4⟩ := hI
    have hl : (Hist.of 0 (hist0 ++ [.simCache [src0]])).lst = 0 := rfl
    unfold CacheOk at h4
    have ht : (Hist.of 0 (hist0 ++ [.simCache [src0]])).timeSet = true := rfl
    have hs : (Hist.of 0 (hist0 ++ [.simCache [src0]])).srcs = some [src0] := rfl
    rw [ht, hs, hl] at h4
    simp only at h4
    rw [upRows_src0 0 (by simp)] at h4
    rcases h4 with ⟨h, _⟩ | ⟨_, beams, h4, hb⟩
    · cases h
    · generalize hS : run pair (.init 0) (hist0 ++ [.simCache [src0]]) = S at *
      have hS2 : run pair (.init 0) (hist0 ++ [.simCache [src0], .setEphemtime π]) = setEphemtime S π := by
        rw [← hS]; rfl
      have hS3 : run pair (.init 0) (hist0 ++ [.simCache [src0], .setEphemtime π, .sim 0 0]) =
          step pair (setEphemtime S π) (.sim 0 0) := by
        rw [← hS]; rfl
      rw [hS2, hS3]
      have hx : ∃ r, sim pair (setEphemtime S π) 0 0 = .ok r := by
        unfold sim
        rw [show (setEphemtime S π).cache = _ from h4]
        exact simFull_total (ai := unitAnt 0) (aj := unitAnt 0) (p := ('x', 'x')) rfl rfl (h2.trans rfl) (by simp [pair])
          (Or.inr (by simp))
      obtain ⟨⟨s', v⟩, hx⟩ := hx
      have hst : step pair (setEphemtime S π) (.sim 0 0) = s' := by
        show (match sim pair (setEphemtime S π) 0 0 with | .ok r => r.1 | .error _ => _) = s'
        rw [hx]
      rw [hst, hx]
      have hx' := hx
      unfold sim at hx'
      rw [show (setEphemtime S π).cache = _ from h4] at hx'
      unfold simFull at hx'
      have hp : (setEphemtime S π).pol = some ('x', 'x') := h2.trans rfl
      rw [getSAnt_ok.2 (show pair.ants[0]? = some (unitAnt 0) from rfl), hp] at hx'
      obtain ⟨f1, f2, f3⟩ := fill_ok (p := 'x') (show pair.ants[0]? = some (unitAnt 0) from rfl) hb
      obtain ⟨g1, g2, g3⟩ := fill_ok (p := 'x') (show pair.ants[0]? = some (unitAnt 0) from rfl) f1
      simp only [bind, Except.bind] at hx'
      rw [if_neg (by simp [pair]), if_neg (by simp), g2] at hx'
      simp only [Except.ok.injEq, Prod.mk.injEq] at hx'
      rw [← hx'.2]
      have hph := phsAt_auto pair.J1 (setEphemtime S π).lst (unitAnt 0) 'x' src0 1
      simp [pair, sumAt, termAt, passbandAt, SAnt.gain, unitAnt, polyval, src0] at hph ⊢
      rw [hph]
      simp
  · unfold vis
    rw [upRows_src0_down π (by simp)]
    simp [pair]

end Verif.Amp
