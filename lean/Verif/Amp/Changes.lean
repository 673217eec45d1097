import Verif.Amp.Props
/-!
# Property C69 : `sim` and changes of the antennas

`sim_cache` and `sim` keep beam responses (amp.py 305-310, 312-357).  `set_params` and `select_chans` (fit.py 369-376,
phs.py 271-274) do not touch that cache.  Histories here mix calls on the array with changes of its antennas and of
the active frequencies.  The model keeps a cached response as a function of frequency, so it does not show what stale
fluxes and responses look like after a change of frequencies (arrays of the old length); such a change is counted
among those that need a new `sim_cache`.
-/
namespace Verif.Amp
open Verif.Phs Verif.Coord Real

/-- a call, or a change of the antennas and active frequencies by `set_params` / `select_chans` -/
inductive Ev
  | call (o : Op)
  | change (ants : List SAnt) (afreqs : List ℝ)

/-- the array together with the state of its simulation -/
noncomputable def evStep (x : SArr × St) : Ev → SArr × St
  | .call o => (x.1, step x.1 x.2 o)
  | .change ants afreqs => ({ x.1 with ants := ants, afreqs := afreqs }, x.2)

noncomputable def evRun (x : SArr × St) (evs : List Ev) : SArr × St := evs.foldl evStep x

/-! ## Specification -/

/-- the calls of a history -/
def calls : List Ev → List Op
  | [] => []
  | .call o :: es => o :: calls es
  | .change _ _ :: es => calls es

/-- the array after a history -/
def arrayOf (a : SArr) : List Ev → SArr
  | [] => a
  | .call _ :: es => arrayOf a es
  | .change ants afreqs :: es => arrayOf { a with ants := ants, afreqs := afreqs } es

/-- a change that leaves beams and frequencies alone: it moves antennas or changes their gains, delays and offsets -/
def Harmless (a : SArr) (ants : List SAnt) (afreqs : List ℝ) : Prop :=
  afreqs = a.afreqs ∧ ants.map SAnt.beam = a.ants.map SAnt.beam

/-- since the last change of beams or frequencies, if any, the sources have been given anew or the time been set -/
def Renewed (a : SArr) (timeSet renewed : Bool) : List Ev → Prop
  | [] => renewed = true
  | .call (.setJultime _) :: es => Renewed a true true es
  | .call (.simCache _) :: es => Renewed a timeSet (timeSet || renewed) es
  | .call _ :: es => Renewed a timeSet renewed es
  | .change ants afreqs :: es =>
    (Harmless a ants afreqs ∧ Renewed { a with ants := ants, afreqs := afreqs } timeSet renewed es) ∨
    (¬Harmless a ants afreqs ∧ Renewed { a with ants := ants, afreqs := afreqs } timeSet false es)

/-! ## Lemmas -/

/-- what is true even when the cached responses may be stale -/
structure Weak (a : SArr) (s : St) (h : Hist) : Prop where
  lst : s.lst = h.lst
  pol : s.pol = h.pol
  mat : s.eq2top = if h.timeSet then some (eq2top_m (-h.lst) a.lat) else none
  miss : h.timeSet = false → s.cache = .missing

theorem weak_of_inv {a : SArr} {s : St} {h : Hist} (hI : Inv a s h) : Weak a s h :=
  ⟨hI.lst, hI.pol, hI.mat, fun ht => by have := hI.cache; unfold CacheOk at this; rw [ht] at this; exact this⟩

theorem sim_keeps {a : SArr} {s s' : St} {i j : Nat} {v : List ℂ} (h : sim a s i j = .ok (s', v)) :
    s'.lst = s.lst ∧ s'.pol = s.pol ∧ s'.eq2top = s.eq2top ∧ s.cache ≠ .missing := by
  unfold sim at h
  cases hc : s.cache with
  | missing => rw [hc] at h; cases h
  | cleared => rw [hc] at h; cases h
  | empty =>
    rw [hc] at h
    obtain ⟨_, _, _, _, rfl, _⟩ := simEmpty_ok h
    exact ⟨rfl, rfl, rfl, by simp⟩
  | full rows tops beams =>
    rw [hc] at h
    simp only at h
    unfold simFull at h
    simp only [bind, Except.bind] at h
    cases h1 : getSAnt a j with
    | error e => rw [h1] at h; cases h
    | ok aj =>
      cases h2 : getSAnt a i with
      | error e => rw [h1, h2] at h; cases h
      | ok ai =>
        rw [h1, h2] at h
        simp only at h
        cases hp : s.pol with
        | none => rw [hp] at h; cases h
        | some p =>
          rw [hp] at h
          simp only at h
          by_cases hz : (0 : ℝ) ∈ a.afreqs
          · rw [if_pos hz] at h; cases h
          · rw [if_neg hz] at h
            split at h
            · cases h
            simp only [Except.ok.injEq, Prod.mk.injEq] at h
            obtain ⟨rfl, _⟩ := h
            exact ⟨rfl, rfl, rfl, by simp⟩

theorem weak_step {a : SArr} {s : St} {h : Hist} (hW : Weak a s h) (o : Op) (ho : ∀ t, o ≠ .setEphemtime t) :
    Weak a (step a s o) (h.step o) := by
  cases o with
  | setEphemtime t => exact absurd rfl (ho t)
  | setJultime lst => exact ⟨rfl, hW.pol, rfl, fun h => by cases h⟩
  | setPol p => exact ⟨hW.lst, rfl, hW.mat, hW.miss⟩
  | simCache rows =>
    obtain ⟨h1, h2, h3, h4⟩ := hW
    cases ht : h.timeSet with
    | false =>
      have e1 : step a s (.simCache rows) = s := by unfold step simCache; rw [h3, ht]; rfl
      have e2 : h.step (.simCache rows) = h := by unfold Hist.step; rw [ht]; rfl
      rw [e1, e2]
      exact ⟨h1, h2, h3, h4⟩
    | true =>
      have e2 : h.step (.simCache rows) = { h with srcs := some rows } := by unfold Hist.step; rw [ht]; rfl
      rw [e2]
      have e3 : ∃ c, step a s (.simCache rows) = { s with cache := c } := by
        unfold step simCache
        rw [h3, ht]
        simp only [if_true]
        split_ifs with hr
        · exact ⟨.empty, rfl⟩
        · exact ⟨_, rfl⟩
      obtain ⟨c, e3⟩ := e3
      rw [e3]
      exact ⟨h1, h2, h3, fun h => by rw [ht] at h; cases h⟩
  | sim i j =>
    show Weak a (match sim a s i j with | .ok r => r.1 | .error _ => s) h
    cases hs : sim a s i j with
    | error e => exact hW
    | ok r =>
      obtain ⟨k1, k2, k3, k4⟩ := sim_keeps (s' := r.1) (v := r.2) hs
      exact ⟨k1.trans hW.lst, k2.trans hW.pol, k3.trans hW.mat, fun ht => absurd (hW.miss ht) k4⟩

/-- `sim_cache` makes the cache right whatever it held -/
theorem inv_of_simCache {a : SArr} {s : St} {h : Hist} (hW : Weak a s h) (ht : h.timeSet = true) (rows : List Row) :
    Inv a (step a s (.simCache rows)) (h.step (.simCache rows)) := by
  obtain ⟨h1, h2, h3, h4⟩ := hW
  unfold step Hist.step simCache
  rw [h3, ht]
  simp only [if_true]
  have hup : rows.filter (fun r => @decide (isUp (eq2top_m (-h.lst) a.lat) r) (Classical.propDecidable _)) =
      upRows a h.lst rows := rfl
  rw [hup]
  by_cases he : upRows a h.lst rows = []
  · rw [if_pos he]
    refine ⟨h1, h2, ?_, ?_⟩
    · rfl
    · unfold CacheOk; exact Or.inl ⟨he, rfl⟩
  · rw [if_neg he]
    refine ⟨h1, h2, ?_, ?_⟩
    · rfl
    · unfold CacheOk
      refine Or.inr ⟨he, [], rfl, ?_⟩
      intro c p r hr; cases hr

theorem weak_change {a : SArr} {s : St} {h : Hist} (ants : List SAnt) (afreqs : List ℝ) (hW : Weak a s h) :
    Weak { a with ants := ants, afreqs := afreqs } s h := ⟨hW.lst, hW.pol, hW.mat, hW.miss⟩

theorem inv_change {a : SArr} {s : St} {h : Hist} (ants : List SAnt) (afreqs : List ℝ) (hI : Inv a s h)
    (hh : Harmless a ants afreqs) : Inv { a with ants := ants, afreqs := afreqs } s h := by
  refine ⟨hI.lst, hI.pol, hI.mat, ?_⟩
  have h4 := hI.cache
  unfold CacheOk at h4 ⊢
  cases ht : h.timeSet with
  | false => rw [ht] at h4; exact h4
  | true =>
    cases hs : h.srcs with
    | none => rw [ht, hs] at h4; exact h4
    | some rows =>
      rw [ht, hs] at h4
      rcases h4 with h4 | ⟨hne, b, hb, hok⟩
      · exact Or.inl h4
      · refine Or.inr ⟨hne, b, hb, ?_⟩
        intro c p r hr
        obtain ⟨ant, e1, e2⟩ := hok c p r hr
        have h5 : (ants.map SAnt.beam)[c]? = (a.ants.map SAnt.beam)[c]? := by rw [hh.2]
        rw [List.getElem?_map, List.getElem?_map, e1] at h5
        cases h6 : ants[c]? with
        | none => rw [h6] at h5; simp at h5
        | some ant' =>
          rw [h6] at h5
          simp only [Option.map_some, Option.some.injEq] at h5
          exact ⟨ant', rfl, by rw [h5]; exact e2⟩

theorem ev_inv : ∀ (evs : List Ev) (a : SArr) (s : St) (h : Hist) (ren : Bool), NoEphem (calls evs) →
    Weak a s h → (ren = true → Inv a s h) → Renewed a h.timeSet ren evs →
    Inv (arrayOf a evs) (evRun (a, s) evs).2 ((calls evs).foldl Hist.step h) ∧ (evRun (a, s) evs).1 = arrayOf a evs
  | [], a, s, h, ren, _, _, hI, hR => ⟨hI hR, rfl⟩
  | .change ants afreqs :: es, a, s, h, ren, hn, hW, hI, hR => by
    rcases hR with ⟨hh, hR⟩ | ⟨_, hR⟩
    · exact ev_inv es _ s h ren hn (weak_change ants afreqs hW) (fun hr => inv_change ants afreqs (hI hr) hh) hR
    · exact ev_inv es _ s h false hn (weak_change ants afreqs hW) (fun hr => by cases hr) hR
  | .call o :: es, a, s, h, ren, hn, hW, hI, hR => by
    have ho : ∀ t, o ≠ .setEphemtime t := fun t => hn o (by simp [calls]) t
    have hn' : NoEphem (calls es) := fun o' ho' => hn o' (by simp [calls, ho'])
    have hW' := weak_step (a := a) hW o ho
    cases o with
    | setEphemtime t => exact absurd rfl (ho t)
    | setJultime lst =>
      exact ev_inv es a _ _ true hn' hW' (fun _ => ⟨rfl, hW.pol, rfl, rfl⟩) hR
    | setPol p => exact ev_inv es a _ _ ren hn' hW' (fun hr => inv_step (hI hr) _ ho) hR
    | sim i j => exact ev_inv es a _ _ ren hn' hW' (fun hr => inv_step (hI hr) _ ho) hR
    | simCache rows =>
      have hR' : Renewed a h.timeSet (h.timeSet || ren) es := hR
      refine ev_inv es a _ _ (h.timeSet || ren) hn' hW' ?_ ?_
      · intro hr
        cases ht : h.timeSet with
        | true => exact inv_of_simCache hW ht rows
        | false =>
          rw [ht] at hr
          exact inv_step (hI (by simpa using hr)) _ ho
      · have : (h.step (.simCache rows)).timeSet = h.timeSet := by
          unfold Hist.step; split_ifs <;> rfl
        rw [this]; exact hR'

/-! ## C69 -/

/-- C69: `sim` answers with the visibility computed from the antennas as they are now - positions, delays, offsets,
gains and beams - provided that a change of beams or of active frequencies is followed by a new `sim_cache` (or the
time being set anew).  Changes that leave beams and frequencies alone take effect without one. -/
theorem c69_current_partial (a : SArr) (lst0 : ℝ) (evs : List Ev) (hn : NoEphem (calls evs))
    (hR : Renewed a false true evs) (i j : Nat) (s' : St) (v : List ℂ)
    (h : sim (evRun (a, .init lst0) evs).1 (evRun (a, .init lst0) evs).2 i j = .ok (s', v)) :
    ∃ rows ai aj, (Hist.of lst0 (calls evs)).timeSet = true ∧ (Hist.of lst0 (calls evs)).srcs = some rows ∧
      (arrayOf a evs).ants[i]? = some ai ∧ (arrayOf a evs).ants[j]? = some aj ∧
      ∀ p, (Hist.of lst0 (calls evs)).pol = some p →
        v = vis (arrayOf a evs) (Hist.of lst0 (calls evs)).lst ai aj p rows := by
  have h0 : Inv a (.init lst0) (.init lst0) := ⟨rfl, rfl, rfl, rfl⟩
  obtain ⟨hI, ha⟩ := ev_inv evs a (.init lst0) (.init lst0) true hn (weak_of_inv h0) (fun _ => h0) hR
  rw [ha] at h
  change Inv _ _ (Hist.of lst0 (calls evs)) at hI
  obtain ⟨h1, h2, h3, h4⟩ := hI
  generalize hh : Hist.of lst0 (calls evs) = H at *
  generalize hs : (evRun (a, .init lst0) evs).2 = s at *
  generalize arrayOf a evs = a' at *
  unfold CacheOk at h4
  cases ht : H.timeSet with
  | false => rw [ht] at h4; unfold sim at h; rw [show s.cache = _ from h4] at h; cases h
  | true =>
    cases hsr : H.srcs with
    | none => rw [ht, hsr] at h4; unfold sim at h; rw [show s.cache = _ from h4] at h; cases h
    | some rows =>
      rw [ht, hsr] at h4
      unfold sim at h
      rcases h4 with ⟨he, h4⟩ | ⟨hne, b, h4, hb⟩
      · rw [h4] at h
        obtain ⟨ai, aj, e1, e2, _, rfl⟩ := simEmpty_ok h
        refine ⟨rows, ai, aj, rfl, rfl, e1, e2, ?_⟩
        intro p _
        unfold vis
        rw [he]
        rfl
      · rw [h4] at h
        obtain ⟨ai, aj, p, b', e1, e2, e3, rfl, _, _⟩ := simFull_ok h1 hb h
        refine ⟨rows, ai, aj, rfl, rfl, e1, e2, ?_⟩
        intro p' hp'
        rw [← h2, e3] at hp'
        cases hp'
        rfl

/-- the hypotheses are met by a history with a change of position and gain after the simulation was prepared, and a
change of beams followed by a new `sim_cache` -/
example : Renewed pair false true
    [.call (.setJultime 0), .call (.simCache [src0]), .call (.sim 0 0),
     .change [unitAnt 5, { unitAnt 1 with amp := fun _ => 3 }] [1],
     .change [{ unitAnt 0 with beam := fun _ _ _ => 2 }, unitAnt 1] [1], .call (.simCache [src0])] := by
  refine Or.inl ⟨⟨rfl, rfl⟩, ?_⟩
  by_cases h : Harmless { pair with ants := [unitAnt 5, { unitAnt 1 with amp := fun _ => 3 }], afreqs := [1] }
    [{ unitAnt 0 with beam := fun _ _ _ => 2 }, unitAnt 1] [1]
  · exact Or.inl ⟨h, rfl⟩
  · exact Or.inr ⟨h, rfl⟩

/-- the array of the examples with a deaf antenna 0 -/
def deaf : SArr := { pair with ants := [{ unitAnt 0 with beam := fun _ _ _ => 0 }, unitAnt 1] }

/-- C69 is false for a change of beams alone: once `sim` has cached the responses, it keeps answering with them.  The
beams of antenna 0 have been replaced by deaf ones, so its auto-correlation should be 0, but the flux of the source is
still reported. -/
theorem c69_beam_violated : ∃ s', sim deaf (run pair (.init 0)
    (hist0 ++ [.simCache [src0], .sim 0 0])) 0 0 = .ok (s', [1]) ∧
    (evRun (pair, .init 0) ((hist0 ++ [Op.simCache [src0], Op.sim 0 0]).map Ev.call ++ [.change deaf.ants deaf.afreqs])) =
      (deaf, run pair (.init 0) (hist0 ++ [.simCache [src0], .sim 0 0])) ∧
    ∀ aj, deaf.ants[0]? = some aj → vis deaf 0 aj aj ('x', 'x') [src0] = [0] := by
  have hcache : (run pair (.init 0) (hist0 ++ [.simCache [src0], .sim 0 0])) =
      ⟨0, some (eq2top_m (-0) 0), some ('x', 'x'), .full [src0] [(eq2top_m (-0) 0).mulVec src0.eq]
        [((0, 'x'), [fun _ => 1])]⟩ := by
    have hn : NoEphem hist0 := by intro o ho t e; rw [e] at ho; simp [hist0] at ho
    have e0 : run pair (.init 0) hist0 = ⟨0, some (eq2top_m (-0) 0), some ('x', 'x'), .cleared⟩ := rfl
    have e1 : run pair (.init 0) (hist0 ++ [.simCache [src0]]) =
        ⟨0, some (eq2top_m (-0) 0), some ('x', 'x'), .full [src0] [(eq2top_m (-0) 0).mulVec src0.eq] []⟩ := by
      have : run pair (.init 0) (hist0 ++ [.simCache [src0]]) =
          step pair (run pair (.init 0) hist0) (.simCache [src0]) := rfl
      rw [this, e0]
      unfold step simCache
      simp only
      have hup := upRows_src0 0 (by simp)
      change [src0].filter (fun r => @decide (isUp (eq2top_m (-0) 0) r) (Classical.propDecidable _)) = [src0] at hup
      rw [hup]
      rfl
    have e2 : run pair (.init 0) (hist0 ++ [.simCache [src0], .sim 0 0]) =
        step pair (run pair (.init 0) (hist0 ++ [.simCache [src0]])) (.sim 0 0) := rfl
    rw [e2, e1]
    show (match sim pair _ 0 0 with | .ok r => r.1 | .error _ => _) = _
    unfold sim simFull getSAnt
    simp [pair, unitAnt, fill, List.lookup, bind, Except.bind]
  refine ⟨run pair (.init 0) (hist0 ++ [.simCache [src0], .sim 0 0]), ?_, ?_, ?_⟩
  · rw [hcache]
    unfold sim simFull getSAnt
    simp [deaf, pair, unitAnt, fill, List.lookup, bind, Except.bind, sumAt, termAt, passbandAt, SAnt.gain, polyval, phsAt_auto,
      src0]
  · rfl
  · intro aj haj
    cases haj
    unfold vis
    have hup : upRows deaf 0 [src0] = [src0] := upRows_src0 0 (by simp)
    rw [hup]
    simp [deaf, pair, vis1]

end Verif.Amp
