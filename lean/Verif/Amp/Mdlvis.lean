import Verif.Amp.Arrays
/-!
# Property C85 : the script `mdlvis.py`

`/repo/scripts/mdlvis.py` passes the records of a file through `mdl`, which keeps the time of the last record and the caches of
the array.  The sources of the catalog and their parameters are taken once (lines 66-71); their positions come from `compute`
(PyEphem), a parameter here, as is the sidereal time of a date.  Noise (option `-n`) is not modelled.
-/
noncomputable section
namespace Verif.Amp
open Verif.Coord Verif.Phs Real

/-! ## Model -/

/-- a record: preamble, `uv['pol']`, data and flags (true for bad data) -/
structure Rec where
  time : ℝ
  i : Nat
  j : Nat
  pol : Char × Char
  data : List ℂ
  flags : List Bool

inductive Mode | sim | sub | add
deriving DecidableEq

/-- the sky: the catalog, the place of a source at a time and the sidereal time -/
structure Sky where
  cat : List CatSrc
  place : ℝ → CatSrc → ℝ × ℝ
  lst : ℝ → ℝ

/-- `cat.compute(aa)`, `get_crds`, `get_jys` and the parameters of the sources, mdlvis.py 66-71, 115-117 -/
def Sky.rows (k : Sky) (t : ℝ) : List Row := k.cat.map fun s => { s with ra := (k.place t s).1, dec := (k.place t s).2 }.row

/-- the global variable `curtime` and the array -/
abbrev MSt := Option ℝ × St

open Classical in
/-- mdlvis.py 110-127 -/
def advance (a : SArr) (k : Sky) (s : MSt) (t : ℝ) : Except SErr MSt :=
  if s.1 = some t then .ok s
  else do
    let x ← simCache (setJultime a s.2 (k.lst t)) (k.rows t)
    .ok (some t, x)

/-- mdlvis.py 130-138; arrays of different sizes raise (numpy would stretch an array of one channel, which is not modelled) -/
def apply (mode : Mode) (mimic : Bool) (r : Rec) (sd : List ℂ) : Except SErr (List ℂ × List Bool) :=
  match mode with
  | .sim => .ok (sd, if mimic then r.flags else r.flags.map fun _ => false)
  | .sub => if r.data.length = sd.length then .ok (List.zipWith (· - ·) r.data sd, r.flags) else .error (.phs .broadcast)
  | .add => if r.data.length = sd.length then .ok (List.zipWith (· + ·) r.data sd, r.flags) else .error (.phs .broadcast)

/-- `mdl`, mdlvis.py 105-145.  `no_flags` has the size of the flags of the first record, here of the record itself. -/
def mdl (a : SArr) (k : Sky) (mode : Mode) (mimic : Bool) (s : MSt) (r : Rec) : Except SErr (MSt × Rec) :=
  if r.i = r.j then .ok (s, r)
  else do
    let s1 ← advance a k s r.time
    let (s2, sd) ← sim a { s1.2 with pol := some r.pol } r.i r.j
    let (d, f) ← apply mode mimic r sd
    if d.length = f.length then
      .ok ((s1.1, s2), { r with data := List.zipWith (fun b x => if b then 0 else x) f d, flags := f })
    else .error (.phs .broadcast)

def mdlAll (a : SArr) (k : Sky) (mode : Mode) (mimic : Bool) : MSt → List Rec → Except SErr (MSt × List Rec)
  | s, [] => .ok (s, [])
  | s, r :: rs => do
    let (s', r') ← mdl a k mode mimic s r
    let (s'', rs') ← mdlAll a k mode mimic s' rs
    .ok (s'', r' :: rs')

/-- the script on the records of its files; an empty catalog cannot be unpacked (lines 68-71).  The files share the state. -/
def mdlvis (a : SArr) (k : Sky) (mode : Mode) (mimic : Bool) (lst0 : ℝ) (recs : List Rec) : Except SErr (List Rec) :=
  if k.cat = [] then .error (.phs .broadcast) else (mdlAll a k mode mimic (none, .init lst0) recs).map (·.2)

/-- the records of one time step made without an input file, mdlvis.py 211-225: all pairs of antennas with `i <= j` (antennas
without an attribute `pol`) and all polarisations; data and flags are filled in by `mdl`, or zero -/
def blank (nant nchan : Nat) (pols : List (Char × Char)) (t : ℝ) : List Rec :=
  (List.range nant).flatMap fun i => (List.range nant).flatMap fun j =>
    if j < i then [] else pols.map fun p => ⟨t, i, j, p, List.replicate nchan 0, List.replicate nchan false⟩

/-- the loop over times, mdlvis.py 203-226; it sets the time of the array itself before `mdl` does -/
def scratch (a : SArr) (k : Sky) (pols : List (Char × Char)) : MSt → List ℝ → Except SErr (List Rec)
  | _, [] => .ok []
  | s, t :: ts => do
    let (s', out) ← mdlAll a k .sim false (s.1, setJultime a s.2 (k.lst t)) (blank a.ants.length a.afreqs.length pols t)
    let rest ← scratch a k pols s' ts
    .ok (out ++ rest)

/-- the script without input files -/
def mdlvisNew (a : SArr) (k : Sky) (pols : List (Char × Char)) (lst0 : ℝ) (times : List ℝ) : Except SErr (List Rec) :=
  if k.cat = [] then .error (.phs .broadcast) else scratch a k pols (none, .init lst0) times

/-! ## What is expected -/

/-- the visibility of the sky for a record -/
def model (a : SArr) (k : Sky) (r : Rec) : List ℂ :=
  match a.ants[r.i]?, a.ants[r.j]? with
  | some ai, some aj => vis a (k.lst r.time) ai aj r.pol (k.rows r.time)
  | _, _ => []

/-- a channel of the result -/
def chan (mode : Mode) (d m : ℂ) : ℂ :=
  match mode with
  | .sim => m
  | .sub => d - m
  | .add => d + m

/-- a record of the result: nothing changes for auto-correlations -/
structure IsModelled (a : SArr) (k : Sky) (mode : Mode) (mimic : Bool) (r r' : Rec) : Prop where
  time : r'.time = r.time
  ants : r'.i = r.i ∧ r'.j = r.j
  pol : r'.pol = r.pol
  auto : r.i = r.j → r' = r
  len : r'.data.length = r.data.length ∧ r'.flags.length = r.flags.length
  flags : r.i ≠ r.j → ∀ c, r'.flags.getD c false = ((mode ≠ .sim ∨ mimic) && r.flags.getD c false)
  data : r.i ≠ r.j → ∀ c, c < a.afreqs.length → r'.data.getD c 0 =
    if r'.flags.getD c false then 0 else chan mode (r.data.getD c 0) ((model a k r).getD c 0)

/-- the records fit the array -/
structure Fits (a : SArr) (k : Sky) (r : Rec) : Prop where
  i : r.i < a.ants.length
  j : r.j < a.ants.length
  data : r.data.length = a.afreqs.length
  flags : r.flags.length = a.afreqs.length
  up : a.afreqs.length ≠ 1 ∨ (upRows a (k.lst r.time) (k.rows r.time)).length ≤ 1

/-! ## Lemmas -/

/-- the caches of the array are those of the time kept, if that is one of the times considered -/
structure Kept (a : SArr) (k : Sky) (lst0 : ℝ) (P : ℝ → Prop) (s : MSt) : Prop where
  ex : ∃ ops, NoEphem ops ∧ s.2 = run a (.init lst0) ops ∧
    ∀ t, P t → s.1 = some t → (Hist.of lst0 ops).lst = k.lst t ∧ (Hist.of lst0 ops).timeSet = true ∧ (Hist.of lst0 ops).srcs = some (k.rows t)

theorem run_snoc (a : SArr) (s : St) (ops : List Op) (o : Op) : run a s (ops ++ [o]) = step a (run a s ops) o := by
  unfold run
  rw [List.foldl_append]
  rfl

theorem zipWith_getD {α β γ : Type} (g : α → β → γ) (x : List α) (y : List β) (u : α) (v : β) (e : γ) {c : Nat} (hx : c < x.length)
    (hy : c < y.length) : (List.zipWith g x y).getD c e = g (x.getD c u) (y.getD c v) := by
  simp [List.getD_eq_getElem?_getD, List.getElem?_zipWith, List.getElem?_eq_getElem hx, List.getElem?_eq_getElem hy]

theorem apply_ok (mode : Mode) (mimic : Bool) (r : Rec) (sd : List ℂ) {n : Nat} (hd : r.data.length = n) (hf : r.flags.length = n)
    (hs : sd.length = n) : ∃ d f, apply mode mimic r sd = .ok (d, f) ∧ d.length = n ∧ f.length = n ∧
      (∀ c, c < n → d.getD c 0 = chan mode (r.data.getD c 0) (sd.getD c 0)) ∧
      ∀ c, f.getD c false = ((mode ≠ .sim ∨ mimic) && r.flags.getD c false) := by
  cases mode with
  | sim =>
    refine ⟨sd, _, rfl, hs, ?_, fun _ _ => rfl, ?_⟩
    · split <;> simp [hf]
    · intro c
      cases mimic with
      | true => simp
      | false =>
        simp only [List.getD_eq_getElem?_getD, Bool.false_eq_true, if_false, List.map_const', List.getElem?_replicate]
        split <;> simp
  | sub =>
    refine ⟨_, _, if_pos (hd.trans hs.symm), by simp [hd, hs], hf, ?_, by simp⟩
    intro c hc
    exact zipWith_getD _ _ _ 0 0 0 (by omega) (by omega)
  | add =>
    refine ⟨_, _, if_pos (hd.trans hs.symm), by simp [hd, hs], hf, ?_, by simp⟩
    intro c hc
    exact zipWith_getD _ _ _ 0 0 0 (by omega) (by omega)

theorem advance_ok {a : SArr} {k : Sky} {lst0 : ℝ} {P : ℝ → Prop} {s : MSt} (h : Kept a k lst0 P s) (t : ℝ) :
    ∃ s', advance a k s t = .ok s' ∧ s'.1 = some t ∧ Kept a k lst0 P s' := by
  unfold advance
  by_cases ht : s.1 = some t
  · rw [if_pos ht]
    exact ⟨s, rfl, ht, h⟩
  · rw [if_neg ht]
    obtain ⟨ops, hn, hs, _⟩ := h.ex
    have hc : ∃ x, simCache (setJultime a s.2 (k.lst t)) (k.rows t) = .ok x := by
      unfold simCache setJultime
      simp only
      split
      · exact ⟨_, rfl⟩
      · exact ⟨_, rfl⟩
    obtain ⟨x, hx⟩ := hc
    refine ⟨(some t, x), by rw [hx]; rfl, rfl, ⟨(ops ++ [.setJultime (k.lst t)]) ++ [.simCache (k.rows t)], ?_, ?_, ?_⟩⟩
    · exact noEphem_append (noEphem_append hn (by intro t e; cases e)) (by intro t e; cases e)
    · rw [run_snoc, run_snoc, ← hs]
      show x = match simCache (setJultime a s.2 (k.lst t)) (k.rows t) with
        | .ok s' => s'
        | .error _ => _
      rw [hx]
    · intro t' _ e
      cases e
      rw [of_append, of_append]
      exact ⟨rfl, rfl, rfl⟩

theorem mdl_ok {a : SArr} {k : Sky} {lst0 : ℝ} {mode : Mode} {mimic : Bool} {P : ℝ → Prop} {s : MSt} (h : Kept a k lst0 P s) {r : Rec}
    (hf : (0 : ℝ) ∉ a.afreqs) (hP : P r.time) (hr : Fits a k r) :
    ∃ s' r', mdl a k mode mimic s r = .ok (s', r') ∧ Kept a k lst0 P s' ∧ IsModelled a k mode mimic r r' ∧
      (s'.1 = s.1 ∨ s'.1 = some r.time) := by
  unfold mdl
  by_cases hij : r.i = r.j
  · rw [if_pos hij]
    exact ⟨s, r, rfl, h, ⟨rfl, ⟨rfl, rfl⟩, rfl, fun _ => rfl, ⟨rfl, rfl⟩, fun x => absurd hij x, fun x => absurd hij x⟩, Or.inl rfl⟩
  · rw [if_neg hij]
    obtain ⟨s1, e1, t1, k1⟩ := advance_ok h r.time
    obtain ⟨ops, hn, hs, hh⟩ := k1.ex
    obtain ⟨q1, q2, q3⟩ := hh _ hP t1
    have hi : a.ants[r.i]? = some (a.ants[r.i]'hr.i) := List.getElem?_eq_getElem _
    have hj : a.ants[r.j]? = some (a.ants[r.j]'hr.j) := List.getElem?_eq_getElem _
    have hn' : NoEphem (ops ++ [.setPol r.pol]) := noEphem_append hn (by intro t e; cases e)
    have hst : run a (.init lst0) (ops ++ [.setPol r.pol]) = { s1.2 with pol := some r.pol } := by
      rw [run_snoc, ← hs]
      rfl
    have hH : Hist.of lst0 (ops ++ [.setPol r.pol]) = { Hist.of lst0 ops with pol := some r.pol } := of_append ..
    obtain ⟨s2, e2⟩ := c18_answers_partial a lst0 _ hn' r.i r.j (k.rows r.time) _ _ r.pol hi hj hf (by rw [hH]; exact q2)
      (by rw [hH]; exact q3) (by rw [hH]) (by rw [hH]; show _ ∨ (upRows a (Hist.of lst0 ops).lst _).length ≤ 1; rw [q1]; exact hr.up)
    rw [hst] at e2
    have hlst : (Hist.of lst0 (ops ++ [.setPol r.pol])).lst = k.lst r.time := by rw [hH]; exact q1
    rw [hlst] at e2
    set sd := vis a (k.lst r.time) (a.ants[r.i]'hr.i) (a.ants[r.j]'hr.j) r.pol (k.rows r.time) with hsd
    have hlen : sd.length = a.afreqs.length := by simp [hsd, vis]
    have hm : model a k r = sd := by
      unfold model
      rw [hi, hj]
    have hk2 : Kept a k lst0 P (s1.1, s2) := by
      refine ⟨(ops ++ [.setPol r.pol]) ++ [.sim r.i r.j], noEphem_append hn' (by intro t e; cases e), ?_, ?_⟩
      · rw [run_snoc, hst]
        show s2 = match sim a _ r.i r.j with
          | .ok r => r.1
          | .error _ => _
        rw [e2]
      · intro t ht e
        rw [of_append, hH]
        exact hh t ht e
    obtain ⟨d, f, e3, d1, f1, d2, f2⟩ := apply_ok mode mimic r sd hr.data hr.flags hlen
    refine ⟨(s1.1, s2), { r with data := List.zipWith (fun b x => if b then 0 else x) f d, flags := f }, ?_, hk2,
      ⟨rfl, ⟨rfl, rfl⟩, rfl, fun x => absurd x hij, ⟨?_, ?_⟩, fun _ c => f2 c, ?_⟩, Or.inr t1⟩
    · simp only [bind, Except.bind, e1, e2, e3]
      rw [if_pos (d1.trans f1.symm)]
    · simp [d1, f1, hr.data]
    · exact f1.trans hr.flags.symm
    · intro _ c hc
      show (List.zipWith (fun b x => if b then 0 else x) f d).getD c 0 = if f.getD c false then 0 else _
      rw [zipWith_getD (fun (b : Bool) (x : ℂ) => if b then 0 else x) f d false 0 0 (by omega) (by omega), d2 c hc, hm]

theorem mdlAll_ok {a : SArr} {k : Sky} {lst0 : ℝ} {mode : Mode} {mimic : Bool} {P : ℝ → Prop} (hf : (0 : ℝ) ∉ a.afreqs) :
    ∀ (recs : List Rec) {s : MSt},
    Kept a k lst0 P s → (∀ r ∈ recs, P r.time) → (∀ r ∈ recs, Fits a k r) →
    ∃ s' out, mdlAll a k mode mimic s recs = .ok (s', out) ∧ List.Forall₂ (IsModelled a k mode mimic) recs out ∧
      Kept a k lst0 P s' ∧ (s'.1 = s.1 ∨ ∃ r ∈ recs, s'.1 = some r.time) := by
  intro recs
  induction recs with
  | nil => intro s hk _ _; exact ⟨s, [], rfl, .nil, hk, Or.inl rfl⟩
  | cons r rs ih =>
    intro s hk hP hr
    obtain ⟨s1, r1, e1, k1, m1, t1⟩ := mdl_ok (mode := mode) (mimic := mimic) hk hf (hP r (by simp)) (hr r (by simp))
    obtain ⟨s2, out, e2, m2, k2, t2⟩ := ih k1 (fun x hx => hP x (by simp [hx])) fun x hx => hr x (by simp [hx])
    refine ⟨s2, r1 :: out, by unfold mdlAll; simp only [bind, Except.bind, e1, e2], .cons m1 m2, k2, ?_⟩
    rcases t2 with t2 | ⟨x, hx, t2⟩
    · rcases t1 with t1 | t1
      · exact Or.inl (t2.trans t1)
      · exact Or.inr ⟨r, by simp, t2.trans t1⟩
    · exact Or.inr ⟨x, by simp [hx], t2⟩

theorem kept_init (a : SArr) (k : Sky) (lst0 : ℝ) : Kept a k lst0 (fun _ => True) (none, .init lst0) :=
  ⟨[], by intro o ho; simp at ho, rfl, by intro t _ e; cases e⟩

/-! ## The property -/

/-- C85: whatever the order of times, baselines and polarisations in the files, each cross-correlation that `mdlvis.py` writes
has the visibility of the catalog at its own time, for its own antennas and polarisation: as the data, subtracted from the data
or added to the data; channels flagged are zero.  (Frequencies are not zero; with one channel at most one source may be up at a
time, see C84.) -/
theorem c85_records_partial (a : SArr) (k : Sky) (mode : Mode) (mimic : Bool) (lst0 : ℝ) (recs : List Rec) (hne : k.cat ≠ [])
    (hf : (0 : ℝ) ∉ a.afreqs) (hr : ∀ r ∈ recs, Fits a k r) :
    ∃ out, mdlvis a k mode mimic lst0 recs = .ok out ∧ List.Forall₂ (IsModelled a k mode mimic) recs out := by
  obtain ⟨s, out, e, m, _⟩ := mdlAll_ok (mode := mode) (mimic := mimic) hf recs (kept_init a k lst0) (fun _ _ => trivial) hr
  refine ⟨out, ?_, m⟩
  unfold mdlvis
  rw [if_neg hne, e]
  rfl

theorem modelled_fits {a : SArr} {k : Sky} {mode : Mode} {mimic : Bool} {r r' : Rec} (h : IsModelled a k mode mimic r r')
    (hr : Fits a k r) : Fits a k r' :=
  ⟨by rw [h.ants.1]; exact hr.i, by rw [h.ants.2]; exact hr.j, h.len.1.trans hr.data, h.len.2.trans hr.flags, by rw [h.time]; exact hr.up⟩

theorem modelled_model {a : SArr} {k : Sky} {mode : Mode} {mimic : Bool} {r r' : Rec} (h : IsModelled a k mode mimic r r') :
    model a k r' = model a k r := by
  unfold model
  rw [h.ants.1, h.ants.2, h.time, h.pol]

theorem all_fit {a : SArr} {k : Sky} {mode : Mode} {mimic : Bool} {recs out : List Rec}
    (h : List.Forall₂ (IsModelled a k mode mimic) recs out) (hr : ∀ r ∈ recs, Fits a k r) : ∀ r ∈ out, Fits a k r := by
  induction h with
  | nil => intro r hr; simp at hr
  | cons h _ ih =>
    intro x hx
    rcases List.mem_cons.1 hx with rfl | hx
    · exact modelled_fits h (hr _ (by simp))
    · exact ih (fun y hy => hr y (by simp [hy])) x hx

theorem forall2_trans {α : Type} {R S T : α → α → Prop} (hT : ∀ x y z, R x y → S y z → T x z) :
    ∀ {l m n : List α}, List.Forall₂ R l m → List.Forall₂ S m n → List.Forall₂ T l n := by
  intro l m n h
  induction h generalizing n with
  | nil => intro h2; cases h2; exact .nil
  | cons h _ ih => intro h2; cases h2 with | cons h2 t2 => exact .cons (hT _ _ _ h h2) (ih t2)

/-- the same record, but flagged data may have become zero -/
structure SameData (r r' : Rec) : Prop where
  time : r'.time = r.time
  ants : r'.i = r.i ∧ r'.j = r.j
  pol : r'.pol = r.pol
  flags : ∀ c, r'.flags.getD c false = r.flags.getD c false
  data : ∀ c, c < r.data.length → r.flags.getD c false = false → r'.data.getD c 0 = r.data.getD c 0

/-- C85: adding the model and subtracting it again gives back the data that were not flagged (exact arithmetic). -/
theorem c85_add_sub_partial (a : SArr) (k : Sky) (mimic : Bool) (lst0 : ℝ) (recs : List Rec) (hne : k.cat ≠ [])
    (hf : (0 : ℝ) ∉ a.afreqs) (hr : ∀ r ∈ recs, Fits a k r) :
    ∃ mid out, mdlvis a k .add mimic lst0 recs = .ok mid ∧ mdlvis a k .sub mimic lst0 mid = .ok out ∧
      List.Forall₂ SameData recs out := by
  obtain ⟨mid, e1, h1⟩ := c85_records_partial a k .add mimic lst0 recs hne hf hr
  obtain ⟨out, e2, h2⟩ := c85_records_partial a k .sub mimic lst0 mid hne hf (all_fit h1 hr)
  refine ⟨mid, out, e1, e2, ?_⟩
  have hfit : List.Forall₂ (fun r m => IsModelled a k .add mimic r m ∧ Fits a k r) recs mid := by
    clear e1 e2 h2
    induction h1 with
    | nil => exact .nil
    | cons h _ ih => exact .cons ⟨h, hr _ (by simp)⟩ (ih fun x hx => hr x (by simp [hx]))
  refine forall2_trans ?_ hfit h2
  rintro r m o ⟨h, hr⟩ h'
  refine ⟨h'.time.trans h.time, ⟨h'.ants.1.trans h.ants.1, h'.ants.2.trans h.ants.2⟩, h'.pol.trans h.pol, ?_, ?_⟩
  · intro c
    by_cases hij : r.i = r.j
    · have := h.auto hij
      subst this
      rw [h'.auto hij]
    · rw [h'.flags (by rw [h.ants.1, h.ants.2]; exact hij), h.flags hij]
      simp
  · intro c hc hfl
    by_cases hij : r.i = r.j
    · have := h.auto hij
      subst this
      rw [h'.auto hij]
    · have hij' : m.i ≠ m.j := by rw [h.ants.1, h.ants.2]; exact hij
      have f1 : m.flags.getD c false = false := by rw [h.flags hij, hfl]; simp
      have f2 : o.flags.getD c false = false := by rw [h'.flags hij', f1]; simp
      rw [hr.data] at hc
      rw [h'.data hij' c hc, if_neg (by rw [f2]; simp), h.data hij c hc, if_neg (by rw [f1]; simp), modelled_model h]
      simp [chan]

/-- C85: subtracting the model from data simulated with it leaves zero in every cross-correlation. -/
theorem c85_sim_sub_partial (a : SArr) (k : Sky) (mimic : Bool) (lst0 lst1 : ℝ) (recs : List Rec) (hne : k.cat ≠ [])
    (hf : (0 : ℝ) ∉ a.afreqs) (hr : ∀ r ∈ recs, Fits a k r) :
    ∃ mid out, mdlvis a k .sim mimic lst0 recs = .ok mid ∧ mdlvis a k .sub mimic lst1 mid = .ok out ∧
      List.Forall₂ (fun r o => r.i ≠ r.j → ∀ c, c < a.afreqs.length → o.data.getD c 0 = 0) recs out := by
  obtain ⟨mid, e1, h1⟩ := c85_records_partial a k .sim mimic lst0 recs hne hf hr
  obtain ⟨out, e2, h2⟩ := c85_records_partial a k .sub mimic lst1 mid hne hf (all_fit h1 hr)
  refine ⟨mid, out, e1, e2, forall2_trans ?_ h1 h2⟩
  intro r m o h h' hij c hc
  have hij' : m.i ≠ m.j := by rw [h.ants.1, h.ants.2]; exact hij
  rw [h'.data hij' c hc]
  split
  · rfl
  · rename_i hfl
    have f1 : m.flags.getD c false = false := by
      rw [h'.flags hij'] at hfl
      simpa using hfl
    rw [h.data hij c hc, if_neg (by rw [f1]; simp), modelled_model h]
    simp [chan]

/-- C85: the auto-correlations of a simulated data set are not simulated: the measured data are kept, although the data
written are documented as simulated. -/
theorem c85_auto_violated (a : SArr) (k : Sky) (mode : Mode) (mimic : Bool) (s : MSt) (r : Rec) (h : r.i = r.j) :
    mdl a k mode mimic s r = .ok (s, r) := by
  unfold mdl
  rw [if_pos h]

theorem mem_blank (nant nchan : Nat) (pols : List (Char × Char)) (t : ℝ) (r : Rec) :
    r ∈ blank nant nchan pols t ↔ r.time = t ∧ r.i ≤ r.j ∧ r.j < nant ∧ r.pol ∈ pols ∧ r.data = List.replicate nchan 0 ∧
      r.flags = List.replicate nchan false := by
  unfold blank
  simp only [List.mem_flatMap, List.mem_range]
  constructor
  · rintro ⟨i, hi, j, hj, h⟩
    split at h
    · simp at h
    · simp only [List.mem_map] at h
      obtain ⟨p, hp, rfl⟩ := h
      exact ⟨rfl, by simp only; omega, hj, hp, rfl, rfl⟩
  · rintro ⟨ht, hi, hj, hp, hd, hf⟩
    refine ⟨r.i, by omega, r.j, hj, ?_⟩
    rw [if_neg (by omega)]
    refine List.mem_map.2 ⟨r.pol, hp, ?_⟩
    rw [← ht, ← hd, ← hf]

/-- what belongs in a data set made from scratch -/
structure IsSimulated (a : SArr) (k : Sky) (t : ℝ) (i j : Nat) (p : Char × Char) (r : Rec) : Prop where
  is : r.time = t ∧ r.i = i ∧ r.j = j ∧ r.pol = p
  flags : r.flags = List.replicate a.afreqs.length false
  data : r.data = if i = j then List.replicate a.afreqs.length 0 else
    match a.ants[i]?, a.ants[j]? with
    | some ai, some aj => vis a (k.lst t) ai aj p (k.rows t)
    | _, _ => []

/-- the order of the records: times, first antennas, second antennas, polarisations -/
def wantedRecs (times : List ℝ) (nant : Nat) (pols : List (Char × Char)) : List (ℝ × Nat × Nat × (Char × Char)) :=
  times.flatMap fun t => (List.range nant).flatMap fun i => (List.range' i (nant - i)).flatMap fun j => pols.map fun p => (t, i, j, p)

theorem flatMap_from {α : Type} (n i : Nat) (g : Nat → List α) (hi : i ≤ n) :
    ((List.range n).flatMap fun j => if j < i then [] else g j) = (List.range' i (n - i)).flatMap g := by
  have : List.range n = List.range' 0 i ++ List.range' i (n - i) := by
    rw [List.range_eq_range', ← Nat.add_sub_cancel' hi]
    have := List.range'_append (s := 0) (m := i) (n := n - i) (step := 1)
    simp only [Nat.one_mul, Nat.zero_add] at this
    rw [Nat.add_sub_cancel_left, ← this]
  rw [this, List.flatMap_append]
  have h1 : ((List.range' 0 i).flatMap fun j => if j < i then [] else g j) = [] := by
    rw [List.flatMap_eq_nil_iff]
    intro j hj
    rw [List.mem_range'_1] at hj
    rw [if_pos (by omega)]
  rw [h1, List.nil_append]
  have h2 : ∀ l : List Nat, (∀ j ∈ l, i ≤ j) → (l.flatMap fun j => if j < i then [] else g j) = l.flatMap g := by
    intro l
    induction l with
    | nil => intro _; rfl
    | cons x l ih =>
      intro h
      have hx : ¬ x < i := by have := h x (by simp); omega
      simp only [List.flatMap_cons, if_neg hx]
      rw [ih fun j hj => h j (by simp [hj])]
  exact h2 _ fun j hj => (List.mem_range'_1.1 hj).1

/-- an empty record -/
def emptyRec (nchan : Nat) (x : ℝ × Nat × Nat × (Char × Char)) : Rec :=
  ⟨x.1, x.2.1, x.2.2.1, x.2.2.2, List.replicate nchan 0, List.replicate nchan false⟩

theorem blank_eq (nant nchan : Nat) (pols : List (Char × Char)) (t : ℝ) :
    blank nant nchan pols t = (wantedRecs [t] nant pols).map (emptyRec nchan) := by
  unfold blank wantedRecs
  simp only [List.flatMap_cons, List.flatMap_nil, List.append_nil, List.map_flatMap, List.map_map]
  have : ∀ l : List Nat, (∀ i ∈ l, i ≤ nant) →
      (l.flatMap fun i => (List.range nant).flatMap fun j =>
        if j < i then [] else pols.map fun p => (⟨t, i, j, p, List.replicate nchan 0, List.replicate nchan false⟩ : Rec)) =
      l.flatMap fun i => (List.range' i (nant - i)).flatMap fun j => pols.map (emptyRec nchan ∘ fun p => (t, i, j, p)) := by
    intro l
    induction l with
    | nil => intro _; rfl
    | cons i l ih =>
      intro h
      simp only [List.flatMap_cons]
      rw [ih fun j hj => h j (by simp [hj]), flatMap_from nant i _ (h i (by simp))]
      rfl
  exact this _ fun i hi => Nat.le_of_lt (List.mem_range.1 hi)

theorem simulated_of {a : SArr} {k : Sky} {x : ℝ × Nat × Nat × (Char × Char)} {r' : Rec} (hi : x.2.1 < a.ants.length)
    (hj : x.2.2.1 < a.ants.length) (h : IsModelled a k .sim false (emptyRec a.afreqs.length x) r') :
    IsSimulated a k x.1 x.2.1 x.2.2.1 x.2.2.2 r' := by
  obtain ⟨t, i, j, p⟩ := x
  simp only at hi hj ⊢
  by_cases hij : i = j
  · have := h.auto hij
    subst this
    exact ⟨⟨rfl, rfl, rfl, rfl⟩, rfl, by rw [if_pos hij]; rfl⟩
  · have hl := h.len
    simp only [emptyRec, List.length_replicate] at hl
    have hfl : r'.flags = List.replicate a.afreqs.length false := by
      refine List.eq_replicate_iff.2 ⟨hl.2, ?_⟩
      intro b hb
      obtain ⟨c, hc, rfl⟩ := List.getElem_of_mem hb
      have := h.flags hij c
      rw [List.getD_eq_getElem?_getD, List.getElem?_eq_getElem hc] at this
      simpa using this
    refine ⟨⟨h.time, h.ants.1, h.ants.2, h.pol⟩, hfl, ?_⟩
    rw [if_neg hij]
    have hm : model a k (emptyRec a.afreqs.length (t, i, j, p)) = match a.ants[i]?, a.ants[j]? with
        | some ai, some aj => vis a (k.lst t) ai aj p (k.rows t)
        | _, _ => [] := rfl
    rw [← hm]
    have hml : (model a k (emptyRec a.afreqs.length (t, i, j, p))).length = a.afreqs.length := by
      rw [hm, List.getElem?_eq_getElem hi, List.getElem?_eq_getElem hj]
      simp [vis]
    refine List.ext_getElem (hl.1.trans hml.symm) ?_
    intro c h1 h2
    have hc : c < a.afreqs.length := by omega
    have := h.data hij c hc
    rw [hfl, List.getD_eq_getElem?_getD, List.getElem?_eq_getElem h1, List.getD_eq_getElem?_getD (l := model a k _),
      List.getElem?_eq_getElem h2] at this
    simpa [chan, List.getD_eq_getElem?_getD, List.getElem?_replicate, hc] using this

theorem forall2_map_left {α β γ : Type} {R : β → γ → Prop} {f : α → β} : ∀ {l : List α} {m : List γ},
    List.Forall₂ R (l.map f) m → List.Forall₂ (fun x y => R (f x) y) l m := by
  intro l
  induction l with
  | nil => intro m h; cases h; exact .nil
  | cons x l ih => intro m h; cases h with | cons h t => exact .cons h (ih t)

theorem forall2_imp_mem {α β : Type} {R S : α → β → Prop} : ∀ {l : List α} {m : List β}, List.Forall₂ R l m →
    (∀ x ∈ l, ∀ y, R x y → S x y) → List.Forall₂ S l m := by
  intro l m h
  induction h with
  | nil => intro _; exact .nil
  | cons h _ ih => intro hs; exact .cons (hs _ (by simp) _ h) (ih fun x hx => hs x (by simp [hx]))

theorem mem_wantedRecs {times : List ℝ} {nant : Nat} {pols : List (Char × Char)} {x : ℝ × Nat × Nat × (Char × Char)} :
    x ∈ wantedRecs times nant pols ↔ x.1 ∈ times ∧ x.2.1 ≤ x.2.2.1 ∧ x.2.2.1 < nant ∧ x.2.2.2 ∈ pols := by
  obtain ⟨t, i, j, p⟩ := x
  unfold wantedRecs
  simp only [List.mem_flatMap, List.mem_range, List.mem_range'_1, List.mem_map, Prod.mk.injEq]
  constructor
  · rintro ⟨t', ht, i', hi, j', hj, p', hp, rfl, rfl, rfl, rfl⟩
    exact ⟨ht, hj.1, by omega, hp⟩
  · rintro ⟨ht, hi, hj, hp⟩
    exact ⟨t, ht, i, by omega, j, by omega, p, hp, rfl, rfl, rfl, rfl⟩

/-- C85: without an input file `mdlvis.py` writes, for every time, every pair of antennas `i <= j` and every polarisation, in
this order and each once, the visibility of the catalog; zeros for auto-correlations; nothing is flagged. -/
theorem c85_scratch_partial (a : SArr) (k : Sky) (pols : List (Char × Char)) (lst0 : ℝ) (hne : k.cat ≠ []) (hf : (0 : ℝ) ∉ a.afreqs)
    (times : List ℝ) (hnd : times.Nodup)
    (hup : ∀ t ∈ times, a.afreqs.length ≠ 1 ∨ (upRows a (k.lst t) (k.rows t)).length ≤ 1) :
    ∃ out, mdlvisNew a k pols lst0 times = .ok out ∧
      List.Forall₂ (fun x r => IsSimulated a k x.1 x.2.1 x.2.2.1 x.2.2.2 r) (wantedRecs times a.ants.length pols) out := by
  have key : ∀ (times : List ℝ) (s : MSt), (∃ ops, NoEphem ops ∧ s.2 = run a (.init lst0) ops) → (∀ t ∈ times, s.1 ≠ some t) →
      times.Nodup → (∀ t ∈ times, a.afreqs.length ≠ 1 ∨ (upRows a (k.lst t) (k.rows t)).length ≤ 1) →
      ∃ out, scratch a k pols s times = .ok out ∧
        List.Forall₂ (fun x r => IsSimulated a k x.1 x.2.1 x.2.2.1 x.2.2.2 r) (wantedRecs times a.ants.length pols) out := by
    intro times
    induction times with
    | nil => intro s _ _ _ _; exact ⟨[], rfl, .nil⟩
    | cons t ts ih =>
      intro s hs hne hnd hup
      obtain ⟨ops, hn, hs⟩ := hs
      have hk : Kept a k lst0 (· = t) (s.1, setJultime a s.2 (k.lst t)) :=
        ⟨ops ++ [.setJultime (k.lst t)], noEphem_append hn (by intro t e; cases e), by rw [run_snoc, ← hs]; rfl,
          fun t' ht' e => absurd e (by rw [ht']; exact hne t (by simp))⟩
      obtain ⟨s', out, e1, m1, k1, t1⟩ := mdlAll_ok (mode := .sim) (mimic := false) hf
        (blank a.ants.length a.afreqs.length pols t) hk (fun r hr => ((mem_blank _ _ _ _ _).1 hr).1) (by
          intro r hr
          obtain ⟨q1, q2, q3, q4, q5, q6⟩ := (mem_blank _ _ _ _ _).1 hr
          exact ⟨by omega, q3, by rw [q5]; simp, by rw [q6]; simp, by rw [q1]; exact hup t (by simp)⟩)
      obtain ⟨ops', hn', hs', _⟩ := k1.ex
      have hne' : ∀ x ∈ ts, s'.1 ≠ some x := by
        intro x hx
        rcases t1 with t1 | ⟨r, hr, t1⟩
        · rw [t1]
          exact hne x (by simp [hx])
        · rw [t1, ((mem_blank _ _ _ _ _).1 hr).1]
          intro e
          cases e
          exact (List.nodup_cons.1 hnd).1 hx
      obtain ⟨rest, e2, m2⟩ := ih s' ⟨ops', hn', hs'⟩ hne' (List.nodup_cons.1 hnd).2 fun x hx => hup x (by simp [hx])
      refine ⟨out ++ rest, by unfold scratch; simp only [bind, Except.bind, e1, e2], ?_⟩
      have hw : wantedRecs (t :: ts) a.ants.length pols = wantedRecs [t] a.ants.length pols ++ wantedRecs ts a.ants.length pols := by
        simp [wantedRecs]
      rw [hw]
      refine List.rel_append ?_ m2
      rw [blank_eq] at m1
      refine forall2_imp_mem (forall2_map_left m1) ?_
      intro x hx y h
      have := mem_wantedRecs.1 hx
      exact simulated_of (by omega) this.2.2.1 h
  unfold mdlvisNew
  rw [if_neg hne]
  exact key times _ ⟨[], by intro o ho; simp at ho, rfl⟩ (by intro t _ e; cases e) hnd hup

/-! ## Examples -/

/-- one source overhead at time 0, and an hour angle that grows with time -/
def skyDemo : Sky := ⟨[⟨0, 0, 1, -1, 1, (0, 0), (0, 0, 0)⟩], fun _ s => (s.ra, s.dec), fun t => t⟩

def arrDemo : SArr := { pair with afreqs := [1, 2] }

def recsDemo : List Rec :=
  [⟨0, 0, 1, ('x', 'x'), [1, 2], [false, true]⟩, ⟨0, 0, 0, ('x', 'x'), [7, 8], [false, true]⟩, ⟨1, 0, 1, ('x', 'y'), [3, 4], [false, false]⟩,
    ⟨0, 1, 0, ('y', 'y'), [5, 6], [false, false]⟩]

theorem demo_fits : ∀ r ∈ recsDemo, Fits arrDemo skyDemo r := by
  intro r hr
  simp only [recsDemo, List.mem_cons, List.not_mem_nil, or_false] at hr
  rcases hr with rfl | rfl | rfl | rfl <;>
    exact ⟨by decide, by decide, rfl, rfl, Or.inl (by decide)⟩

/-- four records, times not in order -/
example (mode : Mode) (mimic : Bool) : ∃ out, mdlvis arrDemo skyDemo mode mimic 5 recsDemo = .ok out ∧
    List.Forall₂ (IsModelled arrDemo skyDemo mode mimic) recsDemo out :=
  c85_records_partial arrDemo skyDemo mode mimic 5 recsDemo (by simp [skyDemo]) (by simp [arrDemo]) demo_fits

/-- two times, two antennas, two polarisations: twelve records -/
example : ∃ out, mdlvisNew arrDemo skyDemo [('x', 'x'), ('y', 'y')] 0 [0, 1] = .ok out ∧ out.length = 12 := by
  obtain ⟨out, e, h⟩ := c85_scratch_partial arrDemo skyDemo [('x', 'x'), ('y', 'y')] 0 (by simp [skyDemo]) (by simp [arrDemo]) [0, 1] (by simp)
    (fun _ _ => Or.inl (by decide))
  refine ⟨out, e, ?_⟩
  rw [← h.length_eq]
  simp [wantedRecs, arrDemo, pair, List.range_succ, List.range'_succ]

end Verif.Amp
