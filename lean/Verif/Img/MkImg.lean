import Verif.Img.HermProps

/-!
# `mk_img.py` (C103)

`/repo/scripts/mk_img.py` 61-258: which samples go into which image.  The records are those that the selection and the
decimation leave of all files one after the other (C07, C50, C79); what the calibration, phasing and beam weighting make of a
record for a pointing (C14-C18, C86) is a parameter of the model, a list of channels with flag, distance from the origin and
sample.  An image is the list of the batches that `im.put` was given; for the gridding without w projection
`c103_batches` shows, with the model of `Img.put` (C24, C28), that only the samples count and not how they were cut in batches.

Simplified: history, FITS writing and printed output; the file that is being read (`uv.all` of one file after the other);
`PointingError` of `phs2src` for sources below the horizon (only with a negative `--altmin`); times are never nan.
-/
namespace Verif.Img.MkImg

/-! ## Model -/

/-- a channel of a record after lines 214-229: flag, `np.sqrt(u**2+v**2) < opts.minuv`, and (u, v, w), datum, weight -/
structure Chan (S : Type) where
  flag : Bool
  short : Bool
  val : S

/-- options and what is made of a record for a pointing -/
structure Setup (π τ ρ S : Type) where
  /-- `s.alt >= opts.altmin * deg2rad` at a time -/
  up : π → τ → Bool
  /-- the channels of a record for a pointing -/
  chans : π → τ → ρ → List (Chan S)
  /-- `RadioFixedBody(aa.sidereal_time(), aa.lat)` with `aa` at a time, for `--src=zen` -/
  zen : Option (τ → π)
  /-- `len(chans)` -/
  nchan : Nat
  /-- `opts.buf_thresh` -/
  thresh : Nat
  /-- `opts.snap` -/
  snap : Int

/-- what is written: the image of what was gridded (`img_it`), or the modulus of the uv matrix (lines 193-194) -/
inductive Pic (S : Type)
  | made (batches : List (List S))
  | raw (batches : List (List S))

/-- the variables of the loops -/
structure St (π τ S : Type) where
  /-- `im`: the batches gridded -/
  im : List (List S)
  /-- `ds` (and `us`, `vs`, `ws`, `wgts`) -/
  buf : List (List S)
  snapcnt : Int
  /-- `curtime` -/
  cur : Option τ
  /-- the time of `aa` -/
  aat : τ
  /-- `s` -/
  s : π
  imgcnt : Int
  /-- files written: number, pointing, contents -/
  out : List (Int × π × Pic S)

variable {π τ ρ S : Type} [DecidableEq τ]

/-- `grid_it`, mk_img.py 140-149; `none` is `ValueError`: without data (line 143), or from `np.concatenate` of
zero-dimensional arrays in `append_hermitian` (img.py 187-189), where one weight is taken for one list of weights -/
def gridIt (im buf : List (List S)) : Option (List (List S)) :=
  if buf.length = 0 then none else
  if buf.flatten.length = 1 then none else some (im ++ [buf.flatten])

/-- the snapshot is written, mk_img.py 189-197 -/
def writeSnap (st : St π τ S) : St π τ S :=
  match gridIt st.im st.buf with
  | some im => { st with im := im, out := st.out ++ [(st.imgcnt, st.s, .made im)], imgcnt := st.imgcnt + 1 }
  | none => { st with out := st.out ++ [(st.imgcnt, st.s, .raw st.im)], imgcnt := st.imgcnt + 1 }

/-- a new image is begun, mk_img.py 198-206 -/
def restart (o : Setup π τ ρ S) (st : St π τ S) : St π τ S :=
  { st with im := [], buf := [], s := match o.zen with | none => st.s | some z => z st.aat }

/-- at a new time, mk_img.py 185-206 -/
def snapStep (o : Setup π τ ρ S) (st : St π τ S) : St π τ S :=
  if o.snap > 0 then
    let st := { st with snapcnt := (st.snapcnt + 1) % o.snap }
    if st.snapcnt = 0 then
      restart o (if st.cur.isSome then writeSnap st else st)
    else st
  else st

/-- `valid` and `d.compress(valid)`, mk_img.py 230-231 -/
def valid (cs : List (Chan S)) : List S := (cs.filter fun c => !c.flag && !c.short).map Chan.val

/-- the buffer takes the samples of a record and is gridded when full, mk_img.py 232-242; `none` is a `ValueError` that is
not caught -/
def store (o : Setup π τ ρ S) (st : St π τ S) (d : List S) : Option (St π τ S) :=
  if d = [] then some st else
  let st := { st with buf := st.buf ++ [d] }
  if st.buf.length * o.nchan > o.thresh then (gridIt st.im st.buf).map fun im => { st with im := im, buf := [] }
  else some st

/-- the body of the loop over records, mk_img.py 183-242 -/
def step (o : Setup π τ ρ S) (st : St π τ S) (r : τ × ρ) : Option (St π τ S) :=
  let st := if st.cur ≠ some r.1 then { snapStep o st with cur := some r.1, aat := r.1 } else st
  if !o.up st.s r.1 then some st else store o st (valid (o.chans st.s r.1 r.2))

/-- after the last record, mk_img.py 245-258; where `grid_it` fails, `continue` leaves image and buffer as they are -/
def finish (st : St π τ S) : St π τ S :=
  match gridIt st.im st.buf with
  | some im => { st with im := [], buf := [], out := st.out ++ [(st.imgcnt, st.s, .made im)], imgcnt := st.imgcnt + 1 }
  | none => st

/-- the body of the loop over pointings, mk_img.py 166-258 -/
def point (o : Setup π τ ρ S) (recs : List (τ × ρ)) (st : St π τ S) (p : π) : Option (St π τ S) :=
  (recs.foldlM (step o) { st with snapcnt := 0, cur := none, s := p }).map finish

/-- the loop over pointings from `--skip` on, mk_img.py 163-258: the files written; `t0` is the time of `aa` before -/
def mkImg (o : Setup π τ ρ S) (recs : List (τ × ρ)) (pts : List π) (skip : Nat) (cnt : Int) (t0 : τ) :
    Option (List (Int × π × Pic S)) :=
  match pts.drop skip with
  | [] => some []
  | p :: ps => ((p :: ps).foldlM (point o recs) ⟨[], [], 0, none, t0, p, cnt, []⟩).map St.out

/-! ## Specification -/

/-- the samples a record gives for a pointing: those of the channels that are neither flagged nor too short, while the
pointing is up -/
def given (o : Setup π τ ρ S) (p : π) (r : τ × ρ) : List S :=
  if o.up p r.1 = true then
    (o.chans p r.1 r.2).filterMap fun c => if c.flag = true ∨ c.short = true then none else some c.val
  else []

/-- how many records give samples -/
def records (o : Setup π τ ρ S) (p : π) (recs : List (τ × ρ)) : Nat := (recs.filter fun r => (given o p r).length ≠ 0).length

/-- how many records fill the buffer -/
def capacity (o : Setup π τ ρ S) : Nat := o.thresh / o.nchan + 1

/-- an integration: time and the records of that time -/
abbrev Integ (τ ρ : Type) := τ × List ρ

/-- the records of integrations -/
def ofInts (ints : List (Integ τ ρ)) : List (τ × ρ) := ints.flatMap fun x => x.2.map fun r => (x.1, r)

/-- integrations are not empty and follow each other with different times -/
def Integrations (ints : List (Integ τ ρ)) : Prop :=
  (∀ x ∈ ints, x.2 ≠ []) ∧ ints.IsChain fun a b => a.1 ≠ b.1

/-- the integrations with numbers, from one, that divided by `n` give `j` -/
def snapshot (n : Nat) (ints : List (Integ τ ρ)) (j : Nat) : List (Integ τ ρ) :=
  (ints.take ((j + 1) * n - 1)).drop (j * n - 1)

/-- the pointing of snapshot `j`: with `--src=zen` the zenith at the integration before its first (`t0` if there is none), but
for the first snapshot, and otherwise, the pointing of the catalog -/
def centre (o : Setup π τ ρ S) (p : π) (t0 : τ) (n : Nat) (ints : List (Integ τ ρ)) (j : Nat) : π :=
  match o.zen with
  | none => p
  | some z => if j = 0 then p else z ((t0 :: ints.map Prod.fst).getD (j * n - 1) t0)

/-! ## Lemmas -/

omit [DecidableEq τ] in
theorem given_eq (o : Setup π τ ρ S) (p : π) (r : τ × ρ) :
    given o p r = if o.up p r.1 = true then valid (o.chans p r.1 r.2) else [] := by
  unfold given valid
  congr 1
  induction o.chans p r.1 r.2 with
  | nil => rfl
  | cons c cs ih =>
    rw [List.filterMap_cons, List.filter_cons, ih]
    cases hf : c.flag <;> cases hs : c.short <;> simp

/-- what a step does while the time stays -/
theorem step_same (o : Setup π τ ρ S) (st : St π τ S) (r : τ × ρ) (h : st.cur = some r.1) :
    step o st r = store o st (given o st.s r) := by
  unfold step
  rw [given_eq]
  simp only [h, ne_eq, not_true_eq_false, if_false]
  by_cases hu : o.up st.s r.1 = true
  · simp [hu]
  · simp [hu, store]

/-- what a step does at a new time -/
theorem step_new (o : Setup π τ ρ S) (st : St π τ S) (r : τ × ρ) (h : st.cur ≠ some r.1) :
    step o st r = step o { snapStep o st with cur := some r.1, aat := r.1 } r := by
  rw [step_same o { snapStep o st with cur := some r.1, aat := r.1 } r rfl]
  unfold step
  rw [given_eq]
  simp only [ne_eq, h, not_false_eq_true, if_true]
  by_cases hu : o.up (snapStep o st).s r.1 = true
  · simp [hu]
  · simp [hu, store]

/-- image and buffer together -/
def held (st : St π τ S) : List S := st.im.flatten ++ st.buf.flatten

/-- the buffer is not overfull and has no single samples -/
structure Tidy (o : Setup π τ ρ S) (st : St π τ S) : Prop where
  room : st.buf.length < capacity o
  two : ∀ d ∈ st.buf, 2 ≤ d.length

omit [DecidableEq τ] in
theorem full_iff {o : Setup π τ ρ S} (hn : 0 < o.nchan) (k : Nat) : k * o.nchan > o.thresh ↔ capacity o ≤ k := by
  unfold capacity
  rw [gt_iff_lt, Nat.succ_le_iff, Nat.div_lt_iff_lt_mul hn]

omit [DecidableEq τ] in
theorem gridIt_some {im buf : List (List S)} (h0 : buf ≠ []) (h2 : ∀ d ∈ buf, 2 ≤ d.length) :
    gridIt im buf = some (im ++ [buf.flatten]) := by
  unfold gridIt
  rw [if_neg (by simpa using h0)]
  cases buf with
  | nil => exact absurd rfl h0
  | cons d buf =>
    have := h2 d List.mem_cons_self
    rw [if_neg]
    rw [List.flatten_cons, List.length_append]
    omega

omit [DecidableEq τ] in
theorem store_ok {o : Setup π τ ρ S} (hn : 0 < o.nchan) {st : St π τ S} (h : Tidy o st) {d : List S} (hd : d.length ≠ 1) :
    ∃ im buf, store o st d = some { st with im := im, buf := buf } ∧ im.flatten ++ buf.flatten = held st ++ d ∧
      Tidy o { st with im := im, buf := buf } ∧
      buf.length = (st.buf.length + if d.length ≠ 0 then 1 else 0) % capacity o := by
  unfold store
  by_cases h0 : d = []
  · subst h0
    refine ⟨st.im, st.buf, by simp, by simp [held], h, ?_⟩
    simp [Nat.mod_eq_of_lt h.room]
  · have hl : d.length ≠ 0 := by simpa using h0
    rw [if_neg h0]
    simp only [full_iff hn, List.length_append, List.length_singleton, if_pos hl]
    have h2 : ∀ e ∈ st.buf ++ [d], 2 ≤ e.length := by
      intro e he
      rcases List.mem_append.1 he with he | he
      · exact h.two e he
      · rw [List.mem_singleton.1 he]; omega
    by_cases hc : capacity o ≤ st.buf.length + 1
    · rw [if_pos hc, gridIt_some (by simp) h2]
      have hc' : capacity o = st.buf.length + 1 := by have := h.room; omega
      refine ⟨_, _, rfl, ?_, ⟨by unfold capacity; simp, by simp⟩, ?_⟩
      · simp [held]
      · rw [hc']; simp
    · rw [if_neg hc]
      refine ⟨st.im, st.buf ++ [d], rfl, ?_, ⟨?_, h2⟩, ?_⟩
      · simp [held]
      · simp only [List.length_append, List.length_singleton]; omega
      · rw [Nat.mod_eq_of_lt (by omega)]; simp

omit [DecidableEq τ] in
theorem records_cons (o : Setup π τ ρ S) (p : π) (r : τ × ρ) (rs : List (τ × ρ)) :
    records o p (r :: rs) = (if (given o p r).length ≠ 0 then 1 else 0) + records o p rs := by
  unfold records
  rw [List.filter_cons]
  by_cases h : (given o p r).length ≠ 0
  · simp [h]; omega
  · simp [h]

omit [DecidableEq τ] in
theorem records_append (o : Setup π τ ρ S) (p : π) (a b : List (τ × ρ)) :
    records o p (a ++ b) = records o p a + records o p b := by
  unfold records
  rw [List.filter_append, List.length_append]

/-- records of one time, the time being current -/
theorem run_same {o : Setup π τ ρ S} (hn : 0 < o.nchan) (t : τ) : ∀ (rs : List ρ) {st : St π τ S}, Tidy o st →
    st.cur = some t → (∀ r ∈ rs, (given o st.s (t, r)).length ≠ 1) →
    ∃ im buf, (rs.map fun r => (t, r)).foldlM (step o) st = some { st with im := im, buf := buf } ∧
      im.flatten ++ buf.flatten = held st ++ (rs.map fun r => (t, r)).flatMap (given o st.s) ∧
      Tidy o { st with im := im, buf := buf } ∧
      buf.length = (st.buf.length + records o st.s (rs.map fun r => (t, r))) % capacity o := by
  intro rs
  induction rs with
  | nil =>
    intro st h _ _
    refine ⟨st.im, st.buf, rfl, by simp [held], h, ?_⟩
    simp [records, Nat.mod_eq_of_lt h.room]
  | cons r rs ih =>
    intro st h hc h1
    obtain ⟨im, buf, e1, e2, e3, e4⟩ := store_ok hn h (h1 r List.mem_cons_self)
    obtain ⟨im', buf', f1, f2, f3, f4⟩ := ih e3 hc (fun q hq => h1 q (List.mem_cons_of_mem _ hq))
    refine ⟨im', buf', ?_, ?_, f3, ?_⟩
    · rw [List.map_cons, List.foldlM_cons, step_same o st (t, r) hc, e1]
      exact f1
    · rw [f2, List.map_cons, List.flatMap_cons]
      unfold held
      simp only
      rw [e2]
      unfold held
      simp
    · rw [f4, List.map_cons, records_cons]
      simp only
      rw [e4, Nat.mod_add_mod]
      congr 1
      omega

/-- records without snapshots: times do not matter -/
theorem run_plain {o : Setup π τ ρ S} (hn : 0 < o.nchan) (hs : ¬ o.snap > 0) : ∀ (recs : List (τ × ρ)) {st : St π τ S},
    Tidy o st → (∀ r ∈ recs, (given o st.s r).length ≠ 1) →
    ∃ st', recs.foldlM (step o) st = some st' ∧ st'.s = st.s ∧ st'.out = st.out ∧ st'.imgcnt = st.imgcnt ∧
      held st' = held st ++ recs.flatMap (given o st.s) ∧ Tidy o st' ∧
      st'.buf.length = (st.buf.length + records o st.s recs) % capacity o := by
  intro recs
  induction recs with
  | nil =>
    intro st h _
    refine ⟨st, rfl, rfl, rfl, rfl, by simp, h, ?_⟩
    simp [records, Nat.mod_eq_of_lt h.room]
  | cons r recs ih =>
    intro st h h1
    have hstep : ∃ st1 : St π τ S, step o st r = store o st1 (given o st.s r) ∧ st1.s = st.s ∧ st1.im = st.im ∧
        st1.buf = st.buf ∧ st1.out = st.out ∧ st1.imgcnt = st.imgcnt := by
      by_cases hc : st.cur = some r.1
      · exact ⟨st, step_same o st r hc, rfl, rfl, rfl, rfl, rfl⟩
      · have hsn : snapStep o st = st := by unfold snapStep; rw [if_neg hs]
        refine ⟨{ st with cur := some r.1, aat := r.1 }, ?_, rfl, rfl, rfl, rfl, rfl⟩
        rw [step_new o st r hc, hsn, step_same o _ r rfl]
    obtain ⟨st1, s1, s2, s3, s4, s5, s6⟩ := hstep
    have ht1 : Tidy o st1 := ⟨by rw [s4]; exact h.room, by rw [s4]; exact h.two⟩
    obtain ⟨im, buf, e1, e2, e3, e4⟩ := store_ok hn ht1 (h1 r List.mem_cons_self)
    obtain ⟨st', f1, f2, f3, f4, f5, f6, f7⟩ := ih e3 (by
      intro q hq
      show (given o st1.s q).length ≠ 1
      rw [s2]
      exact h1 q (List.mem_cons_of_mem _ hq))
    refine ⟨st', ?_, f2.trans s2, f3.trans s5, f4.trans s6, ?_, f6, ?_⟩
    · rw [List.foldlM_cons, s1, e1]
      exact f1
    · rw [f5]
      unfold held at e2 ⊢
      simp only
      rw [e2, s2, s3, s4]
      simp
    · rw [f7]
      simp only
      rw [e4, s2, s4, Nat.mod_add_mod, records_cons]
      congr 1
      omega

omit [DecidableEq τ] in
theorem records_zero {o : Setup π τ ρ S} {p : π} {recs : List (τ × ρ)} (h : records o p recs = 0) :
    recs.flatMap (given o p) = [] := by
  induction recs with
  | nil => rfl
  | cons r recs ih =>
    rw [records_cons] at h
    have h1 : (given o p r).length = 0 := by
      by_contra h0
      rw [if_pos h0] at h
      omega
    rw [List.flatMap_cons, List.length_eq_zero_iff.1 h1, ih (by omega)]
    rfl

omit [DecidableEq τ] in
theorem capacity_pos (o : Setup π τ ρ S) : 0 < capacity o := by unfold capacity; exact Nat.succ_pos _

/-- a pointing without snapshots, from a state in which nothing is held -/
theorem point_plain {o : Setup π τ ρ S} (hn : 0 < o.nchan) (hs : ¬ o.snap > 0) (recs : List (τ × ρ)) {st : St π τ S} (p : π)
    (hbuf : st.buf = []) (h1 : ∀ r ∈ recs, (given o p r).length ≠ 1) :
    (records o p recs % capacity o ≠ 0 → ∃ st' bs, point o recs st p = some st' ∧ st'.im = [] ∧ st'.buf = [] ∧
      st'.imgcnt = st.imgcnt + 1 ∧ st'.out = st.out ++ [(st.imgcnt, p, .made bs)] ∧
      bs.flatten = st.im.flatten ++ recs.flatMap (given o p)) ∧
    (records o p recs % capacity o = 0 → ∃ st', point o recs st p = some st' ∧ st'.buf = [] ∧
      st'.imgcnt = st.imgcnt ∧ st'.out = st.out ∧ st'.im.flatten = st.im.flatten ++ recs.flatMap (given o p)) := by
  obtain ⟨st1, e1, e2, e3, e4, e5, e6, e7⟩ := run_plain hn hs recs
    (st := { st with snapcnt := 0, cur := none, s := p })
    ⟨by show st.buf.length < _; rw [hbuf]; exact capacity_pos o, by
      show ∀ d ∈ st.buf, _
      rw [hbuf]; simp⟩ h1
  have hheld : held ({ st with snapcnt := 0, cur := none, s := p } : St π τ S) = st.im.flatten := by
    unfold held
    simp [hbuf]
  rw [hheld] at e5
  have hlen : st1.buf.length = records o p recs % capacity o := by
    rw [e7]
    show (st.buf.length + _) % _ = _
    rw [hbuf]
    simp
  constructor
  · intro h
    have hne : st1.buf ≠ [] := by
      intro h0
      rw [h0] at hlen
      exact h hlen.symm
    refine ⟨finish st1, st1.im ++ [st1.buf.flatten], ?_, ?_⟩
    · unfold point
      rw [e1]
      rfl
    · unfold finish
      rw [gridIt_some hne e6.two]
      refine ⟨rfl, rfl, by rw [e4], by rw [e3, e4, e2], ?_⟩
      unfold held at e5
      simpa using e5
  · intro h
    rw [h] at hlen
    have hnil : st1.buf = [] := List.length_eq_zero_iff.1 hlen
    refine ⟨finish st1, ?_, ?_⟩
    · unfold point
      rw [e1]
      rfl
    · unfold finish gridIt
      rw [if_pos hlen]
      refine ⟨hnil, e4, e3, ?_⟩
      unfold held at e5
      rw [hnil] at e5
      simpa using e5

/-! ## C103 -/

theorem points_plain {o : Setup π τ ρ S} (hn : 0 < o.nchan) (hs : ¬ o.snap > 0) (recs : List (τ × ρ)) : ∀ (pts : List π)
    {st : St π τ S}, st.buf = [] → st.im.flatten = [] → (∀ p ∈ pts, ∀ r ∈ recs, (given o p r).length ≠ 1) →
    (∀ p ∈ pts, records o p recs = 0 ∨ records o p recs % capacity o ≠ 0) →
    ∃ st' imgs, pts.foldlM (point o recs) st = some st' ∧ st'.out = st.out ++ imgs ∧
      imgs.map (fun x => x.2.1) = pts.filter (fun p => records o p recs ≠ 0) ∧
      imgs.map (fun x => x.1) = (List.range imgs.length).map (fun k : Nat => st.imgcnt + (k : Int)) ∧
      ∀ x ∈ imgs, ∃ bs, x.2.2 = .made bs ∧ bs.flatten = recs.flatMap (given o x.2.1) := by
  intro pts
  induction pts with
  | nil => intro st _ _ _ _; exact ⟨st, [], rfl, by simp, rfl, rfl, by simp⟩
  | cons p pts ih =>
    intro st hb hi h1 h2
    have hp := point_plain hn hs recs p hb (h1 p List.mem_cons_self)
    rcases h2 p List.mem_cons_self with h0 | h0
    · obtain ⟨st1, e1, e2, e3, e4, e5⟩ := hp.2 (by rw [h0]; simp)
      rw [hi, records_zero h0, List.nil_append] at e5
      obtain ⟨st', imgs, f1, f2, f3, f4, f5⟩ := ih e2 e5 (fun q hq => h1 q (List.mem_cons_of_mem _ hq))
        (fun q hq => h2 q (List.mem_cons_of_mem _ hq))
      refine ⟨st', imgs, ?_, by rw [f2, e4], ?_, by rw [f4, e3], f5⟩
      · rw [List.foldlM_cons, e1]
        exact f1
      · rw [f3, List.filter_cons]
        simp [h0]
    · obtain ⟨st1, bs, e1, e2, e3, e4, e5, e6⟩ := hp.1 h0
      rw [hi, List.nil_append] at e6
      obtain ⟨st', imgs, f1, f2, f3, f4, f5⟩ := ih e3 (by rw [e2]; rfl) (fun q hq => h1 q (List.mem_cons_of_mem _ hq))
        (fun q hq => h2 q (List.mem_cons_of_mem _ hq))
      refine ⟨st', (st.imgcnt, p, .made bs) :: imgs, ?_, by rw [f2, e5]; simp, ?_, ?_, ?_⟩
      · rw [List.foldlM_cons, e1]
        exact f1
      · have h3 : records o p recs ≠ 0 := by intro h; rw [h] at h0; simp at h0
        rw [List.map_cons, f3, List.filter_cons]
        simp [h3]
      · rw [List.map_cons, f4, List.length_cons, List.range_succ_eq_map, List.map_cons, List.map_map]
        congr 1
        · simp
        · apply List.map_congr_left
          intro k _
          simp only [Function.comp, e4, Nat.succ_eq_add_one, Nat.cast_add, Nat.cast_one]
          omega
      · intro x hx
        rcases List.mem_cons.1 hx with rfl | hx
        · exact ⟨bs, rfl, e6⟩
        · exact f5 x hx

/-- **C103**: without snapshots there is one image for every pointing, from `--skip` on, that has samples; the images are
numbered one after the other from `--cnt`, and each is made of all samples of its pointing (channels neither flagged nor too
short of the records during which the pointing is up), each once and in order, provided that the buffer is not gridded with
the last record of a pointing, and no record gives a single sample. -/
theorem c103_images_partial (o : Setup π τ ρ S) (hn : 0 < o.nchan) (hs : o.snap ≤ 0) (recs : List (τ × ρ)) (pts : List π)
    (skip : Nat) (cnt : Int) (t0 : τ) (h1 : ∀ p ∈ pts, ∀ r ∈ recs, (given o p r).length ≠ 1)
    (h2 : ∀ p ∈ pts, records o p recs = 0 ∨ records o p recs % capacity o ≠ 0) :
    ∃ imgs, mkImg o recs pts skip cnt t0 = some imgs ∧
      imgs.map (fun x => x.2.1) = (pts.drop skip).filter (fun p => records o p recs ≠ 0) ∧
      imgs.map (fun x => x.1) = (List.range imgs.length).map (fun k : Nat => cnt + (k : Int)) ∧
      ∀ x ∈ imgs, ∃ bs, x.2.2 = .made bs ∧ bs.flatten = recs.flatMap (given o x.2.1) := by
  unfold mkImg
  cases hd : pts.drop skip with
  | nil => exact ⟨[], rfl, rfl, rfl, by simp⟩
  | cons p ps =>
    have hin : ∀ q ∈ p :: ps, q ∈ pts := fun q hq => List.mem_of_mem_drop (hd ▸ hq)
    obtain ⟨st', imgs, f1, f2, f3, f4, f5⟩ := points_plain hn (by omega) recs (p :: ps)
      (st := ⟨[], [], 0, none, t0, p, cnt, []⟩) rfl rfl (fun q hq => h1 q (hin q hq)) (fun q hq => h2 q (hin q hq))
    refine ⟨imgs, ?_, f3, f4, f5⟩
    simp only [f1, Option.map_some]
    rw [f2]
    rfl

/-- **C103, disagreement**: when the last record of a pointing fills the buffer, so that the buffer has been gridded and is
empty, the pointing is taken to have no data: its image is not written, whatever was gridded, and the samples go into the
image of the next pointing. -/
theorem c103_lost_violated (o : Setup π τ ρ S) (hn : 0 < o.nchan) (hs : o.snap ≤ 0) (recs : List (τ × ρ)) (p q : π)
    (cnt : Int) (t0 : τ) (h1 : ∀ r ∈ recs, (given o p r).length ≠ 1 ∧ (given o q r).length ≠ 1)
    (hp : records o p recs % capacity o = 0) (hq : records o q recs % capacity o ≠ 0) :
    mkImg o recs [p] 0 cnt t0 = some [] ∧
    ∃ bs, mkImg o recs [p, q] 0 cnt t0 = some [(cnt, q, .made bs)] ∧
      bs.flatten = recs.flatMap (given o p) ++ recs.flatMap (given o q) := by
  obtain ⟨st1, e1, e2, e3, e4, e5⟩ := (point_plain hn (by omega) recs (st := ⟨[], [], 0, none, t0, p, cnt, []⟩) p rfl
    (fun r hr => (h1 r hr).1)).2 hp
  obtain ⟨st2, bs, f1, f2, f3, f4, f5, f6⟩ := (point_plain hn (by omega) recs (st := st1) q e2
    (fun r hr => (h1 r hr).2)).1 hq
  constructor
  · unfold mkImg
    simp only [List.drop_zero, List.foldlM_cons, e1, List.foldlM_nil]
    show some st1.out = _
    rw [e4]
  · refine ⟨bs, ?_, ?_⟩
    · unfold mkImg
      simp only [List.drop_zero, List.foldlM_cons, e1, List.foldlM_nil, Option.bind_eq_bind, Option.bind_some, f1]
      show some st2.out = _
      rw [f5, e3, e4]
      rfl
    · rw [f6, e5]
      simp

/-! ## Snapshots -/

omit [DecidableEq τ] in
theorem ofInts_append (a b : List (Integ τ ρ)) : ofInts (a ++ b) = ofInts a ++ ofInts b := by
  unfold ofInts
  rw [List.flatMap_append]

omit [DecidableEq τ] in
theorem ofInts_one (x : Integ τ ρ) : ofInts [x] = x.2.map fun r => (x.1, r) := by
  unfold ofInts
  simp

omit [DecidableEq τ] in
/-- a snapshot that goes on -/
theorem snapshot_more {n : Nat} (ints : List (Integ τ ρ)) (x : Integ τ ρ) {j : Nat} (h1 : j * n - 1 ≤ ints.length)
    (h2 : ints.length < (j + 1) * n - 1) : snapshot n (ints ++ [x]) j = snapshot n ints j ++ [x] := by
  unfold snapshot
  rw [List.take_of_length_le (by simp; omega), List.take_of_length_le (by omega), List.drop_append_of_le_length h1]

omit [DecidableEq τ] in
/-- a snapshot that begins -/
theorem snapshot_begin {n : Nat} (ints : List (Integ τ ρ)) (x : Integ τ ρ) {j : Nat} (h1 : ints.length = j * n - 1)
    (h2 : ints.length < (j + 1) * n - 1) : snapshot n (ints ++ [x]) j = [x] := by
  unfold snapshot
  rw [List.take_of_length_le (by simp; omega), h1.symm, List.drop_left]

omit [DecidableEq τ] in
/-- a snapshot that is complete -/
theorem snapshot_done {n : Nat} (ints rest : List (Integ τ ρ)) {j : Nat} (h : (j + 1) * n - 1 ≤ ints.length) :
    snapshot n (ints ++ rest) j = snapshot n ints j := by
  unfold snapshot
  rw [List.take_append_of_le_length h]

omit [DecidableEq τ] in
theorem centre_append (o : Setup π τ ρ S) (p : π) (t0 : τ) {n : Nat} (ints rest : List (Integ τ ρ)) {j : Nat}
    (h : j * n - 1 ≤ ints.length) : centre o p t0 n (ints ++ rest) j = centre o p t0 n ints j := by
  unfold centre
  cases o.zen with
  | none => rfl
  | some z =>
    simp only
    by_cases hj : j = 0
    · simp [hj]
    · rw [if_neg hj, if_neg hj, List.map_append, ← List.cons_append, List.getD_eq_getElem?_getD,
        List.getD_eq_getElem?_getD, List.getElem?_append_left (by simp; omega)]

/-- the first image that is written is that of snapshot 0, except for `--snap=1` -/
def first (n : Nat) : Nat := if n = 1 then 1 else 0

/-- the image of snapshot `j` -/
def IsImage (o : Setup π τ ρ S) (p : π) (t0 : τ) (n : Nat) (ints : List (Integ τ ρ)) (cnt : Int) (k : Nat)
    (x : Int × π × Pic S) : Prop :=
  x.1 = cnt + k ∧ x.2.1 = centre o p t0 n ints (first n + k) ∧ ∃ bs, x.2.2 = .made bs ∧
    bs.flatten = (ofInts (snapshot n ints (first n + k))).flatMap (given o (centre o p t0 n ints (first n + k)))

/-- the state after some integrations -/
structure Inv (o : Setup π τ ρ S) (p : π) (t0 : τ) (n : Nat) (cnt : Int) (ints : List (Integ τ ρ)) (st : St π τ S) : Prop where
  snapcnt : st.snapcnt = (ints.length % n : Nat)
  cur : st.cur = (ints.map Prod.fst).getLast?
  aat : (t0 :: ints.map Prod.fst).getLast? = some st.aat
  s : st.s = centre o p t0 n ints (ints.length / n)
  held : held st = (ofInts (snapshot n ints (ints.length / n))).flatMap (given o st.s)
  tidy : Tidy o st
  buf : st.buf.length = records o st.s (ofInts (snapshot n ints (ints.length / n))) % capacity o
  len : st.out.length = ints.length / n - first n
  num : st.imgcnt = cnt + st.out.length
  imgs : ∀ k x, st.out[k]? = some x → IsImage o p t0 n ints cnt k x

/-- the first record of a new time -/
theorem run_new (o : Setup π τ ρ S) {st : St π τ S} {t : τ} {rs : List ρ} (hr : rs ≠ []) (hc : st.cur ≠ some t) :
    (rs.map fun r => (t, r)).foldlM (step o) st =
      (rs.map fun r => (t, r)).foldlM (step o) { snapStep o st with cur := some t, aat := t } := by
  cases rs with
  | nil => exact absurd rfl hr
  | cons r rs =>
    rw [List.map_cons, List.foldlM_cons, List.foldlM_cons, step_new o st (t, r) hc]

/-- one more integration -/
theorem inv_step {o : Setup π τ ρ S} (hn : 0 < o.nchan) {n : Nat} (h0 : 0 < n) (hs : o.snap = n) {p : π} {t0 : τ} {cnt : Int}
    {ints : List (Integ τ ρ)} {st : St π τ S} (hinv : Inv o p t0 n cnt ints st) {x : Integ τ ρ} (hx : x.2 ≠ [])
    (hc : (ints.map Prod.fst).getLast? ≠ some x.1)
    (h1 : ∀ r ∈ x.2, (given o (centre o p t0 n (ints ++ [x]) ((ints.length + 1) / n)) (x.1, r)).length ≠ 1)
    (h2 : (ints.length + 1) % n = 0 → ints ≠ [] →
      records o (centre o p t0 n ints (ints.length / n)) (ofInts (snapshot n ints (ints.length / n))) % capacity o ≠ 0) :
    ∃ st', (ofInts [x]).foldlM (step o) st = some st' ∧ Inv o p t0 n cnt (ints ++ [x]) st' := by
  have hsn : o.snap > 0 := by omega
  have hsc : (st.snapcnt + 1) % o.snap = ((ints.length + 1) % n : Nat) := by
    rw [hinv.snapcnt, hs]
    push_cast
    rw [Int.emod_add_emod]
  have hdm := Nat.div_add_mod ints.length n
  have hlt := Nat.mod_lt ints.length h0
  rw [ofInts_one, run_new o hx (by rw [hinv.cur]; exact hc)]
  have hlast : ∀ (l : List (Integ τ ρ)), (t0 :: (l ++ [x]).map Prod.fst).getLast? = some x.1 := by
    intro l
    rw [List.map_append, ← List.cons_append, List.map_singleton, List.getLast?_append]
    rfl
  by_cases hb : (ints.length + 1) % n = 0
  · -- a new snapshot
    have hq : (ints.length + 1) / n = ints.length / n + 1 := by
      rw [Nat.succ_div, if_pos (Nat.dvd_of_mod_eq_zero hb)]
    set j := ints.length / n with hj
    have hlen : ints.length + 1 = (j + 1) * n := by
      have := Nat.div_add_mod (ints.length + 1) n
      rw [hb, hq, mul_comm] at this
      omega
    have hcen : ∀ z, o.zen = some z → centre o p t0 n (ints ++ [x]) (j + 1) = z st.aat := by
      intro z hz
      unfold centre
      rw [hz]
      simp only [Nat.add_eq_zero_iff, one_ne_zero, and_false, if_false]
      congr 1
      have h3 := hinv.aat
      rw [List.getLast?_eq_getElem?] at h3
      rw [List.map_append, ← List.cons_append, List.getD_eq_getElem?_getD, List.getElem?_append_left (by simp; omega)]
      have h4 : (j + 1) * n - 1 = (t0 :: ints.map Prod.fst).length - 1 := by simp; omega
      rw [h4, h3]
      rfl
    have hcen0 : o.zen = none → ∀ l i, centre o p t0 n l i = p := by
      intro hz l i
      unfold centre
      rw [hz]
    -- the state in which the integration begins
    have hst : ∃ st1 : St π τ S, snapStep o st = st1 ∧ st1.snapcnt = 0 ∧ st1.im = [] ∧ st1.buf = [] ∧
        st1.s = centre o p t0 n (ints ++ [x]) (j + 1) ∧ st1.out.length = j + 1 - first n ∧
        st1.imgcnt = cnt + st1.out.length ∧ ∀ k y, st1.out[k]? = some y → IsImage o p t0 n (ints ++ [x]) cnt k y := by
      refine ⟨_, rfl, ?_⟩
      have hstable : ∀ k y, st.out[k]? = some y → IsImage o p t0 n (ints ++ [x]) cnt k y := by
        intro k y hk
        have hkl : k < j - first n := by rw [← hinv.len]; exact (List.getElem?_eq_some_iff.1 hk).1
        have hle : (first n + k + 1) * n ≤ j * n := Nat.mul_le_mul_right _ (by omega)
        have hle2 : (first n + k) * n ≤ (first n + k + 1) * n := Nat.mul_le_mul_right _ (by omega)
        have hjn : j * n ≤ ints.length := by rw [mul_comm]; omega
        have := hinv.imgs k y hk
        unfold IsImage at this ⊢
        rw [centre_append o p t0 ints [x] (by omega), snapshot_done ints [x] (by omega)]
        exact this
      unfold snapStep
      rw [if_pos hsn]
      simp only
      rw [hsc, hb, if_pos (by simp)]
      by_cases hne : ints = []
      · subst hne
        have hn1 : n = 1 := by
          have : (j + 1) * n = 1 := by simpa using hlen.symm
          exact Nat.eq_one_of_mul_eq_one_left this
        have hcur : st.cur = none := by rw [hinv.cur]; rfl
        have hout : st.out = [] := by
          apply List.length_eq_zero_iff.1
          rw [hinv.len]
          simp
        have hj0 : j = 0 := by rw [hj]; simp
        rw [hcur]
        simp only [Option.isSome_none, Bool.false_eq_true, if_false, restart]
        refine ⟨by simp, trivial, trivial, ?_, ?_, hinv.num, hstable⟩
        · cases hz : o.zen with
          | none => rw [hcen0 hz, hinv.s, hcen0 hz]
          | some z => rw [hcen z hz]
        · rw [hout, hj0, hn1]
          simp [first]
      · have hcur : st.cur.isSome = true := by
          rw [hinv.cur, List.getLast?_isSome]
          simpa using hne
        have hg : gridIt st.im st.buf = some (st.im ++ [st.buf.flatten]) := by
          refine gridIt_some ?_ hinv.tidy.two
          intro hnil
          have := hinv.buf
          rw [hnil, hinv.s] at this
          exact h2 hb hne this.symm
        have hjf : first n ≤ j := by
          unfold first
          split
          · next h => rw [hj, h, Nat.div_one]; exact List.length_pos_iff.2 hne
          · exact Nat.zero_le _
        have hw : writeSnap { st with snapcnt := (0 : Nat) } =
            { st with
              snapcnt := (0 : Nat)
              im := st.im ++ [st.buf.flatten]
              out := st.out ++ [(st.imgcnt, st.s, .made (st.im ++ [st.buf.flatten]))]
              imgcnt := st.imgcnt + 1 } := by
          unfold writeSnap
          simp only [hg]
        rw [if_pos hcur, hw]
        simp only [restart]
        refine ⟨by simp, trivial, trivial, ?_, ?_, ?_, ?_⟩
        · cases hz : o.zen with
          | none => simp only; rw [hcen0 hz, hinv.s, hcen0 hz]
          | some z => simp only; rw [hcen z hz]
        · rw [List.length_append, hinv.len]
          simp
          omega
        · rw [List.length_append, hinv.num]
          simp
          omega
        · intro k y hk
          rcases Nat.lt_or_ge k st.out.length with hkl | hkl
          · rw [List.getElem?_append_left hkl] at hk
            exact hstable k y hk
          · rw [List.getElem?_append_right hkl] at hk
            have hk0 : k - st.out.length = 0 := by
              have := (List.getElem?_eq_some_iff.1 hk).1
              simpa using this
            rw [hk0] at hk
            simp only [List.getElem?_cons_zero, Option.some.injEq] at hk
            subst hk
            have hkk : first n + k = j := by
              have := hinv.len
              omega
            unfold IsImage
            rw [hkk]
            have hjn : j * n ≤ ints.length := by rw [mul_comm]; omega
            rw [centre_append o p t0 ints [x] (by omega), snapshot_done ints [x] (by omega), ← hinv.s]
            refine ⟨?_, rfl, _, rfl, ?_⟩
            · show st.imgcnt = _
              rw [hinv.num]
              omega
            · rw [← hinv.held]
              unfold MkImg.held
              simp
    obtain ⟨st1, s1, s2, s3, s4, s5, s6, s7, s8⟩ := hst
    obtain ⟨im, buf, e1, e2, e3, e4⟩ := run_same hn x.1 x.2 (st := { snapStep o st with cur := some x.1, aat := x.1 })
      ⟨by show (snapStep o st).buf.length < _; rw [s1, s4]; exact capacity_pos o, by
        show ∀ d ∈ (snapStep o st).buf, _
        rw [s1, s4]; simp⟩ rfl (by
        intro r hr
        show (given o (snapStep o st).s (x.1, r)).length ≠ 1
        rw [s1, s5, ← hq]
        exact h1 r hr)
    have hsnap : snapshot n (ints ++ [x]) (j + 1) = [x] := by
      refine snapshot_begin ints x (by omega) ?_
      rw [Nat.succ_mul (j + 1) n]
      omega
    have hlen' : (ints ++ [x]).length = ints.length + 1 := by simp
    refine ⟨_, e1, ?_⟩
    rw [s1] at e2 e4 ⊢
    constructor
    · show st1.snapcnt = _
      rw [hlen', hb, s2]; rfl
    · simp
    · exact hlast ints
    · show st1.s = _
      rw [hlen', hq, s5]
    · show im.flatten ++ buf.flatten = _
      rw [e2, hlen', hq, hsnap, ofInts_one]
      unfold MkImg.held
      simp [s3, s4]
    · have := e3
      rw [s1] at this
      exact this
    · show buf.length = _
      rw [e4, hlen', hq, hsnap, ofInts_one]
      simp [s4]
    · show st1.out.length = _
      rw [s6, hlen', hq]
    · exact s7
    · exact s8
  · -- the same snapshot
    have hq : (ints.length + 1) / n = ints.length / n := by
      rw [Nat.succ_div, if_neg (fun h => hb (Nat.mod_eq_zero_of_dvd h)), add_zero]
    set j := ints.length / n with hj
    have hjn : j * n ≤ ints.length := by rw [mul_comm]; omega
    have hlt2 : ints.length + 1 < (j + 1) * n := by
      have h3 := Nat.div_add_mod (ints.length + 1) n
      have h4 := Nat.mod_lt (ints.length + 1) h0
      rw [hq] at h3
      rw [Nat.succ_mul, mul_comm j n]
      omega
    have hn1 : n ≠ 1 := by
      rintro rfl
      simp [Nat.mod_one] at hb
    have hst : snapStep o st = { st with snapcnt := ((ints.length + 1) % n : Nat) } := by
      unfold snapStep
      rw [if_pos hsn]
      simp only
      rw [hsc, if_neg (by exact_mod_cast hb)]
    rw [hst]
    have hcs : centre o p t0 n (ints ++ [x]) j = centre o p t0 n ints j := centre_append o p t0 ints [x] (by omega)
    obtain ⟨im, buf, e1, e2, e3, e4⟩ := run_same hn x.1 x.2
      (st := { st with snapcnt := ((ints.length + 1) % n : Nat), cur := some x.1, aat := x.1 })
      ⟨hinv.tidy.room, hinv.tidy.two⟩ rfl (by
        intro r hr
        show (given o st.s (x.1, r)).length ≠ 1
        rw [hinv.s, ← hcs, ← hq]
        exact h1 r hr)
    have hsnap : snapshot n (ints ++ [x]) j = snapshot n ints j ++ [x] := snapshot_more ints x (by omega) (by omega)
    have hlen' : (ints ++ [x]).length = ints.length + 1 := by simp
    refine ⟨_, e1, ?_⟩
    constructor
    · show (((ints.length + 1) % n : Nat) : Int) = _
      rw [hlen']
    · simp
    · exact hlast ints
    · show st.s = _
      rw [hlen', hq, hcs, hinv.s]
    · show im.flatten ++ buf.flatten = _
      rw [e2, hlen', hq, hsnap, ofInts_append, ofInts_one, List.flatMap_append]
      show MkImg.held st ++ _ = _
      rw [hinv.held]
    · exact e3
    · show buf.length = _
      rw [e4, hlen', hq, hsnap, ofInts_append, ofInts_one, records_append]
      show (st.buf.length + _) % _ = _
      rw [hinv.buf, Nat.mod_add_mod]
    · show st.out.length = _
      rw [hinv.len, hlen', hq]
    · exact hinv.num
    · intro k y hk
      have hk' : st.out[k]? = some y := hk
      have hkl : k < j - first n := by rw [← hinv.len]; exact (List.getElem?_eq_some_iff.1 hk').1
      have hle : (first n + k + 1) * n ≤ j * n := Nat.mul_le_mul_right _ (by omega)
      have hle2 : (first n + k) * n ≤ (first n + k + 1) * n := Nat.mul_le_mul_right _ (by omega)
      have := hinv.imgs k y hk'
      unfold IsImage at this ⊢
      rw [centre_append o p t0 ints [x] (by omega), snapshot_done ints [x] (by omega)]
      exact this

theorem inv_all {o : Setup π τ ρ S} (hn : 0 < o.nchan) {n : Nat} (h0 : 0 < n) (hs : o.snap = n) {p : π} {t0 : τ} {cnt : Int}
    (all : List (Integ τ ρ)) (hi : Integrations all)
    (h1 : ∀ j ≤ all.length / n, ∀ r ∈ ofInts (snapshot n all j), (given o (centre o p t0 n all j) r).length ≠ 1)
    (h2 : ∀ j ≤ all.length / n, snapshot n all j ≠ [] →
      records o (centre o p t0 n all j) (ofInts (snapshot n all j)) % capacity o ≠ 0) :
    ∀ (suf pre : List (Integ τ ρ)) {st : St π τ S}, all = pre ++ suf → Inv o p t0 n cnt pre st →
      ∃ st', (ofInts suf).foldlM (step o) st = some st' ∧ Inv o p t0 n cnt all st' := by
  intro suf
  induction suf with
  | nil =>
    intro pre st ha hinv
    refine ⟨st, rfl, ?_⟩
    rw [ha, List.append_nil]
    exact hinv
  | cons x suf ih =>
    intro pre st ha hinv
    have ha' : all = (pre ++ [x]) ++ suf := by rw [ha]; simp
    have hall : all.length = pre.length + 1 + suf.length := by rw [ha]; simp; omega
    have hdiv : (pre.length + 1) / n ≤ all.length / n := Nat.div_le_div_right (by omega)
    have hdiv0 : pre.length / n ≤ all.length / n := Nat.div_le_div_right (by omega)
    have hmul : (pre.length + 1) / n * n ≤ pre.length + 1 := Nat.div_mul_le_self _ _
    have hmul0 : pre.length / n * n ≤ pre.length := Nat.div_mul_le_self _ _
    have hxin : x ∈ all := by rw [ha]; simp
    have hc : (pre.map Prod.fst).getLast? ≠ some x.1 := by
      have h3 := hi.2
      rw [ha, List.isChain_append] at h3
      rw [List.getLast?_map]
      intro h4
      obtain ⟨y, hy, hy2⟩ := Option.map_eq_some_iff.1 h4
      exact h3.2.2 y hy x (by simp) hy2
    have hq1 : (pre.length + 1) / n * n ≤ pre.length + 1 ∧ pre.length + 1 < ((pre.length + 1) / n + 1) * n := by
      refine ⟨hmul, ?_⟩
      have h3 := Nat.div_add_mod (pre.length + 1) n
      have h4 := Nat.mod_lt (pre.length + 1) h0
      rw [Nat.succ_mul, mul_comm _ n]
      omega
    obtain ⟨st1, e1, e2⟩ := inv_step hn h0 hs hinv (x := x) (hi.1 x hxin) hc (by
      intro r hr
      have hcen : centre o p t0 n (pre ++ [x]) ((pre.length + 1) / n) = centre o p t0 n all ((pre.length + 1) / n) := by
        rw [ha', centre_append o p t0 (pre ++ [x]) suf (by simp; omega)]
      rw [hcen]
      refine h1 _ hdiv (x.1, r) ?_
      unfold ofInts
      rw [List.mem_flatMap]
      refine ⟨x, ?_, List.mem_map.2 ⟨r, hr, rfl⟩⟩
      -- the integration is in its snapshot
      unfold snapshot
      have hget : all[pre.length]? = some x := by
        rw [ha, List.getElem?_append_right (le_refl _)]
        simp
      have : ((all.take (((pre.length + 1) / n + 1) * n - 1)).drop ((pre.length + 1) / n * n - 1))[pre.length -
          ((pre.length + 1) / n * n - 1)]? = some x := by
        rw [List.getElem?_drop, List.getElem?_take_of_lt (by omega)]
        rw [show (pre.length + 1) / n * n - 1 + (pre.length - ((pre.length + 1) / n * n - 1)) = pre.length by omega]
        exact hget
      exact List.mem_of_getElem? this) (by
      intro hb hne
      have hlen : pre.length + 1 = (pre.length / n + 1) * n := by
        have h3 := Nat.div_add_mod (pre.length + 1) n
        rw [hb, Nat.succ_div, if_pos (Nat.dvd_of_mod_eq_zero hb), mul_comm] at h3
        omega
      have hsn : snapshot n all (pre.length / n) = snapshot n pre (pre.length / n) := by
        rw [ha, snapshot_done pre _ (by omega)]
      have hcen : centre o p t0 n all (pre.length / n) = centre o p t0 n pre (pre.length / n) := by
        rw [ha, centre_append o p t0 pre _ (by omega)]
      have := h2 _ hdiv0 (by
        rw [hsn]
        unfold snapshot
        rw [List.take_of_length_le (by omega)]
        intro h3
        rw [List.drop_eq_nil_iff] at h3
        have : 0 < pre.length := List.length_pos_iff.2 hne
        omega)
      rw [hsn, hcen] at this
      exact this)
    obtain ⟨st', f1, f2⟩ := ih (pre ++ [x]) ha' e2
    refine ⟨st', ?_, f2⟩
    rw [show x :: suf = [x] ++ suf from rfl, ofInts_append, List.foldlM_append, e1]
    exact f1

/-- **C103**: with `--snap=n`, integration number `i`, from one, goes into snapshot `i / n` and into no other; the
snapshots that have integrations are written in order, numbered from `--cnt`, each made of all samples of its integrations.
Provided that the buffer is not gridded with the last record of a snapshot, that every snapshot has samples, and that no
record gives a single sample. -/
theorem c103_snap_partial (o : Setup π τ ρ S) (hn : 0 < o.nchan) (n : Nat) (h0 : 0 < n) (hs : o.snap = n) (p : π) (t0 : τ)
    (cnt : Int) (ints : List (Integ τ ρ)) (hne : ints ≠ []) (hi : Integrations ints)
    (h1 : ∀ j ≤ ints.length / n, ∀ r ∈ ofInts (snapshot n ints j), (given o (centre o p t0 n ints j) r).length ≠ 1)
    (h2 : ∀ j ≤ ints.length / n, snapshot n ints j ≠ [] →
      records o (centre o p t0 n ints j) (ofInts (snapshot n ints j)) % capacity o ≠ 0) :
    ∃ imgs, mkImg o (ofInts ints) [p] 0 cnt t0 = some imgs ∧
      imgs.length = (if n = 1 then ints.length else ints.length / n + 1) ∧
      ∀ (k : Nat) x, imgs[k]? = some x →
        x.1 = cnt + k ∧ x.2.1 = centre o p t0 n ints (if n = 1 then k + 1 else k) ∧
        ∃ bs, x.2.2 = .made bs ∧ bs.flatten = (ofInts (snapshot n ints (if n = 1 then k + 1 else k))).flatMap
          (given o (centre o p t0 n ints (if n = 1 then k + 1 else k))) := by
  have hstart : Inv o p t0 n cnt ([] : List (Integ τ ρ)) (⟨[], [], 0, none, t0, p, cnt, []⟩ : St π τ S) := by
    constructor
    · simp
    · rfl
    · rfl
    · simp only [List.length_nil, Nat.zero_div]
      unfold centre
      cases o.zen <;> simp
    · simp [MkImg.held, snapshot, ofInts]
    · exact ⟨capacity_pos o, by simp⟩
    · simp [snapshot, ofInts, records]
    · simp
    · simp
    · intro k x hk
      simp at hk
  obtain ⟨st, e1, e2⟩ := inv_all hn h0 hs ints hi h1 h2 ints [] rfl hstart
  set j := ints.length / n with hj
  have hjn : j * n ≤ ints.length := Nat.div_mul_le_self _ _
  have hlpos : 0 < ints.length := List.length_pos_iff.2 hne
  have hlast : snapshot n ints j ≠ [] := by
    unfold snapshot
    have h4 := Nat.mod_lt ints.length h0
    have h3 := Nat.div_add_mod ints.length n
    intro h5
    rw [List.drop_eq_nil_iff, List.length_take] at h5
    rw [Nat.succ_mul] at h5
    have h6 : n * j = j * n := mul_comm _ _
    have h7 : n * (ints.length / n) = n * j := by rw [hj]
    rcases Nat.eq_or_lt_of_le (Nat.succ_le_of_lt h0) with h8 | h8
    · have : j = ints.length := by rw [hj, ← h8]; simp
      have : j * n = ints.length := by rw [← h8, this]; simp
      omega
    · omega
  have hg : gridIt st.im st.buf = some (st.im ++ [st.buf.flatten]) := by
    refine gridIt_some ?_ e2.tidy.two
    intro hnil
    have := e2.buf
    rw [hnil, e2.s] at this
    exact h2 j (le_refl _) hlast this.symm
  have hjf : first n ≤ j := by
    unfold first
    split
    · next h => rw [hj, h, Nat.div_one]; exact hlpos
    · exact Nat.zero_le _
  have hf : ∀ k : Nat, (if n = 1 then k + 1 else k) = first n + k := by
    intro k
    unfold first
    split <;> omega
  refine ⟨st.out ++ [(st.imgcnt, st.s, .made (st.im ++ [st.buf.flatten]))], ?_, ?_, ?_⟩
  · unfold mkImg
    simp only [List.drop_zero, List.foldlM_cons, List.foldlM_nil]
    unfold point
    simp only [e1, Option.map_some, Option.bind_eq_bind, Option.bind_some]
    show some (finish st).out = _
    unfold finish
    rw [hg]
  · rw [List.length_append, e2.len, List.length_singleton]
    unfold first at hjf ⊢
    split
    · next h =>
      rw [if_pos h] at hjf
      rw [h, Nat.div_one]
      omega
    · omega
  · intro k x hk
    rw [hf k]
    rcases Nat.lt_or_ge k st.out.length with hkl | hkl
    · rw [List.getElem?_append_left hkl] at hk
      exact e2.imgs k x hk
    · rw [List.getElem?_append_right hkl] at hk
      have hk0 : k - st.out.length = 0 := by
        have := (List.getElem?_eq_some_iff.1 hk).1
        simpa using this
      rw [hk0] at hk
      simp only [List.getElem?_cons_zero, Option.some.injEq] at hk
      subst hk
      have hkk : first n + k = j := by
        have := e2.len
        omega
      rw [hkk, ← e2.s]
      refine ⟨?_, rfl, _, rfl, ?_⟩
      · show st.imgcnt = _
        rw [e2.num]
        omega
      · rw [← e2.held]
        unfold MkImg.held
        simp

omit [DecidableEq τ] in
/-- with `--snap=1` every snapshot is one integration -/
theorem snapshot_one (ints : List (Integ τ ρ)) (k : Nat) (x : Integ τ ρ) (h : ints[k]? = some x) :
    snapshot 1 ints (k + 1) = [x] := by
  unfold snapshot
  simp only [Nat.mul_one, Nat.add_sub_cancel]
  obtain ⟨h1, h2⟩ := List.getElem?_eq_some_iff.1 h
  rw [List.take_succ_eq_append_getElem h1, List.drop_append_of_le_length (by simp; omega), List.drop_of_length_le (by simp)]
  rw [h2]
  rfl

/-- **C103, disagreement**: with `--snap=n` for `n` from two, the first snapshot is made of only the first `n - 1`
integrations, where there are at least `n`. -/
theorem c103_first_violated (o : Setup π τ ρ S) (hn : 0 < o.nchan) (n : Nat) (h0 : 2 ≤ n) (hs : o.snap = n) (p : π) (t0 : τ)
    (cnt : Int) (ints : List (Integ τ ρ)) (hl : n ≤ ints.length) (hi : Integrations ints)
    (h1 : ∀ j ≤ ints.length / n, ∀ r ∈ ofInts (snapshot n ints j), (given o (centre o p t0 n ints j) r).length ≠ 1)
    (h2 : ∀ j ≤ ints.length / n, snapshot n ints j ≠ [] →
      records o (centre o p t0 n ints j) (ofInts (snapshot n ints j)) % capacity o ≠ 0) :
    ∃ imgs bs, mkImg o (ofInts ints) [p] 0 cnt t0 = some imgs ∧ imgs[0]? = some (cnt, p, .made bs) ∧
      bs.flatten = (ofInts (ints.take (n - 1))).flatMap (given o p) := by
  obtain ⟨imgs, e1, e2, e3⟩ := c103_snap_partial o hn n (by omega) hs p t0 cnt ints
    (by rintro rfl; simp at hl; omega) hi h1 h2
  rw [if_neg (by omega)] at e2
  obtain ⟨x, hx⟩ : ∃ x, imgs[0]? = some x := ⟨_, List.getElem?_eq_getElem (by rw [e2]; exact Nat.succ_pos _)⟩
  obtain ⟨f1, f2, bs, f3, f4⟩ := e3 0 x hx
  rw [if_neg (by omega)] at f2 f4
  have hc : centre o p t0 n ints 0 = p := by
    unfold centre
    cases o.zen <;> simp
  have hsn : snapshot n ints 0 = ints.take (n - 1) := by
    unfold snapshot
    simp
  rw [hc] at f2 f4
  rw [hsn] at f4
  refine ⟨imgs, bs, e1, ?_, f4⟩
  rw [hx]
  obtain ⟨a, b, c⟩ := x
  simp only at f1 f2 f3
  rw [f1, f2, f3]
  simp

/-- **C103, disagreement**: with `--src=zen`, a snapshot after the first is phased to the zenith at an integration that is
not in it, the last of the snapshot before. -/
theorem c103_zen_violated (o : Setup π τ ρ S) (hn : 0 < o.nchan) (n : Nat) (h0 : 2 ≤ n) (hs : o.snap = n) (z : τ → π)
    (hz : o.zen = some z) (p : π) (t0 : τ) (cnt : Int) (ints : List (Integ τ ρ)) (hi : Integrations ints)
    (h1 : ∀ j ≤ ints.length / n, ∀ r ∈ ofInts (snapshot n ints j), (given o (centre o p t0 n ints j) r).length ≠ 1)
    (h2 : ∀ j ≤ ints.length / n, snapshot n ints j ≠ [] →
      records o (centre o p t0 n ints j) (ofInts (snapshot n ints j)) % capacity o ≠ 0)
    (k : Nat) (hk : (k + 1) * n ≤ ints.length) :
    ∃ imgs x y, mkImg o (ofInts ints) [p] 0 cnt t0 = some imgs ∧ imgs[k + 1]? = some x ∧
      ints[(k + 1) * n - 2]? = some y ∧ x.2.1 = z y.1 ∧ (snapshot n ints k).getLast? = some y := by
  have hkn : 2 ≤ (k + 1) * n := by rw [Nat.succ_mul]; omega
  obtain ⟨imgs, e1, e2, e3⟩ := c103_snap_partial o hn n (by omega) hs p t0 cnt ints
    (by rintro rfl; simp at hk; omega) hi h1 h2
  rw [if_neg (by omega)] at e2
  have hkl : k + 1 ≤ ints.length / n := (Nat.le_div_iff_mul_le (by omega)).2 hk
  obtain ⟨x, hx⟩ : ∃ x, imgs[k + 1]? = some x := ⟨_, List.getElem?_eq_getElem (by omega)⟩
  obtain ⟨y, hy⟩ : ∃ y, ints[(k + 1) * n - 2]? = some y := ⟨_, List.getElem?_eq_getElem (by omega)⟩
  refine ⟨imgs, x, y, e1, hx, hy, ?_, ?_⟩
  · obtain ⟨_, f2, _⟩ := e3 (k + 1) x hx
    rw [if_neg (by omega)] at f2
    rw [f2]
    unfold centre
    rw [hz]
    simp only [Nat.add_eq_zero_iff, one_ne_zero, and_false, if_false]
    congr 1
    rw [List.getD_eq_getElem?_getD, show (k + 1) * n - 1 = ((k + 1) * n - 2) + 1 by omega, List.getElem?_cons_succ,
      List.getElem?_map, hy]
    rfl
  · unfold snapshot
    have hkk : k * n - 1 ≤ (k + 1) * n - 2 := by rw [Nat.succ_mul]; omega
    rw [List.getLast?_eq_getElem?, List.length_drop, List.length_take, List.getElem?_drop,
      List.getElem?_take_of_lt (by omega)]
    rw [← hy]
    congr 1
    omega

/-- **C103, disagreement**: a pointing with exactly one sample gets no image. -/
theorem c103_single_violated (o : Setup π τ ρ S) (ht : o.nchan ≤ o.thresh) (hs : o.snap ≤ 0)
    (r : τ × ρ) (p : π) (cnt : Int) (t0 : τ) (h1 : (given o p r).length = 1) :
    mkImg o [r] [p] 0 cnt t0 = some [] := by
  unfold mkImg
  simp only [List.drop_zero, List.foldlM_cons, List.foldlM_nil]
  unfold point
  simp only [List.foldlM_cons, List.foldlM_nil]
  have hsn : ∀ st : St π τ S, snapStep o st = st := fun st => by unfold snapStep; rw [if_neg (by omega)]
  rw [step_new o _ r (by simp), hsn, step_same o _ r rfl]
  have hne : given o p r ≠ [] := by intro h; rw [h] at h1; simp at h1
  unfold store
  rw [if_neg hne]
  simp only [List.nil_append, List.length_singleton, Nat.one_mul]
  rw [if_neg (by omega)]
  simp only [Option.bind_eq_bind, Option.bind_some, Option.pure_def, Option.map_some, finish, gridIt]
  simp [h1]

/-! ## Examples -/

/-- three channels, of which one is flagged; a buffer of three records; two integrations a snapshot -/
private def demo (snap : Int) : Setup Nat Nat Nat Nat where
  up p t := decide (p ≠ 9 ∨ t < 3)
  chans _ _ r := [⟨false, false, r⟩, ⟨true, false, r + 100⟩, ⟨false, false, r + 200⟩]
  zen := if snap = 2 then some fun t => t + 10 else none
  nchan := 3
  thresh := 6
  snap := snap

private def dints : List (Integ Nat Nat) := [(1, [1]), (2, [2, 3]), (3, [4, 5, 6]), (4, [8])]

/-- pointing 5 has seven records, pointing 9 three, which is when it loses its image -/
example : (∀ p ∈ [5, 7], ∀ r ∈ ofInts dints, (given (demo 0) p r).length ≠ 1) ∧
    (∀ p ∈ [5, 7], records (demo 0) p (ofInts dints) = 0 ∨
      records (demo 0) p (ofInts dints) % capacity (demo 0) ≠ 0) := by decide

example : ∃ imgs, mkImg (demo 0) (ofInts dints) [6, 5, 7] 1 30 0 = some imgs ∧ imgs.length = 2 ∧
    imgs.map (fun x => x.2.1) = [5, 7] ∧ imgs.map Prod.fst = [30, 31] := ⟨_, rfl, rfl, rfl, rfl⟩

example : records (demo 0) 9 (ofInts dints) % capacity (demo 0) = 0 ∧
    records (demo 0) 5 (ofInts dints) % capacity (demo 0) ≠ 0 ∧
    ∀ r ∈ ofInts dints, (given (demo 0) 9 r).length ≠ 1 ∧ (given (demo 0) 5 r).length ≠ 1 := by decide

example : ∃ b1 b2 b3 b4, mkImg (demo 0) (ofInts dints) [9, 5] 0 30 0 = some [(30, 5, .made [b1, b2, b3, b4])] ∧
    b1 = [1, 201, 2, 202, 3, 203] ∧ b4 = [8, 208] := ⟨_, _, _, _, rfl, rfl, rfl⟩

example : Integrations dints := by
  refine ⟨by decide, ?_⟩
  unfold dints
  simp

example : (∀ j ≤ dints.length / 2, ∀ r ∈ ofInts (snapshot 2 dints j),
      (given (demo 2) (centre (demo 2) 5 0 2 dints j) r).length ≠ 1) ∧
    (∀ j ≤ dints.length / 2, snapshot 2 dints j ≠ [] →
      records (demo 2) (centre (demo 2) 5 0 2 dints j) (ofInts (snapshot 2 dints j)) % capacity (demo 2) ≠ 0) ∧
    2 ≤ dints.length ∧ (0 + 1) * 2 ≤ dints.length := by decide

/-- three images of one, two and one integrations; the second is phased to the zenith at time 1, of the first -/
example : ∃ b1 b2 b3, mkImg (demo 2) (ofInts dints) [5] 0 30 0 =
    some [(30, 5, .made [[1, 201]]), (31, 11, .made [b1, b2]), (32, 13, .made [b3])] ∧
    b1 = [2, 202, 3, 203, 4, 204] ∧ b2 = [5, 205, 6, 206] ∧ b3 = [8, 208] := ⟨_, _, _, rfl, rfl, rfl, rfl⟩

private def lone : Setup Nat Nat Nat Nat :=
  { demo 0 with chans := fun _ _ r => [⟨false, false, r⟩, ⟨true, false, r⟩, ⟨false, true, r⟩] }

example : lone.nchan ≤ lone.thresh ∧ lone.snap ≤ 0 ∧ (given lone 5 (1, 7)).length = 1 := by decide

/-! ## what the batches make, without w-projection -/

/-- one visibility sample: (u,v,w), datum, weight -/
abbrev Samp := (ℝ × ℝ × ℝ) × ℂ × ℂ

/-- one call of `grid_it` with `--no_w`: `append_hermitian`, then `Img.put`; mk_img.py 140-149 (the image is
added to the matrices of `im`) -/
noncomputable def gridOne (g : Image) (b : List Samp) : Option Image :=
  let h := appendHermitian (b.map Prod.fst) (b.map (fun x => x.2.1))
  g.put (h.1.map (fun p => (p.1, p.2.1))) h.2 (appendWgts [b.map (fun x => x.2.2)])

/-- all the calls for one image, from the fresh `Img` of mk_img.py 98 (and 200, 256) -/
noncomputable def gridAll (dim : Nat) (res : ℝ) (bs : List (List Samp)) : Option Image := bs.foldlM gridOne (Image.new dim res 0)

/-- what one sample of value `d` at (u,v) leaves in cell (k1, k2): the kernel centred at (-v/res, u/res), and the
conjugate in the kernel centred at the opposite point -/
noncomputable def leaves (dim : Nat) (res : ℝ) (k1 k2 : Nat) (x : ℝ × ℝ × ℝ) (d : ℂ) : ℂ :=
  deposit1 dim dim 3 ((-x.2.1 / res, x.1 / res), d) k1 k2 +
    deposit1 dim dim 3 ((x.2.1 / res, -x.1 / res), (starRingEnd ℂ) d) k1 k2

theorem deposit_append (n1 n2 h : Nat) (a b : List ((ℝ × ℝ) × ℂ)) (k1 k2 : Nat) :
    deposit n1 n2 h (a ++ b) k1 k2 = deposit n1 n2 h a k1 k2 + deposit n1 n2 h b k1 k2 := by
  unfold deposit
  rw [List.map_append, List.sum_append]

theorem deposit_both (dim : Nat) (res : ℝ) (k1 k2 : Nat) (d : Samp → ℂ) (e : Samp → ℂ) (b : List Samp) :
    deposit dim dim 3 ((((b.map Prod.fst ++ (b.map Prod.fst).map (fun p => (-p.1, -p.2.1, -p.2.2))).map
        (fun p => (p.1, p.2.1))).map (getIndices res)).zip (b.map d ++ b.map e)) k1 k2 =
      (b.map (fun x => deposit1 dim dim 3 ((-x.1.2.1 / res, x.1.1 / res), d x) k1 k2 +
        deposit1 dim dim 3 ((x.1.2.1 / res, -x.1.1 / res), e x) k1 k2)).sum := by
  rw [List.map_append, List.map_append, List.zip_append (by simp), deposit_append]
  rw [List.sum_map_add]
  congr 1
  · unfold deposit
    rw [List.map_map, List.map_map, List.zip_map', List.map_map]
    rfl
  · unfold deposit
    rw [List.map_map, List.map_map, List.map_map, List.zip_map', List.map_map]
    congr 1
    refine List.map_congr_left fun x _ => ?_
    simp [getIndices]

theorem gridOne_ok {dim : Nat} (hd : dim ≠ 0) {g : Image} {bm : Nat → ℂ} (h1 : g.dim = dim) (h2 : g.bm = [bm])
    (b : List Samp) : ∃ g' bm', gridOne g b = some g' ∧ g'.dim = dim ∧ g'.res = g.res ∧ g'.bm = [bm'] ∧
      ∀ k1 k2, k1 < dim → k2 < dim →
        g'.uv (k1 * dim + k2) = g.uv (k1 * dim + k2) + (b.map (fun x => leaves dim g.res k1 k2 x.1 x.2.1)).sum ∧
        bm' (k1 * dim + k2) = bm (k1 * dim + k2) + (b.map (fun x =>
          deposit1 dim dim 3 ((-x.1.2.1 / g.res, x.1.1 / g.res), x.2.2) k1 k2 +
          deposit1 dim dim 3 ((x.1.2.1 / g.res, -x.1.1 / g.res), x.2.2) k1 k2)).sum := by
  obtain ⟨m, e1, e2, _⟩ := c28_square_partial dim 3 hd
    ((((b.map Prod.fst ++ (b.map Prod.fst).map (fun p => (-p.1, -p.2.1, -p.2.2))).map
        (fun p => (p.1, p.2.1))).map (getIndices g.res)).zip (b.map (fun x => x.2.1) ++
          b.map (fun x => (starRingEnd ℂ) x.2.1))) g.uv
  obtain ⟨m', f1, f2, _⟩ := c28_square_partial dim 3 hd
    ((((b.map Prod.fst ++ (b.map Prod.fst).map (fun p => (-p.1, -p.2.1, -p.2.2))).map
        (fun p => (p.1, p.2.1))).map (getIndices g.res)).zip (b.map (fun x => x.2.2) ++ b.map (fun x => x.2.2))) bm
  refine ⟨{ g with uv := m, bm := [m'] }, m', ?_, h1, rfl, rfl, ?_⟩
  · unfold gridOne Image.put appendHermitian appendWgts
    rw [if_neg (by simp [h2])]
    simp only [List.map_cons, List.map_nil, h1, h2, putBeams]
    rw [List.map_map (f := fun x : Samp => x.2.1)]
    have e1' := e1
    have f1' := f1
    simp only [Function.comp_def] at e1' f1' ⊢
    rw [e1', f1']
    rfl
  · intro k1 k2 hk1 hk2
    refine ⟨?_, ?_⟩
    · show m _ = _
      rw [e2 k1 k2 hk1 hk2, deposit_both]
      rfl
    · rw [f2 k1 k2 hk1 hk2, deposit_both]

theorem gridAll_ok {dim : Nat} (hd : dim ≠ 0) : ∀ (bs : List (List Samp)) {g : Image} {bm : Nat → ℂ}, g.dim = dim →
    g.bm = [bm] → ∃ g' bm', bs.foldlM gridOne g = some g' ∧ g'.dim = dim ∧ g'.res = g.res ∧ g'.bm = [bm'] ∧
      ∀ k1 k2, k1 < dim → k2 < dim →
        g'.uv (k1 * dim + k2) = g.uv (k1 * dim + k2) + (bs.flatten.map (fun x => leaves dim g.res k1 k2 x.1 x.2.1)).sum ∧
        bm' (k1 * dim + k2) = bm (k1 * dim + k2) + (bs.flatten.map (fun x =>
          deposit1 dim dim 3 ((-x.1.2.1 / g.res, x.1.1 / g.res), x.2.2) k1 k2 +
          deposit1 dim dim 3 ((x.1.2.1 / g.res, -x.1.1 / g.res), x.2.2) k1 k2)).sum := by
  intro bs
  induction bs with
  | nil =>
    intro g bm h1 h2
    exact ⟨g, bm, rfl, h1, rfl, h2, fun k1 k2 _ _ => by simp⟩
  | cons b bs ih =>
    intro g bm h1 h2
    obtain ⟨g1, bm1, e1, e2, e3, e4, e5⟩ := gridOne_ok hd h1 h2 b
    obtain ⟨g2, bm2, f1, f2, f3, f4, f5⟩ := ih e2 e4
    refine ⟨g2, bm2, ?_, f2, f3.trans e3, f4, ?_⟩
    · rw [List.foldlM_cons, e1]
      exact f1
    · intro k1 k2 hk1 hk2
      obtain ⟨a1, a2⟩ := e5 k1 k2 hk1 hk2
      obtain ⟨b1, b2⟩ := f5 k1 k2 hk1 hk2
      rw [List.flatten_cons, List.map_append, List.sum_append, List.map_append, List.sum_append, b1, b2, a1, a2, e3]
      exact ⟨by ring, by ring⟩

/-- **C103**: with `--no_w`, however the samples of an image were cut into batches, the image is made of what each of
them leaves in the uv and beam matrices; nothing else goes in. -/
theorem c103_batches (dim : Nat) (hd : dim ≠ 0) (res : ℝ) (bs : List (List Samp)) :
    ∃ g bm, gridAll dim res bs = some g ∧ g.bm = [bm] ∧ ∀ k1 k2, k1 < dim → k2 < dim →
      g.uv (k1 * dim + k2) = (bs.flatten.map (fun x => leaves dim res k1 k2 x.1 x.2.1)).sum ∧
      bm (k1 * dim + k2) = (bs.flatten.map (fun x =>
        deposit1 dim dim 3 ((-x.1.2.1 / res, x.1.1 / res), x.2.2) k1 k2 +
        deposit1 dim dim 3 ((x.1.2.1 / res, -x.1.1 / res), x.2.2) k1 k2)).sum := by
  obtain ⟨g, bm, e1, _, _, e4, e5⟩ := gridAll_ok hd bs (g := Image.new dim res 0) (bm := fun _ => 0) rfl rfl
  refine ⟨g, bm, e1, e4, fun k1 k2 hk1 hk2 => ?_⟩
  have := e5 k1 k2 hk1 hk2
  simpa [Image.new] using this

end Verif.Img.MkImg
