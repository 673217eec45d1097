import Verif.Mir.UvVisRead

/-!
# Property C70 : appending to a data set

A data set that is written in several sessions: opened as new, closed, opened for appending (`uvopen_c(.., "append")`),
closed, and so on.
-/
namespace Verif.Mir.Uv

open Verif.Mir.Hio (Byte)
open Verif.Mir.Mask (Mask mkreadFlags mkopen Op Flags run step OpsOk)

/-! ## Specification -/

/-- the blocks of all sessions -/
def allBlocks : List Act → List Block
  | [] => []
  | .block b :: as => b :: allBlocks as
  | .append _ _ _ :: as => allBlocks as

/-- the first block of each session: see `Fresh`.  `first`: nothing has been written in this session. -/
def FreshActs (o : FpOps) : Bool → List Act → Prop
  | _, [] => True
  | first, .block b :: as => (first = true → Fresh o b) ∧ FreshActs o false as
  | _, .append _ _ _ :: as => FreshActs o true as

/-- the types of the variables of the preamble -/
def PreTypes (p : User) : Prop :=
  (p.name = nmCoord → p.ty = .dble) ∧ (p.name = nmTime → p.ty = .dble) ∧ (p.name = nmBl → p.ty = .real)

def ActOk : Act → Prop
  | .block b => BlockOk b
  | .append us _ _ => ∀ p ∈ us, EvOk p.ev ∧ (p.data ≠ [] → PreTypes p)

/-- a data set that was written in sessions -/
structure Sessions (o : FpOps) (q : Quant) (junk : Nat → Nat) (mode : Ty) (as : List Act) (s : VisW) : Prop where
  laws : FpLaws o
  quant : QuantOk q
  corr : mode = .real ∨ mode = .int2
  ran : ∃ s0 s1 tail, openVis mode = some s0 ∧ writeActs o q junk s0 as = some s1 ∧ assignAll s1 tail = some s ∧
    ∀ p ∈ tail, EvOk p.ev
  acts : ∀ a ∈ as, ActOk a
  fresh : FreshActs o true as
  vars : (table s.w).length ≤ 128

/-! ## One session after another -/

theorem corrTy_head {w : Writer} {mode : Ty} (h : (table w).head? = some (nmCorr, mode)) : corrTy w = some mode := by
  unfold table at h
  unfold corrTy
  cases hv : w.vars with
  | nil => rw [hv] at h; simp at h
  | cons v vs =>
    rw [hv] at h
    simp only [List.map_cons, List.head?_cons, Option.some.injEq, Prod.mk.injEq] at h
    simp [h.1, h.2]

theorem appendVis_some {mode : Ty} {g : Nat → BitVec 32} {s s2 : VisW} (h : appendVis mode g s = some s2) :
    wrun s.w [.reopen, .noCheck nmCorr mode] = some s2.w ∧ s2.cache = none ∧ s2.flagOff = s.flagOff ∧
      s2.flagOps = s.flagOps ++ (if s.flagOff = 0 then [] else [.reopen g]) ∧
      s2.evs = s.evs ++ [.reopen, .noCheck nmCorr mode] := by
  unfold appendVis at h
  by_cases hp : preOk (reopen s.w) = true
  · rw [if_pos hp] at h
    cases hw : noCheck (reopen s.w) nmCorr mode with
    | none => rw [hw] at h; simp at h
    | some w =>
      rw [hw] at h
      simp only [Option.map_some, Option.some.injEq] at h
      subst h
      refine ⟨?_, rfl, rfl, rfl, rfl⟩
      simp only [wrun, wstep, Option.bind_some, hw]
  · rw [if_neg hp] at h
    exact absurd h (by simp)

theorem reopen_buf (w : Writer) (nm : Name) : bufOf (reopen w) nm = none := by
  unfold bufOf
  cases hf : (reopen w).vars.find? (fun v => v.name = nm) with
  | none => rfl
  | some v =>
    have hv := List.mem_of_find?_eq_some hf
    obtain ⟨u, _, rfl⟩ := List.mem_map.1 hv
    rfl

theorem soon_users {o q mode cold} {bs : List Block} {s s1 : VisW} {us : List User} (hs : Soon o q mode cold bs s)
    (hu : ∀ p ∈ us, EvOk p.ev ∧ (p.data ≠ [] → PreTypes p)) (h : assignAll s us = some s1) : Reach s1 bs.length := by
  obtain ⟨t1, t2, t3, t4, t5⟩ := assignAll_some h
  have hr := hs.reach
  have mem : ∀ e ∈ s1.evs, e ∈ s.evs ∨ ∃ p ∈ us, e = p.ev := by
    intro e he
    rw [t1] at he
    rcases List.mem_append.1 he with he | he
    · exact Or.inl he
    · obtain ⟨p, hp, rfl⟩ := List.mem_map.1 he
      exact Or.inr ⟨p, hp, rfl⟩
  refine ⟨?_, ?_, ?_, wrun_unchecked t5 _ hr.corr (users_open _), ?_, ?_, ?_⟩
  · rw [t1, wrun_append, hr.run]
    exact t5
  · intro e he
    rcases mem e he with he | ⟨p, hp, rfl⟩
    · exact hr.ok e he
    · exact (hu p hp).1
  · rw [t1, records_append, hr.recs, records_none]
    · rfl
    · intro e he
      obtain ⟨p, _, rfl⟩ := List.mem_map.1 he
      simp [User.ev]
  · intro ty d he hd
    rcases mem _ he with he | ⟨p, hp, he⟩
    · exact hr.coord ty d he hd
    · simp only [User.ev, Ev.put.injEq] at he
      obtain ⟨hn, hty, hdd⟩ := he
      rw [hty]
      exact ((hu p hp).2 (by rw [← hdd]; exact hd)).1 hn.symm
  · intro ty d he hd
    rcases mem _ he with he | ⟨p, hp, he⟩
    · exact hr.time ty d he hd
    · simp only [User.ev, Ev.put.injEq] at he
      obtain ⟨hn, hty, hdd⟩ := he
      rw [hty]
      exact ((hu p hp).2 (by rw [← hdd]; exact hd)).2.1 hn.symm
  · intro ty d he hd
    rcases mem _ he with he | ⟨p, hp, he⟩
    · exact hr.bl ty d he hd
    · simp only [User.ev, Ev.put.injEq] at he
      obtain ⟨hn, hty, hdd⟩ := he
      rw [hty]
      exact ((hu p hp).2 (by rw [← hdd]; exact hd)).2.2 hn.symm

theorem noCheck_unchecked {w w' : Writer} {nm : Name} {ty : Ty} (h : wstep w (.noCheck nm ty) = some w') :
    Unchecked w' nm := by
  obtain ⟨w1, i, v, hm, hv, rfl⟩ := noCheck_some h
  obtain ⟨⟨v', hv', hn'⟩, _⟩ := mkvar_find hm
  rw [hv, Option.some.injEq] at hv'
  subst hv'
  exact ⟨{ v with nocheck := true },
    List.mem_of_getElem? (List.getElem?_set_self (List.getElem?_eq_some_iff.1 hv).1), hn', rfl⟩

theorem soon_append {o q mode cold} {bs : List Block} {s s1 s2 : VisW} {us : List User} {m : Ty} {g : Nat → BitVec 32}
    (hs : Soon o q mode cold bs s) (hu : ∀ p ∈ us, EvOk p.ev ∧ (p.data ≠ [] → PreTypes p)) (h : assignAll s us = some s1)
    (h2 : appendVis m g s1 = some s2) : Soon o q mode true bs s2 := by
  have hr := soon_users hs hu h
  obtain ⟨t1, t2, t3, t4, t5⟩ := assignAll_some h
  obtain ⟨a1, a2, a3, a4, a5⟩ := appendVis_some h2
  have hst : wstep (reopen s1.w) (.noCheck nmCorr m) = some s2.w := by
    simp only [wrun, Option.bind_some, wstep] at a1
    cases hx : noCheck (reopen s1.w) nmCorr m with
    | none => rw [hx] at a1; simp at a1
    | some y => rw [hx] at a1; simp only [Option.bind_some, Option.some.injEq] at a1; subst a1; exact hx
  have hold : ∀ nm ty d, Ev.put nm ty d ∈ s2.evs → Ev.put nm ty d ∈ s1.evs := by
    intro nm ty d he
    rw [a5] at he
    rcases List.mem_append.1 he with he | he
    · exact he
    · simp at he
  refine ⟨⟨?_, ?_, ?_, noCheck_unchecked hst, ?_, ?_, ?_⟩, ?_, ?_, ?_, ?_, fun _ => ⟨a2, ?_, ?_, ?_⟩, by simp⟩
  · rw [a5, wrun_append, hr.run]
    exact a1
  · intro e he
    rw [a5] at he
    rcases List.mem_append.1 he with he | he
    · exact hr.ok e he
    · simp only [List.mem_cons, List.not_mem_nil, or_false] at he
      rcases he with rfl | rfl <;> trivial
  · rw [a5, records_append, hr.recs]
    rfl
  · exact fun ty d he hd => hr.coord ty d (hold _ _ _ he) hd
  · exact fun ty d he hd => hr.time ty d (hold _ _ _ he) hd
  · exact fun ty d he hd => hr.bl ty d (hold _ _ _ he) hd
  · rw [a3, t3, hs.off]
  · intro op hop
    rw [a4, t2] at hop
    rcases List.mem_append.1 hop with hop | hop
    · exact hs.ops op hop
    · split at hop
      · simp at hop
      · rw [List.mem_singleton.1 hop]; exact Or.inr trivial
  · intro k b hb
    obtain ⟨s3, h3⟩ := hs.each k b hb
    refine ⟨s3, h3.extend (x := us.map User.ev ++ [.reopen, .noCheck nmCorr m])
      (ops := if s1.flagOff = 0 then [] else [.reopen g]) (by rw [a5, t1, List.append_assoc]) (by rw [a4, t2])
      (Nat.le_refl _) ?_⟩
    intro T p _
    split <;> rfl
  · exact head_prefix (wrun_table a1) (head_prefix (wrun_table t5) hs.head)
  all_goals
    unfold bufOf
    rw [wstep_find hst _ (by simp [nmCorr, nmCoord, nmTime, nmBl]) (by simp)]
    exact reopen_buf s1.w _

theorem soon_acts {o q junk mode} (hl : FpLaws o) (hq : QuantOk q) (hmode : mode = .real ∨ mode = .int2)
    {as : List Act} : ∀ {cold : Bool} {bs : List Block} {s s2 : VisW}, Soon o q mode cold bs s → (∀ a ∈ as, ActOk a) →
      FreshActs o cold as → writeActs o q junk s as = some s2 → ∃ cold', Soon o q mode cold' (bs ++ allBlocks as) s2 := by
  induction as with
  | nil =>
    intro cold bs s s2 hs _ _ h
    simp only [writeActs, Option.some.injEq] at h
    subst h
    exact ⟨cold, by simpa [allBlocks] using hs⟩
  | cons a as ih =>
    intro cold bs s s2 hs ha hfr h
    simp only [writeActs] at h
    cases h1 : writeAct o q junk s a with
    | none => rw [h1] at h; simp at h
    | some s1 =>
      rw [h1] at h
      have ha' : ∀ a ∈ as, ActOk a := fun a h => ha a (List.mem_cons_of_mem _ h)
      have hok := ha a List.mem_cons_self
      cases a with
      | block b =>
        simp only [writeAct, corrTy_head hs.head, Option.bind_some] at h1
        have := ih (soon_block hl hq hmode hs hok hfr.1 h1) ha' hfr.2 h
        simpa [allBlocks] using this
      | append us m g =>
        simp only [writeAct] at h1
        cases h2 : assignAll s us with
        | none => rw [h2] at h1; simp at h1
        | some s' =>
          rw [h2] at h1
          exact ih (soon_append hs hok h2 h1) ha' hfr h

theorem Sessions.dataset {o q junk mode} {as : List Act} {s : VisW} (hw : Sessions o q junk mode as s) :
    DataSet o q mode (allBlocks as) s := by
  obtain ⟨s0, s1, tail, h0, h1, h2, h3⟩ := hw.ran
  obtain ⟨c, hs⟩ := soon_acts hw.laws hw.quant hw.corr (soon_open h0) hw.acts hw.fresh h1
  exact soon_dataset hw.quant hw.corr (by simpa using hs) h3 h2 hw.vars

/-! ## The flag file can always be opened again -/

structure FlagsOk (s : VisW) : Prop where
  known : ∀ (T : Flags) (p : Nat), p < s.flagOff → s.flagOps.foldl Flags.step T p ≠ none
  runs : ∀ file buf words, ∃ m, run (mkopen file buf words) s.flagOps = .ok m
  ops : OpsOk s.flagOps

theorem reopen_ok (file buf : Nat → BitVec 32) (words : Nat) (ops : List Op) (hO : OpsOk ops) (m : Mask)
    (h : run (mkopen file buf words) ops = .ok m) {p : Nat}
    (hp : ops.foldl Flags.step (Flags.ofFile file words) p ≠ none) (g : Nat → BitVec 32) :
    ∃ m', step m (.reopen g) = .ok m' := by
  cases hv : ops.foldl Flags.step (Flags.ofFile file words) p with
  | none => exact absurd hv hp
  | some b =>
    have hd := (Verif.Mir.Mask.c43_on_disk file buf words ops hO m h p b hv).2
    have hI := Verif.Mir.Mask.run_inv ops _ m _ (Verif.Mir.Mask.open_inv file buf words) hO h
    have hs := (Verif.Mir.Mask.sync_inv m _ hI).1.size
    show ∃ m', Verif.Mir.Mask.reopen m g = .ok m'
    unfold Verif.Mir.Mask.reopen
    simp only
    rw [if_neg (by omega)]
    exact ⟨_, rfl⟩

theorem flagsOk_block {o q junk mode} {s s2 : VisW} {b : Block} (hs : FlagsOk s)
    (h : writeBlock o q junk mode s b = some s2) : FlagsOk s2 := by
  obtain ⟨s1, ha, e1, e2, e3, e4, hw1, hw2, e5, e6, e7, e8⟩ := writeBlock_some h
  refine ⟨fun T p hp => ?_, fun file buf words => ?_, ?_⟩
  · rw [e7, List.foldl_append]
    simp only [List.foldl_cons, List.foldl_nil]
    by_cases hlt : p < s.flagOff
    · rw [write_below _ _ _ _ hlt]
      exact hs.known T p hlt
    · rw [e6] at hp
      rw [show p = s.flagOff + (p - s.flagOff) by omega, write_at _ _ _ _ (by omega)]
      simp
  · obtain ⟨m, hm⟩ := hs.runs file buf words
    rw [e7]
    exact ⟨_, run_snoc _ m _ _ _ hm rfl⟩
  · rw [e7]
    intro op hop off runs n he
    rcases List.mem_append.1 hop with hop | hop
    · exact hs.ops op hop off runs n he
    · rw [List.mem_singleton.1 hop] at he
      exact absurd he (by simp)

theorem flagsOk_append {s s1 s2 : VisW} {us : List User} {m : Ty} {g : Nat → BitVec 32} (hs : FlagsOk s)
    (h : assignAll s us = some s1) (h2 : appendVis m g s1 = some s2) : FlagsOk s2 := by
  obtain ⟨t1, t2, t3, t4, t5⟩ := assignAll_some h
  obtain ⟨a1, a2, a3, a4, a5⟩ := appendVis_some h2
  by_cases h0 : s1.flagOff = 0
  · rw [if_pos h0, List.append_nil] at a4
    refine ⟨fun T p hp => ?_, ?_, ?_⟩
    · rw [a3, h0] at hp
      omega
    · rw [a4, t2]; exact hs.runs
    · rw [a4, t2]; exact hs.ops
  · rw [if_neg h0] at a4
    refine ⟨fun T p hp => ?_, fun file buf words => ?_, ?_⟩
    · rw [a4, t2, List.foldl_append]
      exact hs.known T p (by rw [a3, t3] at hp; exact hp)
    · obtain ⟨x, hx⟩ := hs.runs file buf words
      obtain ⟨m', hm'⟩ := reopen_ok file buf words s.flagOps hs.ops x hx
        (hs.known _ 0 (by rw [t3] at h0; omega)) g
      rw [a4, t2]
      exact ⟨m', run_snoc _ x _ _ _ hx hm'⟩
    · rw [a4, t2]
      intro op hop off runs n he
      rcases List.mem_append.1 hop with hop | hop
      · exact hs.ops op hop off runs n he
      · rw [List.mem_singleton.1 hop] at he
        exact absurd he (by simp)

theorem flagsOk_acts {o q junk} {as : List Act} : ∀ {s s2 : VisW}, FlagsOk s → writeActs o q junk s as = some s2 →
    FlagsOk s2 := by
  induction as with
  | nil =>
    intro s s2 hs h
    simp only [writeActs, Option.some.injEq] at h
    subst h
    exact hs
  | cons a as ih =>
    intro s s2 hs h
    simp only [writeActs] at h
    cases h1 : writeAct o q junk s a with
    | none => rw [h1] at h; simp at h
    | some s1 =>
      rw [h1] at h
      refine ih ?_ h
      cases a with
      | block b =>
        simp only [writeAct] at h1
        cases hc : corrTy s.w with
        | none => rw [hc] at h1; simp at h1
        | some t => rw [hc] at h1; exact flagsOk_block hs h1
      | append us m g =>
        simp only [writeAct] at h1
        cases h2 : assignAll s us with
        | none => rw [h2] at h1; simp at h1
        | some s' => rw [h2] at h1; exact flagsOk_append hs h2 h1

theorem flagsOk_open {mode : Ty} {s : VisW} (h : openVis mode = some s) : FlagsOk s := by
  rw [openVis_some, Option.some.injEq] at h
  subst h
  exact ⟨fun T p hp => by simp at hp, fun file buf words => ⟨_, rfl⟩, fun op hop => by simp at hop⟩

/-! ## Theorems -/

/-- **C70**: a data set that was written in any number of sessions gives back the visibilities of all of them, in order:
what was there before it was appended to, and what was appended.  Then it reports its end. -/
theorem c70_append {o q junk mode} {as : List Act} {s : VisW} (hw : Sessions o q junk mode as s) {f : Nat → Byte}
    {size nsize : Nat} (hf : Holds f size s.w.out) (hn : ∀ b ∈ allBlocks as, b.vis.flags.length ≤ nsize) {r0 : Reader}
    (hr0 : AtStart s r0) {m : Mask} (hm : FlagFile s m) :
    ∃ R outs, uvreadN f size nsize (allBlocks as).length ⟨r0, 0, m⟩ = some (R, outs) ∧
      outs.length = (allBlocks as).length ∧
      (∀ (i : Nat) (out : Out) (b : Block), outs[i]? = some out → (allBlocks as)[i]? = some b →
        Matches o q mode out b.vis) ∧
      ∃ R', uvread f size nsize R = .eof R' :=
  dataset_all hw.dataset hf hn hr0 hm

/-- **C70**: the same after a rewind. -/
theorem c70_rewind {o q junk mode} {as : List Act} {s : VisW} (hw : Sessions o q junk mode as s) {f : Nat → Byte}
    {size nsize : Nat} (hf : Holds f size s.w.out) (hn : ∀ b ∈ allBlocks as, b.vis.flags.length ≤ nsize) {r0 : Reader}
    (hr0 : AtStart s r0) {m : Mask} (hm : FlagFile s m) (k : Nat) (hk : k ≤ (allBlocks as).length) :
    ∃ R outs R' outs', uvreadN f size nsize k ⟨r0, 0, m⟩ = some (R, outs) ∧
      uvreadN f size nsize (allBlocks as).length (rewindVis R) = some (R', outs') ∧
      outs'.length = (allBlocks as).length ∧
      (∀ (i : Nat) (out : Out) (b : Block), outs'[i]? = some out → (allBlocks as)[i]? = some b →
        Matches o q mode out b.vis) := by
  obtain ⟨R, outs, i1, i2, _, i6, _, _⟩ := dataset_reads hw.dataset hf hn hr0 hm k hk
  obtain ⟨R', outs', j1, _, _, _, j7, j8⟩ := dataset_reads hw.dataset hf hn (dataset_rewind hw.dataset hf hr0 hk i2) i6
    (allBlocks as).length (Nat.le_refl _)
  exact ⟨R, outs, R', outs', i1, j1, j7, j8⟩

/-- **C70**: the flag file can be opened in every session (whatever was in memory), and for reading. -/
theorem c70_flags {o q junk mode} {as : List Act} {s : VisW} (hw : Sessions o q junk mode as s)
    (file buf : Nat → BitVec 32) (words : Nat) : ∃ m, run (mkopen file buf words) s.flagOps = .ok m ∧ FlagFile s m ∧
      (allBlocks as ≠ [] → ∀ g, ∃ m', step m (.reopen g) = .ok m' ∧ FlagFile s m') := by
  obtain ⟨s0, s1, tail, h0, h1, h2, h3⟩ := hw.ran
  obtain ⟨c, hs⟩ := soon_acts hw.laws hw.quant hw.corr (soon_open h0) hw.acts hw.fresh h1
  rw [List.nil_append] at hs
  have hk := flagsOk_acts (flagsOk_open h0) h1
  obtain ⟨t1, t2, t3, t4, t5⟩ := assignAll_some h2
  obtain ⟨m, hm⟩ := hk.runs file buf words
  rw [t2]
  refine ⟨m, hm, ⟨file, buf, words, [], by simp, by rw [List.append_nil, t2]; exact hm⟩, fun hne g => ?_⟩
  have hpos : 0 < s1.flagOff := by
    cases hb : allBlocks as with
    | nil => exact absurd hb hne
    | cons b bs =>
      rw [hs.off, hb]
      simp only [List.length_cons, flagPos]
      obtain ⟨s2, h⟩ := hs.each 0 b (by rw [hb]; rfl)
      have := h.ok.vis.one
      omega
  obtain ⟨m', hm'⟩ := reopen_ok file buf words s1.flagOps hk.ops m hm (hk.known _ 0 hpos) g
  refine ⟨m', hm', file, buf, words, [.reopen g], ?_, ?_⟩
  · intro op hop
    rw [List.mem_singleton.1 hop]
    trivial
  · rw [t2]
    exact run_snoc _ m _ _ _ hm hm'

/-- **C70**: appending does not touch what is in the file: the bytes are added at the end, and the table of variables
grows. -/
theorem c70_keeps {o q junk} {as : List Act} {s s2 : VisW} (h : writeActs o q junk s as = some s2) :
    (∃ out, s2.w.out = s.w.out ++ out) ∧ table s.w <+: table s2.w ∧ s.w.offset ≤ s2.w.offset ∧
      ∃ evs, s2.evs = s.evs ++ evs := by
  have key : ∃ evs, s2.evs = s.evs ++ evs ∧ wrun s.w evs = some s2.w := by
    induction as generalizing s with
    | nil =>
      simp only [writeActs, Option.some.injEq] at h
      subst h
      exact ⟨[], by simp, rfl⟩
    | cons a as ih =>
      simp only [writeActs] at h
      cases h1 : writeAct o q junk s a with
      | none => rw [h1] at h; simp at h
      | some s1 =>
        rw [h1] at h
        obtain ⟨x, hx, hr⟩ := ih h
        have hstep : ∃ y, s1.evs = s.evs ++ y ∧ wrun s.w y = some s1.w := by
          cases a with
          | block b =>
            simp only [writeAct] at h1
            cases hc : corrTy s.w with
            | none => rw [hc] at h1; simp at h1
            | some t =>
              rw [hc] at h1
              obtain ⟨s', _, _, _, _, _, hw1, hw2, _, _, _, e8⟩ := writeBlock_some h1
              exact ⟨_, by rw [e8, List.append_assoc], by rw [wrun_append, hw1]; exact hw2⟩
          | append us m g =>
            simp only [writeAct] at h1
            cases h2 : assignAll s us with
            | none => rw [h2] at h1; simp at h1
            | some s' =>
              rw [h2] at h1
              obtain ⟨t1, _, _, _, t5⟩ := assignAll_some h2
              obtain ⟨a1, _, _, _, a5⟩ := appendVis_some h1
              exact ⟨_, by rw [a5, t1, List.append_assoc], by rw [wrun_append, t5]; exact a1⟩
        obtain ⟨y, hy, hr'⟩ := hstep
        exact ⟨y ++ x, by rw [hx, hy, List.append_assoc], by rw [wrun_append, hr']; exact hr⟩
  obtain ⟨evs, he, hr⟩ := key
  exact ⟨wrun_out hr, wrun_table hr, wrun_offset hr, evs, he⟩

theorem find_table {w : Writer} {nm : Name} {ty : Ty} (hnd : ((table w).map (·.1)).Nodup) (h : (nm, ty) ∈ table w) :
    ∃ v, w.vars.find? (fun v => v.name = nm) = some v ∧ v.ty = ty := by
  unfold table at h hnd
  obtain ⟨v, hv, he⟩ := List.mem_map.1 h
  simp only [Prod.mk.injEq] at he
  cases hf : w.vars.find? (fun v => v.name = nm) with
  | none =>
    rw [List.find?_eq_none] at hf
    exact absurd he.1 (by simpa using hf v hv)
  | some u =>
    refine ⟨u, rfl, ?_⟩
    have hu := List.mem_of_find?_eq_some hf
    have hun : u.name = nm := by simpa using List.find?_some hf
    obtain ⟨i, hi⟩ := List.getElem?_of_mem hv
    obtain ⟨j, hj⟩ := List.getElem?_of_mem hu
    have e1 : ((w.vars.map (fun v => (v.name, v.ty))).map (·.1))[i]? = some nm := by simp [hi, he.1]
    have e2 : ((w.vars.map (fun v => (v.name, v.ty))).map (·.1))[j]? = some nm := by simp [hj, hun]
    have := (List.getElem?_inj (List.getElem?_eq_some_iff.1 e1).1 hnd).1 (e1.trans e2.symm)
    subst this
    rw [hi, Option.some.injEq] at hj
    subst hj
    exact he.2

theorem find_reopen {w : Writer} {nm : Name} {v : WVar} (h : w.vars.find? (fun v => v.name = nm) = some v) :
    ∃ u, (reopen w).vars.find? (fun v => v.name = nm) = some u ∧ u.ty = v.ty ∧ u.name = nm := by
  have hv : v.name = nm := by simpa using List.find?_some h
  simp only [reopen, List.find?_map, Function.comp_def, h, Option.map_some]
  exact ⟨_, rfl, rfl, hv⟩

/-- **C70**: a data set that holds a visibility can be opened for appending. -/
theorem c70_opens {o q junk mode} {as : List Act} {s : VisW} (hw : Sessions o q junk mode as s) (hne : allBlocks as ≠ [])
    (m : Ty) (g : Nat → BitVec 32) : ∃ s2, appendVis m g s = some s2 := by
  have hd := hw.dataset
  cases hb : allBlocks as with
  | nil => exact absurd hb hne
  | cons b bs =>
    obtain ⟨s2, hr⟩ := hd.each 0 b (by rw [hb]; rfl)
    obtain ⟨c, hh⟩ := hr.held
    obtain ⟨x, hx⟩ := hr.more
    have hnd := table_nodup hd.run hd.ok hd.vars
    have get : ∀ (nm : Name) (ty : Ty) (d : List Byte), valueAfter s2.evs nm = some d →
        (∀ ty' d', Ev.put nm ty' d' ∈ s2.evs → d' ≠ [] → ty' = ty) →
        ∃ u, (reopen s.w).vars.find? (fun v => v.name = nm) = some u ∧ u.ty = ty ∧ u.name = nm := by
      intro nm ty d hv hty
      obtain ⟨ty', hp, hd'⟩ := valueAfter_mem _ _ _ hv
      have := hty ty' d hp hd'
      subst this
      obtain ⟨v, hv1, hv2⟩ := find_table hnd (put_in_table hd.run hd.ok (by rw [hx]; exact List.mem_append_left _ hp) hd')
      obtain ⟨u, hu1, hu2, hu3⟩ := find_reopen hv1
      exact ⟨u, hu1, hu2.trans hv2, hu3⟩
    obtain ⟨_, _, _, _, _, _, hcv, _⟩ := hh.coord
    obtain ⟨_, _, htv, _⟩ := hh.time
    obtain ⟨_, _, hbv, _⟩ := hh.bl
    obtain ⟨u1, c1, c2, c3⟩ := get nmCoord .dble _ hcv hr.coord
    obtain ⟨u2, d1, d2, _⟩ := get nmTime .dble _ htv hr.time
    obtain ⟨u3, e1, e2, _⟩ := get nmBl .real _ hbv hr.bl
    have hpre : preOk (reopen s.w) = true := by
      unfold preOk typeIn
      rw [c1, d1, e1]
      simp only [c2, d2, e2, Bool.and_eq_true]
      refine ⟨⟨⟨?_, by decide⟩, by decide⟩, by decide⟩
      exact List.any_eq_true.2 ⟨u1, List.mem_of_find?_eq_some c1, by simpa using c3⟩
    -- `corr` is there
    have hcm : mode = .real ∨ mode = .int2 := hw.corr
    obtain ⟨A, B, wA, a1, _⟩ := hr.evs
    have hone := hr.ok.vis.one
    have hclen := corrBytes_length hw.quant mode hr.ok.vis
    have hcne : corrBytes q mode b.vis ≠ [] := by
      intro hc
      rw [hc] at hclen
      simp only [List.length_nil] at hclen
      omega
    obtain ⟨v, hv1, _⟩ := find_table hnd (put_in_table hd.run hd.ok (name := nmCorr) (ty := mode)
      (by rw [hx, a1]; simp) hcne)
    obtain ⟨u, hu1, _, hu3⟩ := find_reopen hv1
    have hloc : ∃ i, locvar (reopen s.w).vars nmCorr = some i ∧ ∃ v, (reopen s.w).vars[i]? = some v := by
      cases hl : locvar (reopen s.w).vars nmCorr with
      | none => exact absurd hu3 (locvar_none hl u (List.mem_of_find?_eq_some hu1))
      | some i =>
        obtain ⟨v, h1, _⟩ := locvar_some hl
        exact ⟨i, rfl, v, h1⟩
    obtain ⟨i, hi, v', hv'⟩ := hloc
    unfold appendVis noCheck mkvar
    rw [if_pos hpre]
    simp only [hi, hv', Option.map_some]
    exact ⟨_, rfl⟩

/-! ## Examples -/

/-- two sessions, the second opened with another `corrmode`, and a third -/
def demoActs : List Act :=
  [.block ⟨[⟨['s', 'r', 'c'], .byte, [65, 66]⟩], ⟨1, 2, 3, 4, 5, List.replicate 16 9, [true, false]⟩⟩,
   .append [⟨nmTime, .dble, be64 77⟩] .int2 (fun _ => 0x7654321#32),
   .block ⟨[], ⟨1, 2, 3, 4, 5, List.replicate 8 1, [true]⟩⟩,
   .append [] .real (fun _ => 0),
   .block ⟨[⟨nmTime, .dble, be64 6⟩], ⟨1, 2, 3, 6, 5, List.replicate 8 1, [false]⟩⟩]

def writeAllActs (mode : Ty) (as : List Act) : Option VisW :=
  (openVis mode).bind fun s => writeActs demoOps demoQuant (fun _ => 0) s as

/-- the names of its variables -/
def demoNames : List Name :=
  [nmCorr, ['s', 'r', 'c'], nmCoord, nmTime, nmBl, ['n', 'c', 'h', 'a', 'n'], ['t', 's', 'c', 'a', 'l', 'e']]

theorem demo_sessions_named (mode : Ty) (hm : mode = .real ∨ mode = .int2) : ∃ s,
    Sessions demoOps demoQuant (fun _ => 0) mode demoActs s ∧ Holds (content s.w.out) s.w.offset s.w.out ∧
    (∃ m, FlagFile s m) ∧ AtStart s (openReader (table s.w) s.w.offset) ∧ s.w.offset ≤ 2 ^ 31 ∧
    (∀ p ∈ table s.w, p.1 ∈ demoNames) ∧ s.flagOff < 2 ^ 63 := by
  have hex : ∃ s0 s, openVis mode = some s0 ∧ writeActs demoOps demoQuant (fun _ => 0) s0 demoActs = some s ∧
      (table s.w).length ≤ 128 ∧ Holds (content s.w.out) s.w.offset s.w.out ∧ s.w.offset ≤ 2 ^ 31 ∧
      (∀ p ∈ table s.w, p.1 ∈ demoNames) ∧ s.flagOff < 2 ^ 63 := by
    rcases hm with rfl | rfl
    · exact ⟨_, _, rfl, rfl, by decide +kernel, by unfold Holds; decide +kernel, by decide +kernel, by decide +kernel,
        by decide +kernel⟩
    · exact ⟨_, _, rfl, rfl, by decide +kernel, by unfold Holds; decide +kernel, by decide +kernel, by decide +kernel,
        by decide +kernel⟩
  obtain ⟨s0, s, h0, h1, h2, h3, h4, h5, h6⟩ := hex
  have hassign : assignAll s [] = some s := by
    cases s
    simp [assignAll, wrun]
  have hs : Sessions demoOps demoQuant (fun _ => 0) mode demoActs s := by
    refine ⟨demo_laws, demo_quant, hm, ⟨s0, s, [], h0, h1, hassign, by simp⟩, ?_, ?_, h2⟩
    · intro a ha
      simp only [demoActs, List.mem_cons, List.not_mem_nil, or_false] at ha
      rcases ha with rfl | rfl | rfl | rfl | rfl
      · refine ⟨⟨by decide, by decide, by decide, by decide, by decide, by decide, by decide, by decide⟩, ?_, ?_⟩
        · intro p hp
          rw [List.mem_singleton.1 hp]
          exact ⟨by decide, by decide, by simp⟩
        · refine ⟨fun p hp _ => ?_, fun d hd => by simp [lastGiven, nmCoord] at hd, fun d hd => by simp [lastGiven, nmTime] at hd,
            fun d hd => by simp [lastGiven, nmBl] at hd⟩
          rw [List.mem_singleton.1 hp]
          exact ⟨by decide, by decide, by decide⟩
      · intro p hp
        rw [List.mem_singleton.1 hp]
        exact ⟨⟨by decide, by decide, by simp⟩, fun _ => ⟨by decide, fun _ => rfl, by decide⟩⟩
      · exact ⟨⟨by decide, by decide, by decide, by decide, by decide, by decide, by decide, by decide⟩, by simp,
          ⟨fun p hp => by simp at hp, fun d hd => by simp [lastGiven] at hd, fun d hd => by simp [lastGiven] at hd,
            fun d hd => by simp [lastGiven] at hd⟩⟩
      · intro p hp
        simp at hp
      · refine ⟨⟨by decide, by decide, by decide, by decide, by decide, by decide, by decide, by decide⟩, ?_, ?_⟩
        · intro p hp
          rw [List.mem_singleton.1 hp]
          exact ⟨by decide, by decide, by simp⟩
        · refine ⟨fun p hp _ => ?_, fun d hd => by simp [lastGiven, nmCoord, nmTime] at hd, fun d hd => ?_,
            fun d hd => by simp [lastGiven, nmBl, nmTime] at hd⟩
          · rw [List.mem_singleton.1 hp]
            exact ⟨by decide, fun _ => rfl, by decide⟩
          · simp only [lastGiven, be64_ne, ne_eq, not_false_eq_true, and_self, if_true, Option.some.injEq] at hd
            exact hd.symm
    · refine ⟨fun _ => ⟨fun _ => by decide, fun _ => by decide, fun _ => by decide⟩,
        fun _ => ⟨fun _ => by decide, fun _ => by decide, fun _ => by decide⟩,
        fun _ => ⟨fun _ => by decide, fun _ => by decide, fun _ => by decide⟩, trivial⟩
  obtain ⟨m, _, hm', _⟩ := c70_flags hs (fun _ => 0) (fun _ => 0) 1
  exact ⟨s, hs, h3, ⟨m, hm'⟩, open_atStart s, h4, h5, h6⟩

theorem demo_sessions (mode : Ty) (hm : mode = .real ∨ mode = .int2) : ∃ s,
    Sessions demoOps demoQuant (fun _ => 0) mode demoActs s ∧ Holds (content s.w.out) s.w.offset s.w.out ∧
    (∃ m, FlagFile s m) ∧ AtStart s (openReader (table s.w) s.w.offset) ∧ s.w.offset ≤ 2 ^ 31 := by
  obtain ⟨s, h1, h2, h3, h4, h5, _⟩ := demo_sessions_named mode hm
  exact ⟨s, h1, h2, h3, h4, h5⟩

/-- the theorem applies to it -/
example : ∃ (s : VisW) (R : VisR) (outs : List Out) (m : Mask),
    uvreadN (content s.w.out) s.w.offset 2 3 ⟨openReader (table s.w) s.w.offset, 0, m⟩ =
    some (R, outs) ∧ outs.length = 3 ∧ ∀ (i : Nat) (out : Out) (b : Block), outs[i]? = some out →
      (allBlocks demoActs)[i]? = some b → Matches demoOps demoQuant .int2 out b.vis := by
  obtain ⟨s, h1, h2, ⟨m, h3⟩, h4, _⟩ := demo_sessions .int2 (Or.inr rfl)
  obtain ⟨R, outs, i1, i2, i3, _⟩ := c70_append h1 h2 (nsize := 2) (by decide) h4 h3
  exact ⟨s, R, outs, m, i1, i2, i3⟩

/-- the visibility of the second session has the preamble of the last one of the first, and is read with it although the
time was assigned another value in between -/
example : (writeAllActs .real demoActs).bind (fun s => readAll s 3) = some
    [⟨1, 2, some 3, 4, 5, .plain (List.replicate 16 9), [true, false]⟩,
     ⟨1, 2, some 3, 4, 5, .plain (List.replicate 8 1), [true]⟩,
     ⟨1, 2, some 3, 6, 5, .plain (List.replicate 8 1), [false]⟩] := by decide +kernel

/-! ## Disagreements -/

/-- **C70, disagreement**: a data set without visibilities cannot be appended to (`Invalid preamble`). -/
theorem c70_empty_fails (m : Ty) (g : Nat → BitVec 32) :
    ((openVis .real).bind fun s => appendVis m g s) = none := by
  rfl

/-- **C70, disagreement**: the `corrmode` of an appending `UV` is ignored.  Data that should be written as numbers are
scaled to 16 bits if the data set was created with `'j'`. -/
theorem c70_mode_ignored : (writeAllActs .int2
      [.block ⟨[], ⟨1, 2, 3, 4, 5, List.replicate 8 9, [true]⟩⟩,
       .append [] .real (fun _ => 0),
       .block ⟨[], ⟨1, 2, 3, 4, 5, List.replicate 8 9, [true]⟩⟩]).bind (fun s => readAll s 2) = some
    [⟨1, 2, some 3, 4, 5, .scaled 7 (List.replicate 8 0), [true]⟩,
     ⟨1, 2, some 3, 4, 5, .scaled 7 (List.replicate 8 0), [true]⟩] := by decide +kernel

end Verif.Mir.Uv
