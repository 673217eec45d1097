import Verif.Mir.UvDirProps

/-!
# A data set as a directory: the theorems (C82)
-/

namespace Verif.Mir.Uv

open Verif.Mir.Hio (Byte Item Flat Op Tree Dataset Rel session reopenTree openRead newTree)
open Verif.Mir.Mask (Mask)
open Verif.Mir.Head (rdhdl rdhd HOp Conv Asg Val Kind itype)

/-- Programs that write a data set, one after the other, and what has been written.  Every session leaves a data set with
a variable and something in the stream; the stream has at most 2^31 bytes. -/
structure Program (names : List Hio.Name) (h : List DEv) (w : Writer) : Prop where
  ok : DirOk names h
  run : wrun newWriter (evsOf h) = some w
  apart : Apart names (table w)
  offset : w.offset ≤ 2 ^ 31
  flags : flagsOf h < 2 ^ 63
  filled : Filled newWriter (evsOf h)
  holds : 0 < w.offset ∧ w.vars ≠ []
  vars : (table w).length ≤ 128

theorem Program.closed {names : List Hio.Name} {h : List DEv} {w : Writer} (p : Program names h w) (c : Conv) (g : Nat → Byte) :
    ∃ t D, directory c g h = some t ∧ Closed names t w (flagsOf h) D ∧
      ∀ n, n ∉ reserved → D n = (Head.lastOf (itemsOf h) n).map fun a => Head.flatOf n (Head.chunksOf c n a) :=
  directory_ok c g p.run p.ok p.apart p.offset p.flags p.filled p.holds.1 p.holds.2

/-- **C82.**  A program that knows only the directory reads after `n` records the values that the variables had after `n`
records were written, whatever sessions wrote them, and every variable with its type and length. -/
theorem c82_variables (c : Conv) (g g' : Nat → Byte) {names : List Hio.Name} {h : List DEv} {w : Writer}
    (p : Program names h w) : ∃ t it r0, directory c g h = some t ∧ openOld t g' = some (it, r0) ∧
      ∀ n, n ≤ records (evsOf h) → ∃ it' r, hreadN g' n it r0 = some (it', r) ∧
        ∀ name ty v, Ev.put name ty v ∈ evsOf h → v ≠ [] → getvr r name ty = valueAfter (upTo n (evsOf h)) name ∧
          ∀ v', valueAfter (upTo n (evsOf h)) name = some v' → ∃ upd, probe r name = some (ty, v'.length / ty.mem, upd) := by
  obtain ⟨t, D, e, hc, _⟩ := p.closed c g
  obtain ⟨it, F, f, h1, h2, h3⟩ := old_ok hc p.offset g'
  refine ⟨t, it, _, e, h1, fun n hn => ?_⟩
  obtain ⟨r, a, b⟩ := c47_variables p.run p.ok.evs p.vars h3 n hn
  obtain ⟨it', e', _, _⟩ := hreadN_eq g' n it _ r h2 (sound_open _ _) a
  exact ⟨it', r, e', b⟩

/-- **C82.**  It finds the end where the last session stopped. -/
theorem c82_end (c : Conv) (g g' : Nat → Byte) {names : List Hio.Name} {h : List DEv} {w : Writer}
    (p : Program names h w) : ∃ t it it' it'' r0 r r', directory c g h = some t ∧ openOld t g' = some (it, r0) ∧
      hreadN g' (records (evsOf h)) it r0 = some (it', r) ∧ hnext g' it' r = (it'', .eof r') := by
  obtain ⟨t, D, e, hc, _⟩ := p.closed c g
  obtain ⟨it, F, f, h1, h2, h3⟩ := old_ok hc p.offset g'
  obtain ⟨r, r', a, b⟩ := c47_end p.run p.ok.evs p.vars h3
  obtain ⟨it', e1, l, s⟩ := hreadN_eq g' _ it _ r h2 (sound_open _ _) a
  obtain ⟨it'', e2, _, _⟩ := hnext_eq g' l s
  rw [b] at e2
  exact ⟨t, it, it', it'', _, r, r', e, h1, e1, e2⟩

/-- **C82.**  The header items are there: what was last assigned to each, and nothing else (`UV.__getitem__`).  The number
of flags is that of all sessions (`ncorr`, from which a program that appends goes on). -/
theorem c82_items (c : Conv) (g g' : Nat → Byte) {names : List Hio.Name} {h : List DEv} {w : Writer}
    (p : Program names h w) : ∃ t, directory c g h = some t ∧
      (∀ (n : Hio.Name) (k : Kind), itype n = some k → n ∉ reserved →
        (∀ v, Head.lastOf (itemsOf h) n = some (.py v) → rdhd c t n g' = .ok (Head.shown c k v)) ∧
        (Head.lastOf (itemsOf h) n = none → rdhd c t n g' = .error .io)) ∧
      ∀ d, rdhdl t itNcorr g' d = .ok (flagsOf h : Int) := by
  obtain ⟨t, D, e, hc, ho⟩ := p.closed c g
  refine ⟨t, e, fun n k hk hn => ⟨fun v hv => ?_, fun hv => ?_⟩, fun d => rdhdl_long hc.good hc.ncorr p.flags g' d⟩
  · have hmem : ∃ o ∈ itemsOf h, Head.assigns n o = some (.py v) := by
      unfold Head.lastOf at hv
      obtain ⟨o, hom, ha⟩ := List.exists_of_findSome?_eq_some hv
      exact ⟨o, List.mem_reverse.1 hom, ha⟩
    obtain ⟨o, hom, ha⟩ := hmem
    obtain ⟨k', hk', hok⟩ := (Head.hstep_rel Hio.new_rel c o (p.ok.items o hom)).2 n _ ha
    rw [hk, Option.some.injEq] at hk'
    subst hk'
    have hD := ho n hn
    rw [hv] at hD
    rcases Head.rdhd_rel hc.good.rel c n g' v k hk hok hD with ⟨_, hx⟩ | e
    · have := hc.good.items
      omega
    · exact e
  · unfold rdhd
    rw [hk]
    simp only
    have hD := ho n hn
    rw [hv] at hD
    rw [Head.openItem_none hc.good.rel hc.good.items n hD g']

theorem filled_of {es : List Ev} : ∀ {w : Writer}, SomeData w es → w.vars ≠ [] → Filled w es := by
  induction es with
  | nil => intro w _ _; trivial
  | cons e es ih =>
    intro w h hv
    refine ⟨fun he => ⟨h.1 he, hv⟩, fun w' hw => ih (h.2 w' hw) fun hn => ?_⟩
    have hl := (wstep_table hw).length_le
    unfold table at hl
    rw [List.length_map, List.length_map, hn] at hl
    exact hv (List.length_eq_zero_iff.1 (by simpa using hl))

/-- sessions of `UV.write` are such programs -/
theorem Sessions.program {o q junk mode} {as : List Act} {s : VisW} (hw : Sessions o q junk mode as s)
    (hne : allBlocks as ≠ []) (hb : s.w.offset ≤ 2 ^ 31) {names : List Hio.Name} {h : List DEv} (hok : DirOk names h)
    (hev : evsOf h = s.evs) (hfl : flagsOf h = s.flagOff) (hf63 : s.flagOff < 2 ^ 63) (hap : Apart names (table s.w)) :
    Program names h s.w := by
  have hg := hw.going
  obtain ⟨m, rest, hh⟩ := hg.head
  have h1 : ∃ w1, wstep newWriter (.noCheck nmCorr m) = some w1 ∧ w1.vars ≠ [] ∧ wrun w1 rest = some s.w := by
    have := hg.run
    rw [hh] at this
    simp only [wrun] at this
    rw [Option.bind_eq_some_iff] at this
    obtain ⟨w1, e1, e2⟩ := this
    refine ⟨w1, e1, ?_, e2⟩
    simp only [wstep] at e1
    obtain ⟨w2, i, v, _, h2, h3⟩ := noCheck_some e1
    rw [h3]
    intro hc
    have hc' : w2.vars = [] := by simpa using hc
    rw [hc'] at h2
    cases h2
  obtain ⟨w1, e1, e2, e3⟩ := h1
  refine ⟨hok, by rw [hev]; exact hg.run, hap, hb, by rw [hfl]; exact hf63, ?_, ⟨hw.offset_pos hne, fun hn => ?_⟩, hw.vars⟩
  · rw [hev, hh]
    refine ⟨by simp, fun w' hw' => ?_⟩
    rw [e1, Option.some.injEq] at hw'
    subst hw'
    have hs := hg.some
    rw [hh] at hs
    exact filled_of (hs.2 w1 e1) e2
  · have hl := (wrun_table e3).length_le
    unfold table at hl
    rw [List.length_map, List.length_map, hn] at hl
    exact e2 (List.length_eq_zero_iff.1 (by simpa using hl))

/-- **C82.**  The visibilities of all sessions are read back by a program that knows only the directory (and the flag
file), and the number of flags is that of all sessions. -/
theorem c82_records (c : Conv) (g g' : Nat → Byte) {o q junk mode} {as : List Act} {s : VisW}
    (hw : Sessions o q junk mode as s) (hne : allBlocks as ≠ []) (hb : s.w.offset ≤ 2 ^ 31) {names : List Hio.Name}
    {h : List DEv} (hok : DirOk names h) (hev : evsOf h = s.evs) (hfl : flagsOf h = s.flagOff) (hf63 : s.flagOff < 2 ^ 63)
    (hap : Apart names (table s.w)) {nsize : Nat} (hn : ∀ b ∈ allBlocks as, b.vis.flags.length ≤ nsize) {m : Mask}
    (hm : FlagFile s m) :
    ∃ t it it' it'' r0 R R' outs, directory c g h = some t ∧ openOld t g' = some (it, r0) ∧
      huvreadN g' nsize (allBlocks as).length it ⟨r0, 0, m⟩ = some (it', R, outs) ∧
      outs.length = (allBlocks as).length ∧
      (∀ (i : Nat) (out : Out) (b : Block), outs[i]? = some out → (allBlocks as)[i]? = some b →
        Matches o q mode out b.vis) ∧
      huvread g' nsize it' R = (it'', .eof R') ∧ ∀ d, rdhdl t itNcorr g' d = .ok (s.flagOff : Int) := by
  have p := hw.program hne hb hok hev hfl hf63 hap
  obtain ⟨t, D, e, hc, _⟩ := p.closed c g
  obtain ⟨it, F, f, h1, h2, h3⟩ := old_ok hc p.offset g'
  obtain ⟨R, outs, i1, i2, i3, R', i4⟩ := c70_append hw h3 hn (open_atStart s) hm
  obtain ⟨it', j1, j2, j3⟩ := huvreadN_eq g' nsize _ it _ _ h2 (sound_open _ _) i1
  obtain ⟨it'', k1, _, _⟩ := huvread_eq g' nsize j2 j3
  rw [i4] at k1
  refine ⟨t, it, it', it'', _, R, R', outs, e, h1, j1, i2, i3, k1, fun d => ?_⟩
  rw [← hfl]
  exact rdhdl_long hc.good hc.ncorr p.flags g' d

/-! ## Concrete cases -/

theorem evsOf_map : ∀ (l : List Ev), evsOf (l.map .ev) = l
  | [] => rfl
  | e :: l => congrArg (e :: ·) (evsOf_map l)

theorem itemsOf_map : ∀ (l : List Ev), itemsOf (l.map .ev) = []
  | [] => rfl
  | _ :: l => itemsOf_map l

theorem flagsOf_map : ∀ (l : List Ev), flagsOf (l.map .ev) = 0
  | [] => rfl
  | _ :: l => flagsOf_map l

/-- the three sessions of C70; all flags are counted at the beginning -/
example (c : Conv) (g g' : Nat → Byte) : ∃ (s : VisW) (m : Mask) (h : List DEv) (t : Tree) (it it' : Item) (r0 : Reader)
    (R : VisR) (outs : List Out), evsOf h = s.evs ∧ directory c g h = some t ∧ openOld t g' = some (it, r0) ∧
    huvreadN g' 2 3 it ⟨r0, 0, m⟩ = some (it', R, outs) ∧ outs.length = 3 ∧
    ∀ (i : Nat) (out : Out) (b : Block), outs[i]? = some out →
      (allBlocks demoActs)[i]? = some b → Matches demoOps demoQuant .int2 out b.vis := by
  obtain ⟨s, h1, h2, ⟨m, h3⟩, h4, hb, hnm, hf63⟩ := demo_sessions_named .int2 (Or.inr rfl)
  have hev : evsOf (.flags s.flagOff :: s.evs.map .ev) = s.evs := evsOf_map _
  have hfl : flagsOf (.flags s.flagOff :: s.evs.map .ev) = s.flagOff := by
    show s.flagOff + flagsOf (s.evs.map .ev) = _
    rw [flagsOf_map]; rfl
  have hit : itemsOf (.flags s.flagOff :: s.evs.map .ev) = [] := itemsOf_map _
  have hok : DirOk reserved (.flags s.flagOff :: s.evs.map .ev) := by
    refine ⟨by rw [hev]; exact h1.dataset.ok, ?_, ?_, fun n hn => hn, by decide⟩
    · rw [hit]; intro o ho; cases ho
    · rw [hit]; intro o ho; cases ho
  have hap : Apart reserved (table s.w) := by
    have : ∀ n ∈ demoNames, Visible n ∧ nameBytes n ∉ reserved ∧ nameBytes n ∉ otherFiles := by decide
    exact fun p hp => this p.1 (hnm p hp)
  obtain ⟨t, it, it', it'', r0, R, R', outs, i1, i2, i3, i4, i5, _⟩ :=
    c82_records c g g' h1 (by decide) hb hok hev hfl hf63 hap (nsize := 2) (by decide) h3
  exact ⟨s, m, _, t, it, it', r0, R, outs, hev, i1, i2, i3, i4, i5⟩

/-- three sessions; in the second a new variable, with a value that does not fit into one buffer, and an item that was
assigned in the first -/
def dirDemo : List DEv :=
  [.item (.set Head.obstype (fun _ => 0) (.str [99, 114, 111, 115, 115])), .ev (.put ['x'] .real [1, 2, 3, 4]), .flags 3, .ev .next,
   .ev .reopen, .ev (.put ['y', 'y'] .byte longValue), .item (.set Head.obstype (fun _ => 0) (.str [97, 117, 116, 111])),
   .ev (.put ['x'] .dble []), .flags 4, .ev .next, .ev .reopen, .ev (.put ['x'] .real [5, 6, 7, 8, 9, 10, 11, 12]), .ev .next]

/-- a check for `Filled` -/
def filledB : Writer → List Ev → Bool
  | _, [] => true
  | w, e :: es => (decide (e ≠ .reopen) || decide (0 < w.offset ∧ w.vars ≠ [])) &&
    match wstep w e with
    | none => true
    | some w' => filledB w' es

theorem filledB_ok : ∀ (es : List Ev) (w : Writer), filledB w es = true → Filled w es
  | [], _, _ => trivial
  | e :: es, w, h => by
    rw [filledB, Bool.and_eq_true] at h
    refine ⟨fun he => ?_, fun w' hw => ?_⟩
    · have := h.1
      rw [he] at this
      simpa using this
    · have := h.2
      rw [hw] at this
      exact filledB_ok es w' this

theorem dirDemo_program : ∃ w, Program (Head.obstype :: reserved) dirDemo w := by
  have hx : (wrun newWriter (evsOf dirDemo)).any (fun w => decide ((table w).length ≤ 128 ∧ w.offset ≤ 2 ^ 31 ∧ 0 < w.offset ∧
      w.vars ≠ [] ∧ ∀ p ∈ table w, Visible p.1 ∧ nameBytes p.1 ∉ Head.obstype :: reserved ∧ nameBytes p.1 ∉ otherFiles)) =
      true := by decide +kernel
  rw [Option.any_eq_true_iff_get] at hx
  obtain ⟨hsome, hx⟩ := hx
  obtain ⟨x1, x2, x3, x4, x5⟩ := of_decide_eq_true hx
  refine ⟨_, ?_, (Option.some_get hsome).symm, x5, x2, by decide, ?_, ⟨x3, x4⟩, x1⟩
  · refine ⟨?_, ?_, ?_, fun n hn => List.mem_cons_of_mem _ hn, by decide⟩
    · intro e he
      simp only [dirDemo, evsOf, List.mem_cons, List.not_mem_nil, or_false] at he
      rcases he with rfl | rfl | rfl | rfl | rfl | rfl | rfl | rfl | rfl
      · exact ⟨by decide, by decide, by simp⟩
      · trivial
      · trivial
      · exact ⟨by decide +kernel, by unfold longValue; rw [List.length_replicate]; decide, by simp⟩
      · exact ⟨by decide, by decide, by simp⟩
      · trivial
      · trivial
      · exact ⟨by decide, by decide, by simp⟩
      · trivial
    · intro o ho
      simp only [dirDemo, itemsOf, List.mem_cons, List.not_mem_nil, or_false] at ho
      rcases ho with rfl | rfl
      · exact ⟨.text, by decide, by decide, by decide, by decide⟩
      · exact ⟨.text, by decide, by decide, by decide, by decide⟩
    · intro o ho n a ha
      simp only [dirDemo, itemsOf, List.mem_cons, List.not_mem_nil, or_false] at ho
      rcases ho with rfl | rfl <;>
      · simp only [Head.assigns] at ha
        split at ha
        · rename_i hn
          subst hn
          exact ⟨List.mem_cons_self, by decide⟩
        · cases ha
  · exact filledB_ok _ _ (by decide +kernel)

/-- and what is read from it: `x` after three records, `yy` after two, `obstype` and the number of flags -/
example (c : Conv) (g g' : Nat → Byte) : ∃ t it r0 it' r, directory c g dirDemo = some t ∧ openOld t g' = some (it, r0) ∧
    hreadN g' 3 it r0 = some (it', r) ∧ getvr r ['x'] .real = some [5, 6, 7, 8, 9, 10, 11, 12] ∧
    getvr r ['y', 'y'] .byte = some longValue := by
  obtain ⟨w, p⟩ := dirDemo_program
  obtain ⟨t, it, r0, e1, e2, e3⟩ := c82_variables c g g' p
  obtain ⟨it', r, e4, e5⟩ := e3 3 (by decide)
  refine ⟨t, it, r0, it', r, e1, e2, e4, ?_, ?_⟩
  · exact (e5 ['x'] .real [1, 2, 3, 4] (by simp [dirDemo, evsOf]) (by simp)).1
  · exact (e5 ['y', 'y'] .byte longValue (by simp [dirDemo, evsOf]) (by decide +kernel)).1

example (c : Conv) (g g' : Nat → Byte) : ∃ t, directory c g dirDemo = some t ∧
    rdhd c t Head.obstype g' = .ok (.str [97, 117, 116, 111]) ∧ rdhdl t itNcorr g' 0 = .ok 7 := by
  obtain ⟨w, p⟩ := dirDemo_program
  obtain ⟨t, e1, e2, e3⟩ := c82_items c g g' p
  exact ⟨t, e1, (e2 Head.obstype .text (by decide) (by decide)).1 _ rfl, e3 0⟩

/-! ## Disagreement -/

/-- **C82, disagreement.**  A variable with a blank in its name is accepted, and comes back under another name. -/
theorem c82_blank_lost (c : Conv) : ∃ t it r0 it' r, directory c (fun _ => 0)
      [.ev (.put ['a', ' ', 'b'] .real [1, 2, 3, 4]), .ev .next] = some t ∧ openOld t (fun _ => 0) = some (it, r0) ∧
    hreadN (fun _ => 0) 1 it r0 = some (it', r) ∧ getvr r ['a', ' ', 'b'] .real = none ∧
    getvr r ['a'] .real = some [1, 2, 3, 4] := by
  exact ⟨_, _, _, _, _, rfl, rfl, rfl, rfl, rfl⟩

end Verif.Mir.Uv
