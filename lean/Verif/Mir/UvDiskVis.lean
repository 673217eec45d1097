import Verif.Mir.UvDisk
import Verif.Mir.UvAppend

/-!
# Records on disk (C81)

`uvread_c` of `/repo/aipy/_miriad/mir/uvio.c` with its `hread_c` calls on the item `visdata`.  Simplified as in
`Verif.Mir.UvVis`; the flag file is the model of C43 and not on the item layer.
-/
namespace Verif.Mir.Uv

open Verif.Mir.Hio (Byte Item Flat)
open Verif.Mir.Mask (Mask mkopen)

/-! ## The model -/

/-- the search for a record with data, uvio.c 2853-2863, on the item -/
def hfindCorr (g : Nat → Byte) : Nat → Item → Reader → Item × Scan
  | 0, it, _ => (it, .bad)
  | fuel + 1, it, r =>
    match hscan g it r with
    | (it', .ok r') =>
      match rlocvar r'.vars nmCorr with
      | none => (it', .bad)
      | some c => if c.callno = r'.callno then (it', .ok r') else hfindCorr g fuel it' r'
    | x => x

/-- `uvread_c`, uvio.c 2830-2885, on the item -/
def huvread (g : Nat → Byte) (nsize : Nat) (it : Item) (s : VisR) : Item × VRead :=
  match hfindCorr g (s.r.maxOffset - s.r.offset + 1) it { s.r with mark := s.r.callno + 1, copy := false } with
  | (it', .eof r) => (it', .eof { s with r := r })
  | (it', .bad) => (it', .bad)
  | (it', .ok r) => (it', readLine nsize { s with r := r })

/-- `n` calls -/
def huvreadN (g : Nat → Byte) (nsize : Nat) : Nat → Item → VisR → Option (Item × VisR × List Out)
  | 0, it, s => some (it, s, [])
  | n + 1, it, s =>
    match huvread g nsize it s with
    | (it', .ok s' out) => (huvreadN g nsize n it' s').map fun p => (p.1, p.2.1, out :: p.2.2)
    | _ => none

/-! ## Reading from the item is reading from the bytes -/

theorem hfindCorr_eq (g : Nat → Byte) {F : Flat} {f : Nat → Byte} : ∀ (fuel : Nat) (it : Item) (r : Reader), Loaded it F f →
    Sound r → ∃ it', hfindCorr g fuel it r = (it', findCorr f F.size fuel r) ∧ Loaded it' F f ∧
      (findCorr f F.size fuel r).Sound
  | 0, it, _, h, _ => ⟨it, rfl, h, trivial⟩
  | fuel + 1, it, r, h, hr => by
    obtain ⟨it1, e1, h1, s1⟩ := hscan_eq g h hr
    rw [hfindCorr, findCorr, e1]
    cases hx : scan f F.size r with
    | eof r' => rw [hx] at s1; exact ⟨it1, rfl, h1, s1⟩
    | bad => exact ⟨it1, rfl, h1, trivial⟩
    | ok r' =>
      rw [hx] at s1
      simp only
      cases hl : rlocvar r'.vars nmCorr with
      | none => exact ⟨it1, rfl, h1, trivial⟩
      | some c =>
        simp only
        split
        · exact ⟨it1, rfl, h1, s1⟩
        · exact hfindCorr_eq g fuel it1 r' h1 s1

theorem readLine_r {nsize : Nat} {s s' : VisR} {out : Out} (h : readLine nsize s = .ok s' out) : s'.r = s.r := by
  unfold readLine at h
  split at h
  · cases h
  · simp only at h
    split at h
    · cases h
    · split at h
      · cases h
      · split at h
        · cases h
        · split at h
          · cases h; rfl
          · cases h

theorem readLine_eof {nsize : Nat} {s s' : VisR} (h : readLine nsize s = .eof s') : False := by
  unfold readLine at h
  split at h
  · cases h
  · simp only at h
    split at h
    · cases h
    · split at h
      · cases h
      · split at h
        · cases h
        · split at h <;> cases h

/-- the result of a read -/
def VRead.Sound : VRead → Prop
  | .eof s => Uv.Sound s.r
  | .bad => True
  | .ok s _ => Uv.Sound s.r

theorem huvread_eq (g : Nat → Byte) {F : Flat} {f : Nat → Byte} (nsize : Nat) {it : Item} {s : VisR} (h : Loaded it F f)
    (hs : Sound s.r) : ∃ it', huvread g nsize it s = (it', uvread f F.size nsize s) ∧ Loaded it' F f ∧
      (uvread f F.size nsize s).Sound := by
  obtain ⟨it1, e1, h1, s1⟩ := hfindCorr_eq g (s.r.maxOffset - s.r.offset + 1) it
    { s.r with mark := s.r.callno + 1, copy := false } h ⟨hs.whole, hs.aligned⟩
  unfold huvread uvread
  rw [e1]
  cases hx : findCorr f F.size (s.r.maxOffset - s.r.offset + 1) { s.r with mark := s.r.callno + 1, copy := false } with
  | eof r => rw [hx] at s1; exact ⟨it1, rfl, h1, s1⟩
  | bad => exact ⟨it1, rfl, h1, trivial⟩
  | ok r =>
    rw [hx] at s1
    refine ⟨it1, rfl, h1, ?_⟩
    simp only
    cases hl : readLine nsize { s with r := r } with
    | eof s' => exact (readLine_eof hl).elim
    | bad => trivial
    | ok s' out =>
      have hr : s'.r = r := readLine_r hl
      show Sound s'.r
      rw [hr]
      exact s1

theorem huvreadN_eq (g : Nat → Byte) {F : Flat} {f : Nat → Byte} (nsize : Nat) : ∀ (n : Nat) (it : Item) (s : VisR)
    (p : VisR × List Out), Loaded it F f → Sound s.r → uvreadN f F.size nsize n s = some p →
    ∃ it', huvreadN g nsize n it s = some (it', p) ∧ Loaded it' F f ∧ Sound p.1.r
  | 0, it, s, p, h, hs, hn => by
    simp only [uvreadN, Option.some.injEq] at hn
    subst hn
    exact ⟨it, rfl, h, hs⟩
  | n + 1, it, s, p, h, hs, hn => by
    obtain ⟨it1, e1, h1, s1⟩ := huvread_eq g nsize h hs
    rw [uvreadN] at hn
    rw [huvreadN, e1]
    cases hx : uvread f F.size nsize s with
    | eof _ => rw [hx] at hn; cases hn
    | bad => rw [hx] at hn; cases hn
    | ok s' out =>
      rw [hx] at hn s1
      simp only at hn ⊢
      rw [Option.map_eq_some_iff] at hn
      obtain ⟨q, hq, rfl⟩ := hn
      obtain ⟨it2, a, b, c⟩ := huvreadN_eq g nsize n it1 s' q h1 s1 hq
      exact ⟨it2, by rw [a]; rfl, b, c⟩

/-! ## Every session but the last writes something -/

theorem someData_append {a b : List Ev} : ∀ {w : Writer}, SomeData w a → (∀ w1, wrun w a = some w1 → SomeData w1 b) →
    SomeData w (a ++ b) := by
  induction a with
  | nil => intro w _ hb; exact hb w rfl
  | cons e es ih =>
    intro w ha hb
    refine ⟨ha.1, fun w' hw' => ih (ha.2 w' hw') fun w1 hw1 => hb w1 ?_⟩
    simp only [wrun, hw', Option.bind_some]
    exact hw1

theorem someData_of {a : List Ev} (h : Ev.reopen ∉ a) : ∀ w, SomeData w a := by
  induction a with
  | nil => intro w; trivial
  | cons e es ih =>
    intro w
    rw [List.mem_cons, not_or] at h
    exact ⟨fun he => absurd he.symm h.1, fun w' _ => ih h.2 w'⟩

/-- something was written, or there is no variable but `corr` -/
def Started (w : Writer) : Prop := 0 < w.offset ∨ ∀ v ∈ w.vars, v.name = nmCorr

theorem putVar_offset (w : Writer) (i : Nat) (v : WVar) (d : List Byte) (n : Nat) :
    (putVar w i v d n).2.name = v.name ∧ (putVar w i v d n).1.vars = w.vars ∧ w.offset ≤ (putVar w i v d n).1.offset ∧
      (v.length ≠ v.ty.ext * n → w.offset < (putVar w i v d n).1.offset) := by
  have hD : ∀ (w : Writer) (v : WVar), (putData w i v d).2.name = v.name ∧ (putData w i v d).1.vars = w.vars ∧
      w.offset < (putData w i v d).1.offset := by
    intro w v
    refine ⟨rfl, rfl, ?_⟩
    show w.offset < roundup (w.offset + roundup HDR v.ty.ext + v.length) ALIGN
    have : 4 ≤ roundup HDR v.ty.ext := by cases v.ty <;> decide
    unfold roundup ALIGN at *
    omega
  unfold putVar
  by_cases hr : v.length ≠ v.ty.ext * n
  · simp only [hr, ne_eq, not_false_eq_true, true_or, if_true]
    obtain ⟨a, b, c⟩ := hD (putSize w i v n).1 (putSize w i v n).2
    have hs : (putSize w i v n).1.offset = w.offset + 8 := rfl
    refine ⟨a, b, by omega, fun _ => by omega⟩
  · simp only [hr, if_false]
    simp only [ne_eq, Classical.not_not] at hr
    split
    · obtain ⟨a, b, c⟩ := hD w v
      exact ⟨a, b, by omega, fun h => h.elim⟩
    · exact ⟨rfl, rfl, Nat.le_refl _, fun h => h.elim⟩

theorem started_put {w w' : Writer} {name : Name} {ty : Ty} {d : List Byte} (h : put w name ty d = some w')
    (hs : Started w) : Started w' := by
  unfold put at h
  simp only at h
  split at h
  · cases h; exact hs
  · rename_i hn
    unfold mkvar at h
    cases hl : locvar w.vars name with
    | some i =>
      rw [hl] at h
      simp only at h
      cases hv : w.vars[i]? with
      | none => rw [hv] at h; cases h
      | some v =>
        rw [hv] at h
        simp only at h
        split at h
        · cases h
        · cases h
          obtain ⟨a, b, c, _⟩ := putVar_offset w i v d (d.length / ty.mem)
          rcases hs with h0 | h0
          · exact Or.inl (Nat.lt_of_lt_of_le h0 c)
          · right
            intro u hu
            rw [b] at hu
            rcases List.mem_or_eq_of_mem_set hu with hu | hu
            · exact h0 u hu
            · rw [hu, a]; exact h0 v (List.mem_of_getElem? hv)
    | none =>
      rw [hl] at h
      simp only at h
      split at h
      · cases h
      · rename_i w1 i hm
        split at hm
        · cases hm
        · split at hm
          · cases hm
          · cases hm
            simp only [List.getElem?_append_right (Nat.le_refl _), Nat.sub_self, List.getElem?_cons_zero] at h
            rw [if_neg (by simp)] at h
            cases h
            left
            refine Nat.lt_of_le_of_lt (Nat.zero_le _) ((putVar_offset _ _ _ _ _).2.2.2 ?_)
            show (0 : Nat) ≠ ty.ext * (d.length / ty.mem)
            have : 0 < ty.ext := by cases ty <;> decide
            have := Nat.mul_pos this (Nat.pos_of_ne_zero hn)
            omega

theorem started_users {us : List User} : ∀ {w w' : Writer}, wrun w (us.map User.ev) = some w' → Started w → Started w' := by
  induction us with
  | nil =>
    intro w w' h hs
    simp only [List.map_nil, wrun, Option.some.injEq] at h
    subst h
    exact hs
  | cons p us ih =>
    intro w w' h hs
    simp only [List.map_cons, wrun] at h
    rw [Option.bind_eq_some_iff] at h
    obtain ⟨w1, h1, h2⟩ := h
    exact ih h2 (started_put h1 hs)

theorem started_noCheck {w w' : Writer} {ty : Ty} (h : noCheck w nmCorr ty = some w') (hs : Started w) : Started w' := by
  unfold noCheck mkvar at h
  cases hl : locvar w.vars nmCorr with
  | some i =>
    rw [hl] at h
    simp only at h
    cases hv : w.vars[i]? with
    | none => rw [hv] at h; cases h
    | some v =>
      rw [hv] at h
      simp only [Option.some.injEq] at h
      subst h
      rcases hs with h0 | h0
      · exact Or.inl h0
      · right
        intro u hu
        rcases List.mem_or_eq_of_mem_set hu with hu | hu
        · exact h0 u hu
        · rw [hu]; exact h0 v (List.mem_of_getElem? hv)
  | none =>
    rw [hl] at h
    simp only at h
    split at h
    · cases h
    · rename_i w1 i hm
      split at hm
      · cases hm
      · split at hm
        · cases hm
        · cases hm
          simp only [List.getElem?_append_right (Nat.le_refl _), Nat.sub_self, List.getElem?_cons_zero, Option.some.injEq] at h
          subst h
          rcases hs with h0 | h0
          · exact Or.inl h0
          · right
            intro u hu
            rcases List.mem_or_eq_of_mem_set hu with hu | hu
            · rcases List.mem_append.1 hu with hu | hu
              · exact h0 u hu
              · rw [List.mem_singleton.1 hu]
            · rw [hu]

/-- a data set that is appended to holds something -/
theorem append_started {w : Writer} (h : preOk (reopen w) = true) (hs : Started w) : 0 < w.offset := by
  rcases hs with h0 | h0
  · exact h0
  · exfalso
    unfold preOk at h
    simp only [Bool.and_eq_true] at h
    obtain ⟨v, hv, hn⟩ := List.any_eq_true.1 h.1.1.1
    unfold reopen at hv
    obtain ⟨u, hu, rfl⟩ := List.mem_map.1 hv
    simp only [decide_eq_true_eq] at hn
    rw [h0 u hu] at hn
    exact absurd hn (by decide)

theorem callEvs_shape (o : FpOps) (q : Quant) (junk : Nat → Nat) (mode : Ty) (s : VisW) (v : Vis) :
    ∃ l, callEvs o q junk mode s v = l ++ [.next] ∧ Ev.reopen ∉ callEvs o q junk mode s v := by
  refine ⟨_, rfl, ?_⟩
  unfold callEvs visEvs corrEvs
  intro h
  simp only [List.mem_append] at h
  rcases h with ((((((h | h) | h) | h) | h) | h) | h) <;> (try split at h) <;> simp at h

theorem reopen_notMem (us : List User) : Ev.reopen ∉ us.map User.ev := by
  intro h
  obtain ⟨p, _, hp⟩ := List.mem_map.1 h
  cases hp

/-- what holds between the sessions -/
structure Going (s : VisW) : Prop where
  run : wrun newWriter s.evs = some s.w
  some : SomeData newWriter s.evs
  started : Started s.w
  head : ∃ mode rest, s.evs = .noCheck nmCorr mode :: rest

theorem head_append {l a b : List Ev} (hl : l = a ++ b) (h : ∃ mode rest, a = Ev.noCheck nmCorr mode :: rest) :
    ∃ mode rest, l = Ev.noCheck nmCorr mode :: rest := by
  obtain ⟨mode, rest, e⟩ := h
  exact ⟨mode, rest ++ b, by rw [hl, e]; rfl⟩

theorem going_open {mode : Ty} {s : VisW} (h : openVis mode = some s) : Going s := by
  unfold openVis at h
  rw [Option.map_eq_some_iff] at h
  obtain ⟨w, hw, rfl⟩ := h
  refine ⟨by simp only [wrun, wstep, hw, Option.bind_some], ⟨by simp, fun _ _ => trivial⟩,
    started_noCheck hw (Or.inr (by simp [newWriter])), _, _, rfl⟩

theorem going_users {s s2 : VisW} {us : List User} (h : assignAll s us = some s2) (hg : Going s) : Going s2 := by
  obtain ⟨a, _, _, _, b⟩ := assignAll_some h
  refine ⟨by rw [a, wrun_append, hg.run]; exact b, ?_, started_users b hg.started, head_append a hg.head⟩
  rw [a]
  exact someData_append hg.some fun w1 _ => someData_of (reopen_notMem us) w1

theorem going_act {o q junk} {s s2 : VisW} {a : Act} (h : writeAct o q junk s a = some s2) (hg : Going s) : Going s2 := by
  cases a with
  | block b =>
    unfold writeAct at h
    simp only at h
    rw [Option.bind_eq_some_iff] at h
    obtain ⟨mode, _, h⟩ := h
    obtain ⟨s1, e1, e2, e3, e4, e5, e6, e7, e8, e9, e10, e11⟩ := writeBlock_some h
    have hg1 := going_users e1 hg
    obtain ⟨l, l1, l2⟩ := callEvs_shape o q junk mode s1 b.vis
    have hev : s2.evs = s1.evs ++ callEvs o q junk mode s1 b.vis := by rw [e11, e5]
    refine ⟨by rw [hev, wrun_append, hg1.run]; exact e7, ?_, Or.inl ?_, head_append hev hg1.head⟩
    · rw [hev]
      exact someData_append hg1.some fun w1 _ => someData_of l2 w1
    · rw [l1, wrun_append, Option.bind_eq_some_iff] at e7
      obtain ⟨w1, _, e7⟩ := e7
      simp only [wrun, wstep, Option.bind_some, Option.some.injEq] at e7
      rw [← e7]
      show 0 < w1.offset + 8
      omega
  | append us mode g =>
    unfold writeAct at h
    simp only at h
    rw [Option.bind_eq_some_iff] at h
    obtain ⟨s1, h1, h⟩ := h
    have hg1 := going_users h1 hg
    obtain ⟨a1, _, _, _, a5⟩ := appendVis_some h
    have hp : preOk (reopen s1.w) = true := by
      unfold appendVis at h
      by_cases hc : preOk (reopen s1.w) = true
      · exact hc
      · rw [if_neg hc] at h; cases h
    have h0 := append_started hp hg1.started
    refine ⟨by rw [a5, wrun_append, hg1.run]; exact a1, ?_, ?_, head_append a5 hg1.head⟩
    · rw [a5]
      refine someData_append hg1.some fun w1 hw1 => ?_
      rw [hg1.run, Option.some.injEq] at hw1
      subst hw1
      exact ⟨fun _ => h0, fun w2 _ => ⟨by simp, fun _ _ => trivial⟩⟩
    · simp only [wrun, wstep, Option.bind_some] at a1
      rw [Option.bind_eq_some_iff] at a1
      obtain ⟨w2, a1, a2⟩ := a1
      rw [Option.some.injEq] at a2
      rw [← a2]
      refine started_noCheck a1 (Or.inl ?_)
      show 0 < roundup s1.w.offset ALIGN
      unfold roundup ALIGN
      omega

theorem going_acts {o q junk} {as : List Act} : ∀ {s s2 : VisW}, writeActs o q junk s as = some s2 → Going s → Going s2 := by
  induction as with
  | nil =>
    intro s s2 h hg
    simp only [writeActs, Option.some.injEq] at h
    subst h
    exact hg
  | cons a as ih =>
    intro s s2 h hg
    simp only [writeActs] at h
    rw [Option.bind_eq_some_iff] at h
    obtain ⟨s1, h1, h2⟩ := h
    exact ih h2 (going_act h1 hg)

theorem Sessions.going {o q junk mode} {as : List Act} {s : VisW} (hw : Sessions o q junk mode as s) : Going s := by
  obtain ⟨s0, s1, tail, h0, h1, h2, _⟩ := hw.ran
  exact going_users h2 (going_acts h1 (going_open h0))

theorem Sessions.offset_pos {o q junk mode} {as : List Act} {s : VisW} (hw : Sessions o q junk mode as s)
    (hne : allBlocks as ≠ []) : 0 < s.w.offset := by
  rcases hw.going.started with h | h
  · exact h
  · exfalso
    cases hbl : allBlocks as with
    | nil => exact hne hbl
    | cons b bs =>
      obtain ⟨s2, hs2⟩ := c70_opens hw hne .real (fun _ => 0)
      have hp : preOk (reopen s.w) = true := by
        unfold appendVis at hs2
        by_cases hc : preOk (reopen s.w) = true
        · exact hc
        · rw [if_neg hc] at hs2; cases hs2
      have hz : ¬ 0 < (0 : Nat) := by omega
      exact hz (append_started (w := { s.w with offset := 0 }) hp (Or.inr h))

/-! ## Records -/

/-- **C81**: the visibilities of all sessions are read back through the buffers and files of the item layer. -/
theorem c81_records (g d g' : Nat → Byte) {o q junk mode} {as : List Act} {s : VisW} (hw : Sessions o q junk mode as s)
    (hne : allBlocks as ≠ []) (hb : s.w.offset ≤ 2 ^ 31) {nsize : Nat}
    (hn : ∀ b ∈ allBlocks as, b.vis.flags.length ≤ nsize) {m : Mask} (hm : FlagFile s m) :
    ∃ it it' it'' R R' outs, stored g d g' s.evs = some (it, s.w) ∧
      huvreadN g' nsize (allBlocks as).length it ⟨openReader (table s.w) s.w.offset, 0, m⟩ = some (it', R, outs) ∧
      outs.length = (allBlocks as).length ∧
      (∀ (i : Nat) (out : Out) (b : Block), outs[i]? = some out → (allBlocks as)[i]? = some b →
        Matches o q mode out b.vis) ∧
      huvread g' nsize it' R = (it'', .eof R') := by
  have hd := hw.dataset
  have h0 := hw.offset_pos hne
  obtain ⟨it, F, f, e1, e2, e3⟩ := stored_ok g d g' hd.run hd.ok hb hw.going.some h0
  obtain ⟨R, outs, i1, i2, i3, R', i4⟩ := c70_append hw e3 hn (open_atStart s) hm
  obtain ⟨it', j1, j2, j3⟩ := huvreadN_eq g' nsize _ it _ _ e2 (sound_open _ _) i1
  obtain ⟨it'', k1, _, _⟩ := huvread_eq g' nsize j2 j3
  rw [i4] at k1
  exact ⟨it, it', it'', R, R', outs, e1, j1, i2, i3, k1⟩

/-- three sessions -/
example (g d g' : Nat → Byte) : ∃ (s : VisW) (m : Mask) (it it' : Item) (R : VisR) (outs : List Out),
    stored g d g' s.evs = some (it, s.w) ∧
    huvreadN g' 2 3 it ⟨openReader (table s.w) s.w.offset, 0, m⟩ = some (it', R, outs) ∧ outs.length = 3 ∧
    ∀ (i : Nat) (out : Out) (b : Block), outs[i]? = some out →
      (allBlocks demoActs)[i]? = some b → Matches demoOps demoQuant .int2 out b.vis := by
  obtain ⟨s, h1, h2, ⟨m, h3⟩, h4, hb⟩ := demo_sessions .int2 (Or.inr rfl)
  obtain ⟨it, it', it'', R, R', outs, i1, i2, i3, i4, _⟩ := c81_records g d g' h1 (by decide) hb (nsize := 2) (by decide) h3
  exact ⟨s, m, it, it', R, outs, i1, i2, i3, i4⟩

end Verif.Mir.Uv
