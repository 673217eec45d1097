import Verif.Mir.PipeC51
import Verif.Codes.Props

/-!
# Property C51 : copying a data set that was written with aipy

`Verif.Mir.PipeC51` is about sources of any origin, described by `Source`.  Here the source is a file that was written
with the calls of `Verif.Mir.UvVis` and opened with `UV(filename)`.
-/
namespace Verif.Mir.Uv

open Verif.Mir.Hio (Byte)
open Verif.Mir.Mask (Mask)

/-! ## The first record of a file sets every variable it needs, whatever the reader held before -/

def bare (v : RVar) : RVar := { v with buf := none }

theorem bare_get {a b : List RVar} (h : a.map bare = b.map bare) (i : Nat) : (a[i]?).map bare = (b[i]?).map bare := by
  rw [← List.getElem?_map, ← List.getElem?_map, h]

theorem bare_some {a b : List RVar} (h : a.map bare = b.map bare) {i : Nat} {v : RVar} (hv : a[i]? = some v) :
    ∃ v', b[i]? = some v' ∧ bare v' = bare v := by
  have := bare_get h i
  rw [hv] at this
  cases hb : b[i]? with
  | none => rw [hb] at this; simp at this
  | some v' =>
    rw [hb] at this
    simp only [Option.map_some, Option.some.injEq] at this
    exact ⟨v', rfl, this.symm⟩

theorem bare_fields {v v' : RVar} (h : bare v' = bare v) : v'.name = v.name ∧ v'.ty = v.ty ∧ v'.flength = v.flength ∧
    v'.length = v.length ∧ v'.callno = v.callno ∧ v'.copy = v.copy := by
  cases v; cases v'
  simp only [bare, RVar.mk.injEq] at h
  obtain ⟨h1, h2, h3, h4, _, h6, h7⟩ := h
  exact ⟨h1, h2, h3, h4, h6, h7⟩

theorem readRec_bare (f : Nat → Byte) (size mo : Nat) {a b : List RVar} (h : a.map bare = b.map bare) (off : Nat) :
    readRec f size mo a off = readRec f size mo b off := by
  unfold readRec
  have hv : (recVar a (f off)).map bare = (recVar b (f off)).map bare := by
    unfold recVar
    split
    · rfl
    · exact bare_get h _
  cases ha : recVar a (f off) with
  | none =>
    rw [ha] at hv
    cases hb : recVar b (f off) with
    | none => rfl
    | some v => rw [hb] at hv; simp at hv
  | some v =>
    rw [ha] at hv
    cases hb : recVar b (f off) with
    | none => rw [hb] at hv; simp at hv
    | some v' =>
      rw [hb] at hv
      simp only [Option.map_some, Option.some.injEq] at hv
      obtain ⟨_, e2, e3, _⟩ := bare_fields hv
      simp only [readSize, readData, checkSize, e2, e3]

theorem set_bare {a b : List RVar} (h : a.map bare = b.map bare) (i : Nat) {x y : RVar} (hxy : bare x = bare y) :
    (a.set i x).map bare = (b.set i y).map bare := by
  rw [List.map_set, List.map_set, h, hxy]

theorem scanLoop_bare (f : Nat → Byte) (size : Nat) (ra rb : Reader) (hm : ra.maxOffset = rb.maxOffset) (c fuel : Nat) :
    ∀ (la lb : Loop) (r' : Reader), la.vars.map bare = lb.vars.map bare → la.off = lb.off →
      scanLoop f size ra c fuel la = .ok r' → ∃ r2, scanLoop f size rb c fuel lb = .ok r2 ∧
        r2.vars.map bare = r'.vars.map bare := by
  induction fuel with
  | zero => intro la lb r' _ _ h; simp [scanLoop] at h
  | succ fuel ih =>
    intro la lb r' hv ho h
    rw [scanLoop] at h ⊢
    rw [← hm, ← ho, ← readRec_bare f size _ hv]
    cases hr : readRec f size ra.maxOffset la.vars la.off with
    | eof => rw [hr] at h; simp at h
    | bad => rw [hr] at h; simp at h
    | eor =>
      rw [hr] at h
      simp only [Scan.ok.injEq] at h
      subst h
      exact ⟨_, rfl, hv.symm⟩
    | size i len =>
      rw [hr] at h
      simp only [applyRec] at h ⊢
      cases ha : la.vars[i]? with
      | none => rw [ha] at h; simp at h
      | some v =>
        obtain ⟨v', hb, hvv⟩ := bare_some hv ha
        rw [ha] at h
        rw [hb]
        simp only [Option.map_some] at h ⊢
        obtain ⟨e1, e2, e3, e4, e5, e6⟩ := bare_fields hvv
        refine ih _ _ _ ?_ ?_ h
        · refine set_bare hv i ?_
          cases v; cases v'
          simp only at e1 e2 e6
          simp [bare, takeSize, e1, e2, e6]
        · simp only [Loop.update, ho]
    | data i bytes =>
      rw [hr] at h
      simp only [applyRec] at h ⊢
      cases ha : la.vars[i]? with
      | none => rw [ha] at h; simp at h
      | some v =>
        obtain ⟨v', hb, hvv⟩ := bare_some hv ha
        rw [ha] at h
        rw [hb]
        simp only [Option.map_some] at h ⊢
        obtain ⟨e1, e2, e3, e4, e5, e6⟩ := bare_fields hvv
        refine ih _ _ _ ?_ ?_ h
        · refine set_bare hv i ?_
          cases v; cases v'
          simp only at e1 e2 e3 e4 e6
          simp [bare, takeData, e1, e2, e3, e4, e6]
        · simp only [Loop.update, ho, e2, e3]

theorem rnext_bare {f : Nat → Byte} {size : Nat} {r r1 : Reader} (h : rnext f size r = .ok r1) :
    ∃ r2, rnext f size { r with vars := r.vars.map bare } = .ok r2 ∧ r2.vars.map bare = r1.vars.map bare := by
  unfold rnext scan at h ⊢
  exact scanLoop_bare f size { r with mark := r.callno + 1, copy := false }
    { r with vars := r.vars.map bare, mark := r.callno + 1, copy := false } rfl (r.callno + 1) (r.maxOffset - r.offset + 1)
    ⟨r.vars, r.offset, false⟩ ⟨r.vars.map bare, r.offset, false⟩ r1 (by rw [List.map_map]; rfl) rfl h

theorem bare_rtable (vs : List RVar) : rtable (vs.map bare) = rtable vs := by
  unfold rtable
  rw [List.map_map]
  rfl

theorem bare_of_rtable {a b : List RVar} (h : a.map bare = b.map bare) : rtable a = rtable b := by
  rw [← bare_rtable a, h, bare_rtable]

theorem rnext_keeps {f : Nat → Byte} {size : Nat} {r r1 : Reader} (h : rnext f size r = .ok r1) :
    r1.mark = r.callno + 1 ∧ Keeps r.callno r.vars r1.vars r1.copy := by
  unfold rnext scan at h
  obtain ⟨_, h2, _, _, h5⟩ := scanLoop_keeps f size _ r.callno (r.callno + 1) _ (by omega) _ _ h
  exact ⟨h2, h5⟩

/-- a variable that has a value after the first record was in the first record -/
theorem first_touched {h : List Ev} {w : Writer} {f : Nat → Byte} {size : Nat} {r0 r1 : Reader}
    (hr : wrun newWriter h = some w) (hok : HistOk h) (h128 : (table w).length ≤ 128) (hf : Holds f size w.out)
    (hrt : rtable r0.vars = table w) (h0 : r0.offset = 0) (hm : r0.maxOffset = w.offset) (hn : 1 ≤ records h)
    (hread : readN f size 1 r0 = some r1) {v : RVar} (hv : v ∈ r1.vars) {d : List Byte}
    (hd : valueAfter (upTo 1 h) v.name = some d) : r1.mark ≤ v.callno := by
  have hx : rnext f size r0 = .ok r1 := by
    rw [readN] at hread
    cases hx : rnext f size r0 with
    | eof x => rw [hx] at hread; simp at hread
    | bad => rw [hx] at hread; simp at hread
    | ok x =>
      rw [hx] at hread
      simp only [readN, Option.some.injEq] at hread
      rw [hread]
  obtain ⟨r2, b1, b2⟩ := rnext_bare hx
  have hread2 : readN f size 1 { r0 with vars := r0.vars.map bare } = some r2 := by
    rw [readN, b1]
    rfl
  have hrt2 : rtable (r0.vars.map bare) = table w := by rw [bare_rtable]; exact hrt
  obtain ⟨i, hi⟩ := List.getElem?_of_mem hv
  obtain ⟨v2, hi2, hvv⟩ := bare_some b2.symm hi
  obtain ⟨e1, e2, _, _, e5, _⟩ := bare_fields hvv
  obtain ⟨x1, _, _, y1, _, _, _, y5, _, _, _, y9, _⟩ := readN_all hr hok h128 hf (r0 := { r0 with vars := r0.vars.map bare })
    hrt2 h0 hm hn
  rw [hread2, Option.some.injEq] at y1
  subst y1
  have hmem : (v.name, v.ty) ∈ rtable (r0.vars.map bare) := by
    rw [hrt2, ← y9]
    exact List.mem_map.2 ⟨v2, List.mem_of_getElem? hi2, by rw [e1, e2]⟩
  obtain ⟨g, _⟩ := getvr_sync y5 (by rw [hrt2]; exact table_nodup hr hok h128) (y9.trans hrt2.symm) hmem hd
  have hloc := rlocvar_at r2.vars v.name i v2 (by rw [y9]; exact table_nodup hr hok h128) hi2 e1
  unfold getvr at g
  rw [hloc] at g
  have hbuf : v2.buf ≠ none := by
    intro hc
    simp only [hc] at g
    simp at g
  obtain ⟨k1, _⟩ := rnext_keeps hx
  obtain ⟨_, k2⟩ := rnext_keeps b1
  have hil : i < (r0.vars.map bare).length := by
    have := (List.getElem?_eq_some_iff.1 hi2).1
    rw [k2.len] at this
    exact this
  obtain ⟨v3, q1, _, _, _, _, q5⟩ := k2.var i _ (List.getElem?_eq_getElem hil)
  rw [hi2, Option.some.injEq] at q1
  subst q1
  rcases q5 with q5 | ⟨q5, _⟩
  · exact absurd (by rw [q5, List.getElem_map]; rfl) hbuf
  · rw [k1, ← e5]
    exact q5

/-! ## Records as a list -/

theorem reads_of {f : Nat → Byte} {size nsize : Nat} (N : Nat) : ∀ {S R R' : VisR} {outs : List Out},
    uvreadN f size nsize N S = some (R, outs) → uvread f size nsize R = .eof R' →
    ∃ l, Reads f size nsize S l ∧ l.map (·.2) = outs ∧
      ∀ (j : Nat) (Sj : VisR) (out : Out), l[j]? = some (Sj, out) → uvreadN f size nsize (j + 1) S = some (Sj, outs.take (j + 1)) := by
  induction N with
  | zero =>
    intro S R R' outs h he
    simp only [uvreadN, Option.some.injEq, Prod.mk.injEq] at h
    obtain ⟨rfl, rfl⟩ := h
    exact ⟨[], .done he, rfl, by simp⟩
  | succ N ih =>
    intro S R R' outs h he
    rw [uvreadN] at h
    cases hu : uvread f size nsize S with
    | eof x => rw [hu] at h; simp at h
    | bad => rw [hu] at h; simp at h
    | ok S1 out =>
      rw [hu] at h
      simp only at h
      cases hn : uvreadN f size nsize N S1 with
      | none => rw [hn] at h; simp at h
      | some x =>
        rw [hn] at h
        simp only [Option.map_some, Option.some.injEq, Prod.mk.injEq] at h
        obtain ⟨h1, h2⟩ := h
        obtain ⟨l, g1, g2, g3⟩ := ih (S := S1) (R := R) (outs := x.2) (by rw [hn, ← h1]) he
        refine ⟨(S1, out) :: l, .more hu g1, by rw [← h2, List.map_cons, g2], ?_⟩
        intro j Sj o hj
        cases j with
        | zero =>
          simp only [List.getElem?_cons_zero, Option.some.injEq, Prod.mk.injEq] at hj
          obtain ⟨rfl, rfl⟩ := hj
          rw [uvreadN, hu]
          simp only [uvreadN, Option.map_some, ← h2, List.take_succ_cons, List.take_zero]
        | succ j =>
          rw [List.getElem?_cons_succ] at hj
          have := g3 j Sj o hj
          rw [uvreadN, hu]
          simp only [this, Option.map_some, ← h2, List.take_succ_cons]

/-! ## The source -/

/-- laws for baseline numbers: an integer up to 2^24 is exact in a `float`, and no other number is equal to it -/
structure BlLaws (bl : BlOps) (o : FpOps) : Prop where
  val : ∀ n, n < 2 ^ 24 → bl.val (bl.bits n) = n
  exact : ∀ a n, 0 < n → n < 2 ^ 24 → SameF o a (bl.bits n) → a = bl.bits n

/-- a data set of `n` channels that was written with aipy -/
structure Archive (E : Env) (o : FpOps) (q : Quant) (junk : Nat → Nat) (mode : Ty) (bs : List Block) (W : VisW) (n : Nat) :
    Prop where
  wr : Written o q junk mode bs W
  chans : ∀ b ∈ bs, b.vis.flags.length = n
  size : n ≤ MAXCHAN
  nchan : ∀ b ∈ bs, ∀ p ∈ b.users, p.name = nmNchan → p.data = be32 n
  corr : ∀ b ∈ bs, ∀ p ∈ b.users, p.name ≠ nmCorr
  bls : ∀ b ∈ bs, ∃ i j, i ≤ 2046 ∧ j ≤ 2046 ∧ b.vis.bl = E.bl.bits (Codes.mkbl i j)
  types : ∀ x ∈ table W.w, ∀ ty, (x.1, ty) ∈ std → x.2 = ty
  few : (table W.w).length ≤ 122

theorem mkvar_short {w w1 : Writer} {name : Name} {ty : Ty} {i : Nat} (h : mkvar w name ty = some (w1, i))
    (hs : ∀ x ∈ table w, x.1.length ≤ MAXNAM) : ∀ x ∈ table w1, x.1.length ≤ MAXNAM := by
  unfold mkvar at h
  cases hl : locvar w.vars name with
  | some k =>
    rw [hl] at h
    simp only [Option.some.injEq, Prod.mk.injEq] at h
    rw [← h.1]
    exact hs
  | none =>
    rw [hl] at h
    simp only at h
    by_cases h1 : MAXNAM < name.length
    · rw [if_pos h1] at h; simp at h
    · rw [if_neg h1] at h
      by_cases h2 : MAXVAR ≤ w.vars.length
      · rw [if_pos h2] at h; simp at h
      · rw [if_neg h2, Option.some.injEq, Prod.mk.injEq] at h
        rw [← h.1]
        intro x hx
        simp only [table, List.map_append, List.map_cons, List.map_nil, List.mem_append, List.mem_singleton] at hx
        rcases hx with hx | rfl
        · exact hs x hx
        · show name.length ≤ MAXNAM
          omega

theorem wstep_short {w w' : Writer} {e : Ev} (h : wstep w e = some w') (hs : ∀ x ∈ table w, x.1.length ≤ MAXNAM) :
    ∀ x ∈ table w', x.1.length ≤ MAXNAM := by
  have hset : ∀ (w1 : Writer) (i : Nat) (v v' : WVar) (w2 : Writer), w1.vars[i]? = some v → v'.name = v.name →
      w2.vars = w1.vars.set i v' → (∀ x ∈ table w1, x.1.length ≤ MAXNAM) → ∀ x ∈ table w2, x.1.length ≤ MAXNAM := by
    intro w1 i v v' w2 hv hn h2 hs x hx
    obtain ⟨u, hu, rfl⟩ := List.mem_map.1 hx
    rw [h2] at hu
    rcases List.mem_or_eq_of_mem_set hu with hu | rfl
    · exact hs _ (List.mem_map.2 ⟨u, hu, rfl⟩)
    · show u.name.length ≤ MAXNAM
      rw [hn]
      exact hs _ (List.mem_map.2 ⟨v, List.mem_of_getElem? hv, rfl⟩)
  cases e with
  | next =>
    simp only [wstep, Option.some.injEq] at h
    subst h
    exact hs
  | reopen =>
    simp only [wstep, Option.some.injEq] at h
    subst h
    unfold table at hs ⊢
    simpa [reopen, List.map_map, Function.comp_def] using hs
  | noCheck name ty =>
    simp only [wstep, noCheck] at h
    cases hm : mkvar w name ty with
    | none => rw [hm] at h; simp at h
    | some p =>
      obtain ⟨w1, i⟩ := p
      rw [hm] at h
      simp only at h
      cases hv : w1.vars[i]? with
      | none => rw [hv] at h; simp at h
      | some v =>
        rw [hv] at h
        simp only [Option.some.injEq] at h
        subst h
        exact hset w1 i v { v with nocheck := true } _ hv rfl rfl (mkvar_short hm hs)
  | put name ty d =>
    simp only [wstep, put] at h
    by_cases h0 : d.length / ty.mem = 0
    · rw [if_pos h0, Option.some.injEq] at h
      subst h
      exact hs
    · rw [if_neg h0] at h
      cases hm : mkvar w name ty with
      | none => rw [hm] at h; simp at h
      | some p =>
        obtain ⟨w1, i⟩ := p
        rw [hm] at h
        simp only at h
        cases hv : w1.vars[i]? with
        | none => rw [hv] at h; simp at h
        | some v =>
          rw [hv] at h
          simp only at h
          by_cases ht : v.ty ≠ ty
          · rw [if_pos ht] at h; simp at h
          · rw [if_neg ht, Option.some.injEq] at h
            subst h
            have h1 : (putVar w1 i v d (d.length / ty.mem)).2.name = v.name ∧
                (putVar w1 i v d (d.length / ty.mem)).1.vars = w1.vars := by
              unfold putVar
              by_cases c1 : v.length ≠ v.ty.ext * (d.length / ty.mem)
              · simp only [c1, ne_eq, not_false_eq_true, if_true, true_or]
                exact ⟨rfl, rfl⟩
              · simp only [c1, if_false, false_or]
                split <;> exact ⟨rfl, rfl⟩
            exact hset w1 i v _ _ hv h1.1 (by show (List.set _ i _) = _; rw [h1.2]) (mkvar_short hm hs)

theorem wrun_short {h : List Ev} : ∀ {w w' : Writer}, wrun w h = some w' → (∀ x ∈ table w, x.1.length ≤ MAXNAM) →
    ∀ x ∈ table w', x.1.length ≤ MAXNAM := by
  induction h with
  | nil =>
    intro w w' hr hs
    simp only [wrun, Option.some.injEq] at hr
    subst hr
    exact hs
  | cons e es ih =>
    intro w w' hr hs
    simp only [wrun] at hr
    cases h1 : wstep w e with
    | none => rw [h1] at hr; simp at hr
    | some w1 =>
      rw [h1] at hr
      exact ih hr (wstep_short h1 hs)

/-! ## `nchan` -/

theorem open_numchan {mode : Ty} {s : VisW} (h : openVis mode = some s) : numchan s.w = 0 := by
  rw [openVis_some, Option.some.injEq] at h
  subst h
  simp [numchan]

theorem numchan_users {s : VisW} {ps : List User} {s1 : VisW} (h : assignAll s ps = some s1) (hp : ∀ p ∈ ps, p.name ≠ nmCorr) :
    numchan s1.w = numchan s.w := by
  unfold assignAll at h
  cases hw : wrun s.w (ps.map User.ev) with
  | none => rw [hw] at h; simp at h
  | some w =>
    rw [hw] at h
    simp only [Option.map_some, Option.some.injEq] at h
    subst h
    have := wrun_find hw nmCorr (by
      intro e he ty d
      obtain ⟨p, hpp, rfl⟩ := List.mem_map.1 he
      refine ⟨by simp [User.ev], fun hc => ?_⟩
      simp only [User.ev, Ev.put.injEq] at hc
      exact absurd hc.1 (hp p hpp)) (users_open ps)
    show numchan w = numchan s.w
    unfold numchan
    rw [this]

theorem users_nchan {ps : List User} {n : Nat} (h : ∀ p ∈ ps, p.name = nmNchan → p.data = be32 n)
    {acc : Option (List Byte)} (ha : acc = some (be32 n)) :
    (ps.map User.ev).foldl (assign nmNchan) acc = some (be32 n) := by
  rw [lastGiven_fold, ha]
  cases hl : lastGiven ps nmNchan with
  | none => rfl
  | some d =>
    have : d = be32 n := by
      clear ha
      induction ps with
      | nil => simp [lastGiven] at hl
      | cons p ps ih =>
        rw [lastGiven] at hl
        cases hr : lastGiven ps nmNchan with
        | some d' =>
          rw [hr] at hl
          simp only [Option.some.injEq] at hl
          exact ih (fun p' hp' => h p' (List.mem_cons_of_mem _ hp')) (by rw [hr, hl])
        | none =>
          rw [hr] at hl
          simp only at hl
          split at hl
          · rename_i hc
            rw [Option.some.injEq] at hl
            rw [← hl]
            exact h p List.mem_cons_self hc.1
          · simp at hl
    rw [this]
    rfl

theorem nchan_blocks {o q junk mode} {n : Nat} (hn : 0 < n) {bs : List Block} (hc : ∀ b ∈ bs, b.vis.flags.length = n)
    (hu : ∀ b ∈ bs, ∀ p ∈ b.users, p.name = nmNchan → p.data = be32 n) (hcorr : ∀ b ∈ bs, ∀ p ∈ b.users, p.name ≠ nmCorr) :
    ∀ {s s2 : VisW}, (numchan s.w = 0 ∨ valueAfter s.evs nmNchan = some (be32 n)) →
      writeBlocks o q junk mode s bs = some s2 → bs ≠ [] → valueAfter s2.evs nmNchan = some (be32 n) := by
  have one : ∀ {b : Block} {s s2 : VisW}, b.vis.flags.length = n → (∀ p ∈ b.users, p.name = nmNchan → p.data = be32 n) →
      (∀ p ∈ b.users, p.name ≠ nmCorr) → (numchan s.w = 0 ∨ valueAfter s.evs nmNchan = some (be32 n)) →
      writeBlock o q junk mode s b = some s2 → valueAfter s2.evs nmNchan = some (be32 n) := by
    intro b s s2 hc hu hcorr hs h
    obtain ⟨s1, ha, _, _, _, _, _, _, _, _, _, e8⟩ := writeBlock_some h
    unfold valueAfter
    rw [e8, List.foldl_append, List.foldl_append]
    unfold callEvs
    rw [vis_nchan, hc]
    rcases hs with hs | hs
    · rw [numchan_users ha hcorr, hs, if_pos (by omega)]
    · split
      · rfl
      · exact users_nchan hu hs
  induction bs with
  | nil => intro s s2 _ _ hne; exact absurd rfl hne
  | cons b bs ih =>
    intro s s2 hs h _
    simp only [writeBlocks] at h
    cases h1 : writeBlock o q junk mode s b with
    | none => rw [h1] at h; simp at h
    | some s1 =>
      rw [h1] at h
      simp only [Option.bind_some] at h
      have g := one (hc b List.mem_cons_self) (hu b List.mem_cons_self) (hcorr b List.mem_cons_self) hs h1
      cases bs with
      | nil =>
        simp only [writeBlocks, Option.some.injEq] at h
        rw [← h]
        exact g
      | cons b' bs =>
        exact ih (fun x hx => hc x (List.mem_cons_of_mem _ hx)) (fun x hx => hu x (List.mem_cons_of_mem _ hx))
          (fun x hx => hcorr x (List.mem_cons_of_mem _ hx)) (Or.inr g) h (by simp)

/-! ## Opening the source -/

theorem rlocvar_map (g : RVar → RVar) (hg : ∀ v, (g v).name = v.name) (vs : List RVar) (nm : Name) :
    rlocvar (vs.map g) nm = (rlocvar vs nm).map g := by
  unfold rlocvar
  rw [List.find?_map]
  congr 1
  apply congrArg (fun p => List.find? p vs)
  funext v
  simp only [Function.comp, hg]

theorem rewind_getvr (r : Reader) (nm : Name) (ty : Ty) : getvr (rewind r) nm ty = getvr r nm ty := by
  unfold getvr rewind
  simp only
  rw [rlocvar_map (fun v => { v with callno := 0 }) (fun _ => rfl)]
  cases rlocvar r.vars nm with
  | none => rfl
  | some v => rfl

theorem rewind_probe (r : Reader) (nm : Name) : (probe (rewind r) nm).map (fun p => (p.1, p.2.1)) =
    (probe r nm).map (fun p => (p.1, p.2.1)) := by
  unfold probe rewind
  simp only
  rw [rlocvar_map (fun v => { v with callno := 0 }) (fun _ => rfl)]
  cases rlocvar r.vars nm with
  | none => rfl
  | some v => rfl

theorem rewind_rtable (r : Reader) : rtable (rewind r).vars = rtable r.vars := by
  unfold rtable rewind
  simp only [List.map_map]
  rfl

theorem valueAfter_grows {a b : List Ev} {nm : Name} (h : valueAfter a nm ≠ none) : valueAfter (a ++ b) nm ≠ none := by
  unfold valueAfter at h ⊢
  rw [List.foldl_append]
  have key : ∀ (b : List Ev) (acc : Option (List Byte)), acc ≠ none → b.foldl (assign nm) acc ≠ none := by
    intro b
    induction b with
    | nil => intro acc h; exact h
    | cons e b ih =>
      intro acc h
      rw [List.foldl_cons]
      apply ih
      cases e with
      | next => exact h
      | noCheck => exact h
      | reopen => exact h
      | put n ty d =>
        rw [assign_put]
        split
        · simp
        · exact h
  exact key b _ h

/-- what the variables of the preamble hold after a visibility -/
theorem written_held {o q junk mode} {bs : List Block} {W : VisW} (hw : Written o q junk mode bs W) {s0 sk : VisW} {k : Nat}
    (h0 : openVis mode = some s0) (hk : k < bs.length)
    (h : writeBlocks o q junk mode s0 (bs.take (k + 1)) = some sk) : ∃ c, Held o q mode sk bs[k].vis c := by
  rw [List.take_succ_eq_append_getElem hk, writeBlocks_append] at h
  cases h1 : writeBlocks o q junk mode s0 (bs.take k) with
  | none => rw [h1] at h; simp at h
  | some s1 =>
    rw [h1] at h
    simp only [Option.bind_some, writeBlocks] at h
    cases h2 : writeBlock o q junk mode s1 bs[k] with
    | none => rw [h2] at h; simp at h
    | some s2 =>
      rw [h2] at h
      simp only [Option.bind_some, Option.some.injEq] at h
      subst h
      have htk : ∀ x ∈ bs.take k, BlockOk x := fun x hx => hw.blocks x (List.mem_of_mem_take hx)
      refine block_held hw.laws hw.quant (hw.blocks _ (List.getElem_mem hk)) ?_ h2
      refine ready_blocks hw.laws hw.quant h0 ?_ htk h1
      intro b hb
      apply hw.fresh
      rw [← hb, ← List.take_succ_eq_append_getElem hk]
      cases bs with
      | nil => simp at hk
      | cons x xs => rfl

/-- the values that are read with a visibility -/
theorem written_get {o q junk mode} {bs : List Block} {W : VisW} (hw : Written o q junk mode bs W) {f : Nat → Byte}
    {size : Nat} (hf : Holds f size W.w.out) {r0 R : Reader} (hr0 : AtStart W r0) {k : Nat}
    (hread : readN f size (k + 1) r0 = some R) {sk : VisW} (hup : upTo (k + 1) W.evs = sk.evs)
    (hrec : k + 1 ≤ records W.evs) (hsub : ∀ e ∈ sk.evs, e ∈ W.evs) (hrun : wrun newWriter W.evs = some W.w)
    (hok : HistOk W.evs) {nm : Name} {d : List Byte} (hv : valueAfter sk.evs nm = some d) :
    ∃ ty, (nm, ty) ∈ table W.w ∧ d.length % ty.mem = 0 ∧ d.length < 2 ^ 31 ∧ getvr R nm ty = some d ∧
      ∃ upd, probe R nm = some (ty, d.length / ty.mem, upd) := by
  obtain ⟨ty, hput, hne⟩ := valueAfter_mem _ _ _ hv
  have hput' := hsub _ hput
  obtain ⟨g1, g2⟩ := getvr_assigned hrun hok hw.vars hf hr0.vars hr0.offset hr0.maxOffset hrec hread hput' hne
    (by rw [hup]; exact hv)
  obtain ⟨e1, e2, _⟩ := hok _ hput'
  exact ⟨ty, put_in_table hrun hok hput' hne, e1, e2, g1, g2⟩

theorem mkbl_range (i j : Nat) (hi : i ≤ 2046) (hj : j ≤ 2046) : 0 < Codes.mkbl i j ∧ Codes.mkbl i j < 2 ^ 24 := by
  rw [Codes.mkbl_eq i j hi hj]
  split <;> omega

theorem bmod_small (n : Nat) (hn : n < 2 ^ 31) : signed32 n = n := by
  unfold signed32
  rw [Int.bmod_def]
  omega

theorem decode_int (fo : FloatOps) (junk : Nat → Nat) (n : Nat) (hn : n < 2 ^ 31) :
    decode fo junk 'i' (be32 n) = some (.int (n : Int)) := by
  have h32 : n < 2 ^ 32 := by omega
  have e : decode fo junk 'i' (be32 n) =
      some (unwrap (fun w => .int (signed32 w)) (fun l => .ints (l.map signed32)) (words (be32 n))) := rfl
  rw [e, words_one n h32]
  show some (PyVal.int (signed32 n)) = _
  rw [bmod_small n hn]

theorem rdvr_int {fo : FloatOps} {junk : Nat → Nat} {r : Reader} {nm : Name} {n : Nat} (hn : n < 2 ^ 31)
    (hg : getvr r nm .int = some (be32 n)) {upd : Bool} (hp : probe r nm = some (.int, 1, upd)) :
    rdvr fo junk r nm 'i' = some (.int (n : Int)) := by
  unfold rdvr
  simp only [tyOf, hg, hp]
  rw [if_neg (by decide), Option.bind_some, decode_int fo junk n hn]

/-- a reader at the beginning of a data set: `UV(filename)` leaves it so, and `uvrewind_c` -/
structure Begun (W : VisW) (S : VisR) : Prop where
  start : AtStart W S.r
  flagOff : S.flagOff = 0
  flags : FlagFile W S.m
  good : AllGood S.r.vars
  plain : ∀ v ∈ S.r.vars, v.copy = false
  calls : S.r.callno = 0
  called : ∀ v ∈ S.r.vars, v.callno = 0

/-- a data set written with aipy is a source for a reader at its beginning -/
theorem source_at {E : Env} {o : FpOps} {q : Quant} {junk : Nat → Nat} {mode : Ty} {bs : List Block} {W : VisW}
    {n : Nat} (ha : Archive E o q junk mode bs W n) (hne : bs ≠ []) (hbl : BlLaws E.bl o)
    (hun : ∀ t ints, (E.unscale t ints).length = ints.length) {f : Nat → Byte} {size : Nat} (hf : Holds f size W.w.out)
    {S : VisR} (hb : Begun W S) {over : List (Name × PyVal)} {excl : List Name}
    {us : List User} {ks : List Name} (hinit : initFrom E S.r over excl S.r.vars = some (us, ks))
    (hok : ∀ u ∈ us, EvOk u.ev) (hks : ∀ nm ∈ ks, valueAfter (upTo 1 W.evs) nm ≠ none)
    (own : ∀ x ∈ std, x.1 ≠ nmTscale → x.1 ∉ excl ∧ over.find? (fun p => p.1 = x.1) = none) :
    ∃ l, Source E f size n over excl us ks S l ∧ l.length = bs.length ∧
      ∀ (j : Nat) (Sj : VisR) (out : Out) (b : Block), l[j]? = some (Sj, out) → bs[j]? = some b →
        Matches o q mode out b.vis ∧ readN f size (j + 1) (track S.r ks) = some Sj.r ∧
        ∀ nm ty d, (nm, ty) ∈ table W.w → valueAfter (upTo (j + 1) W.evs) nm = some d → getvr Sj.r nm ty = some d := by
  have hw := ha.wr
  have hnn : ∀ b ∈ bs, b.vis.flags.length ≤ n := fun b hb => by rw [ha.chans b hb]; exact Nat.le_refl _
  have hpos : 0 < bs.length := List.length_pos_iff.2 hne
  have hn0 : 0 < n := by
    rw [← ha.chans _ (List.getElem_mem hpos)]
    exact (hw.blocks _ (List.getElem_mem hpos)).vis.one
  have htabS : rtable S.r.vars = table W.w := hb.start.vars
  have hint : ∀ {ty : Ty}, (nmNchan, ty) ∈ table W.w → ty = .int := fun h => ha.types _ h .int (by simp [std])
  have hstart : AtStart W (track S.r ks) := ⟨by rw [track_table]; exact htabS, hb.start.offset, hb.start.maxOffset⟩
  have hgood := hb.good
  have hplain := hb.plain
  have hS : (⟨track S.r ks, 0, S.m⟩ : VisR) = { S with r := track S.r ks } := by
    obtain ⟨r, fo, m⟩ := S
    have := hb.flagOff
    simp only at this
    subst this
    rfl
  -- values
  have values : ∀ (k : Nat) (hk : k < bs.length) {r0 R : Reader}, AtStart W r0 → readN f size (k + 1) r0 = some R →
      ∃ sk c, Held o q mode sk bs[k].vis c ∧ valueAfter sk.evs nmNchan = some (be32 n) ∧
        upTo (k + 1) W.evs = sk.evs ∧ ∀ {nm d}, valueAfter sk.evs nm = some d →
          ∃ ty, (nm, ty) ∈ table W.w ∧ d.length % ty.mem = 0 ∧ d.length < 2 ^ 31 ∧ getvr R nm ty = some d ∧
            ∃ upd, probe R nm = some (ty, d.length / ty.mem, upd) := by
    intro k hk r0 R hr0 hread
    obtain ⟨s0, sk, u1, u2, u3, u4, u5, u6, u7⟩ := written_upTo hw k hk
    obtain ⟨c, hc⟩ := written_held hw u1 hk u2
    have hmem : ∀ b ∈ bs.take (k + 1), b ∈ bs := fun b hb => List.mem_of_mem_take hb
    refine ⟨sk, c, hc, ?_, u3, fun hv => written_get hw hf hr0 hread u3 u4 u5 u6 u7 hv⟩
    refine nchan_blocks hn0 (fun b hb => ha.chans b (hmem b hb)) (fun b hb => ha.nchan b (hmem b hb))
      (fun b hb => ha.corr b (hmem b hb)) (Or.inl (open_numchan u1)) u2 ?_
    intro hc
    have := congrArg List.length hc
    rw [List.length_take, List.length_nil] at this
    omega
  have hhist : wrun newWriter W.evs = some W.w ∧ HistOk W.evs ∧ 1 ≤ records W.evs := by
    obtain ⟨s0, sk, u1, u2, u3, u4, u5, u6, u7⟩ := written_upTo hw 0 hpos
    exact ⟨u6, u7, u4⟩
  obtain ⟨hrun, hhok, hrec1⟩ := hhist
  obtain ⟨R, outs, g1, g2, g3, R', g4⟩ := c48_records hw hf hnn hstart hb.flags
  rw [hS] at g1
  obtain ⟨l, l1, l2, l3⟩ := reads_of _ g1 g4
  have hlen : l.length = bs.length := by
    rw [← g2, ← l2, List.length_map]
  have hnames : (S.r.vars.map (·.name)).Nodup := by
    rw [← rtable_names, htabS]
    exact table_nodup hrun hhok hw.vars
  -- a state on the way
  have hstate : ∀ (j : Nat) (Sj : VisR) (out : Out), l[j]? = some (Sj, out) → ∃ hj : j < bs.length,
      readN f size (j + 1) (track S.r ks) = some Sj.r ∧ Matches o q mode out bs[j].vis := by
    intro j Sj out hj
    have hjl : j < bs.length := by
      rw [← hlen]; exact (List.getElem?_eq_some_iff.1 hj).1
    obtain ⟨R2, outs2, k1, k2, _⟩ := reads_k hw hf hnn hstart hb.flags (j + 1) hjl
    have := l3 j Sj out hj
    rw [hS] at k1
    rw [k1, Option.some.injEq, Prod.mk.injEq] at this
    rw [this.1] at k2
    refine ⟨hjl, k2, g3 j out _ ?_ (List.getElem?_eq_getElem hjl)⟩
    rw [← l2, List.getElem?_map, hj]
    rfl
  have hcopyAll : ∀ (j : Nat) (Sj : VisR) (out : Out), l[j]? = some (Sj, out) → ∀ v ∈ Sj.r.vars, v.copy = true →
      v.name ∈ ks := by
    have key : ∀ {S0 : VisR} {l : List (VisR × Out)}, Reads f size n S0 l →
        (∀ v ∈ S0.r.vars, v.copy = true → v.name ∈ ks) → ∀ x ∈ l, ∀ v ∈ x.1.r.vars, v.copy = true → v.name ∈ ks := by
      intro S0 l hr
      induction hr with
      | done _ => intro _ x hx; simp at hx
      | @more S S1 out l h hr ih =>
        intro h0
        have h1 : ∀ v ∈ S1.r.vars, v.copy = true → v.name ∈ ks := by
          intro v hv hc
          obtain ⟨u, hu, e1, _, e3, _⟩ := keeps_back (uvread_keeps h).2.2 hv
          rw [e1]
          exact h0 u hu (by rw [← e3]; exact hc)
        intro x hx
        rcases List.mem_cons.1 hx with rfl | hx
        · exact h1
        · exact ih h1 x hx
    intro j Sj out hj
    refine key l1 ?_ _ (List.mem_of_getElem? hj)
    intro v' hv' hc
    obtain ⟨v, hv, e1, _, _, e4⟩ := track_name hv'
    rw [e4, hplain v hv, Bool.false_or, decide_eq_true_eq] at hc
    rw [e1]
    exact hc
  refine ⟨l, ⟨⟨hinit, hok, l1.chain, ?_, ?_, hgood, hnames, ?_, ?_, ?_, hplain, own, ?_⟩, l1⟩, hlen, ?_⟩
  · -- the records
    rintro ⟨Sj, out⟩ hx
    obtain ⟨j, hj⟩ := List.getElem?_of_mem hx
    obtain ⟨hjl, hread, hmat⟩ := hstate j Sj out hj
    obtain ⟨sk, c, held, nch, up, get⟩ := values j hjl hstart hread
    have hb := hw.blocks _ (List.getElem_mem hjl)
    have htl : ∀ b ∈ bs, b.vis.data.length = 8 * n := fun b hb => by
      rw [(hw.blocks b hb).vis.data, ha.chans b hb]
    refine ⟨?_, ?_, ?_, ?_, ?_, ?_, ?_, ?_⟩
    · obtain ⟨x, y, z, _, _, _, hv, _⟩ := held.coord
      obtain ⟨ty, t1, _, _, t2, _⟩ := get hv
      have := ha.types _ t1 .dble (by simp [std])
      subst this
      exact ⟨_, t2, by simp [be64_length]⟩
    · obtain ⟨t, _, hv, _⟩ := held.time
      obtain ⟨ty, t1, _, _, t2, _⟩ := get hv
      have := ha.types _ t1 .dble (by simp [std])
      subst this
      exact ⟨_, t2, be64_length _⟩
    · obtain ⟨b, _, hv, _⟩ := held.bl
      obtain ⟨ty, t1, _, _, t2, _⟩ := get hv
      have := ha.types _ t1 .real (by simp [std])
      subst this
      exact ⟨_, t2, be32_length _⟩
    · obtain ⟨ty, t1, _, _, t2, _⟩ := get nch
      have := hint t1
      subst this
      exact t2
    · rw [hmat.flags]
      exact ha.chans _ (List.getElem_mem hjl)
    · rw [hmat.data]
      unfold dataOf
      split
      · show (E.unscale _ _).length = _
        rw [hun, hw.quant.len _ (by rw [htl _ (List.getElem_mem hjl)]; omega), htl _ (List.getElem_mem hjl)]
      · exact htl _ (List.getElem_mem hjl)
    · obtain ⟨i, k, hi, hk, e⟩ := ha.bls _ (List.getElem_mem hjl)
      obtain ⟨r1, r2⟩ := mkbl_range i k hi hk
      have hob : out.bl = E.bl.bits (Codes.mkbl i k) := hbl.exact _ _ r1 r2 (by rw [← e]; exact hmat.bl)
      obtain ⟨c1, c2⟩ := Codes.c03_file_roundtrip i k hi hk
      rw [hob, hbl.val _ r2, c1, c2]
      rfl
    · intro v hv hc hi2
      have hv1 := hks _ (hcopyAll j Sj out hj v hv hc)
      have hvj : valueAfter sk.evs v.name ≠ none := by
        rw [← up]
        obtain ⟨s0', sk', u1', u2', u3', _⟩ := written_upTo hw j hjl
        obtain ⟨s0, s1', v1, v2, v3, _⟩ := written_upTo hw 0 hpos
        rw [u1', Option.some.injEq] at v1
        subst v1
        have : bs.take (j + 1) = bs.take 1 ++ (bs.take (j + 1)).drop 1 := by
          conv => lhs; rw [← List.take_append_drop 1 (bs.take (j + 1))]
          rw [List.take_take, Nat.min_eq_left (by omega)]
        rw [this, writeBlocks_append, v2] at u2'
        simp only [Option.bind_some] at u2'
        obtain ⟨⟨x, hx⟩, _⟩ := blocks_extend u2'
        rw [u3', hx]
        apply valueAfter_grows
        rw [← v3]
        exact hv1
      obtain ⟨d, hd⟩ := Option.ne_none_iff_exists'.1 hvj
      obtain ⟨ty, t1, t2, t3, t4, upd, t5⟩ := get hd
      have hgj : GoodVar v := by
        have key : ∀ {S0 : VisR} {l : List (VisR × Out)}, Reads f size n S0 l → AllGood S0.r.vars →
            ∀ x ∈ l, AllGood x.1.r.vars := by
          intro S0 l hr
          induction hr with
          | done _ => intro _ x hx; simp at hx
          | @more S S1 out l h hr ih =>
            intro h0 x hx
            have h1 := uvread_good h h0
            rcases List.mem_cons.1 hx with rfl | hx
            · exact h1
            · exact ih h1 x hx
        exact key l1 (track_good hgood ks) _ hx v hv
      have hnj : (Sj.r.vars.map (·.name)).Nodup := by
        obtain ⟨r1, _, _, a1, _, _, _, _, _, _, _, a9, _⟩ := readN_all hrun hhok hw.vars hf hstart.vars hstart.offset hstart.maxOffset
          (show j + 1 ≤ records W.evs by
            obtain ⟨_, _, _, _, _, u4, _⟩ := written_upTo hw j hjl
            exact u4)
        rw [hread, Option.some.injEq] at a1
        rw [← rtable_names, a1, a9]
        exact table_nodup hrun hhok hw.vars
      have hloc := rlocvar_mem hnj hv
      unfold probe at t5
      rw [hloc] at t5
      simp only [Option.map_some, Option.some.injEq, Prod.mk.injEq] at t5
      obtain ⟨t6, t7, _⟩ := t5
      have hwh := hgj.whole
      rw [← t6, hi2] at t7 t2
      rw [hi2] at hwh
      simp only [Ty.ext, Ty.mem] at t7 hwh t2
      omega
  · -- the first record
    intro S2 out2 l' hl v hv hvk
    have h0 : l[0]? = some (S2, out2) := by rw [hl]; rfl
    obtain ⟨_, hread, _⟩ := hstate 0 S2 out2 h0
    obtain ⟨d, hd⟩ := Option.ne_none_iff_exists'.1 (hks _ hvk)
    have ht := first_touched hrun hhok hw.vars hf hstart.vars hstart.offset hstart.maxOffset hrec1 hread hv hd
    refine ⟨ht, ?_⟩
    have hu2 : uvread f size n { S with r := track S.r ks } = .ok S2 out2 := by
      rw [hl] at l1
      cases l1 with
      | more h _ => exact h
    obtain ⟨k1, _, k3⟩ := uvread_keeps hu2
    obtain ⟨u, hu', e1, _, e3, _, e5⟩ := keeps_back k3 hv
    rcases e5 with rfl | ⟨_, e5⟩
    · exfalso
      obtain ⟨u0, hu0, hx⟩ := List.mem_map.1 hu'
      have : v.callno = 0 := by
        rw [← hx]
        split
        · exact (hb.called _ hu0 : u0.callno = 0)
        · exact hb.called _ hu0
      have := hb.calls
      have k1 : S2.r.mark = S.r.callno + 1 := k1
      omega
    · apply e5
      obtain ⟨u0, hu0, e7, _, _, e6⟩ := track_name hu'
      rw [e6, ← e7, ← e1]
      simp [hvk]
  · intro v hv
    refine wrun_short hrun (by simp [table, newWriter]) (v.name, v.ty) ?_
    rw [← htabS]
    exact List.mem_map.2 ⟨v, hv, rfl⟩
  · have := congrArg List.length htabS
    simp only [rtable, List.length_map] at this
    show S.r.vars.length ≤ 122
    rw [this]
    have := ha.few
    simpa [table] using this
  · intro v hv ty hx
    refine ha.types (v.name, v.ty) ?_ ty hx
    rw [← htabS]
    exact List.mem_map.2 ⟨v, hv, rfl⟩
  · have := ha.size
    simp only [MAXCHAN] at this
    omega
  · intro j Sj out b hj hb
    obtain ⟨hjl, hread, hmat⟩ := hstate j Sj out hj
    rw [List.getElem?_eq_getElem hjl, Option.some.injEq] at hb
    refine ⟨by rw [← hb]; exact hmat, hread, ?_⟩
    intro nm ty d ht hv
    obtain ⟨sk, c, held, nch, up, get⟩ := values j hjl hstart hread
    rw [up] at hv
    obtain ⟨ty', t1, _, _, t4, _⟩ := get hv
    have : ty' = ty := by
      have hnd := table_nodup hrun hhok hw.vars
      obtain ⟨a, ha', ea⟩ := List.getElem_of_mem t1
      obtain ⟨b', hb', eb⟩ := List.getElem_of_mem ht
      have e1 : ((table W.w).map (·.1))[a]? = some nm := by rw [List.getElem?_map, List.getElem?_eq_getElem ha', ea]; rfl
      have e2 : ((table W.w).map (·.1))[b']? = some nm := by rw [List.getElem?_map, List.getElem?_eq_getElem hb', eb]; rfl
      have := (List.getElem?_inj (List.getElem?_eq_some_iff.1 e1).1 hnd).1 (e1.trans e2.symm)
      subst this
      rw [ea] at eb
      exact (Prod.mk.inj eb).2
    rw [← this]
    exact t4


/-- a data set written with aipy and opened with `UV(filename)` is a source -/
theorem archive_source' {E : Env} {o : FpOps} {q : Quant} {junk : Nat → Nat} {mode : Ty} {bs : List Block} {W : VisW}
    {n : Nat} (ha : Archive E o q junk mode bs W n) (hbl : BlLaws E.bl o)
    (hun : ∀ t ints, (E.unscale t ints).length = ints.length) {f : Nat → Byte} {size : Nat} (hf : Holds f size W.w.out)
    {m : Mask} (hm : FlagFile W m) {S : VisR} {nsize : Nat}
    (hopen : openUv E f size (table W.w) W.w.offset m = some (S, nsize)) {over : List (Name × PyVal)} {excl : List Name}
    {us : List User} {ks : List Name} (hinit : initFrom E S.r over excl S.r.vars = some (us, ks))
    (hok : ∀ u ∈ us, EvOk u.ev)
    (own : ∀ x ∈ std, x.1 ≠ nmTscale → x.1 ∉ excl ∧ over.find? (fun p => p.1 = x.1) = none) :
    nsize = n ∧ (AtStart W (track S.r ks) ∧ S.r.callno = 0 ∧ (∀ v ∈ S.r.vars, v.callno = 0) ∧ S.flagOff = 0 ∧ FlagFile W S.m) ∧
      ∃ l, Source E f size n over excl us ks S l ∧ l.length = bs.length ∧
      ∀ (j : Nat) (Sj : VisR) (out : Out) (b : Block), l[j]? = some (Sj, out) → bs[j]? = some b →
        Matches o q mode out b.vis ∧ readN f size (j + 1) (track S.r ks) = some Sj.r ∧
        ∀ nm ty d, (nm, ty) ∈ table W.w → valueAfter (upTo (j + 1) W.evs) nm = some d → getvr Sj.r nm ty = some d := by
  have hw := ha.wr
  have hnm : ∀ b ∈ bs, b.vis.flags.length ≤ MAXCHAN := fun b hb => by rw [ha.chans b hb]; exact ha.size
  have hnn : ∀ b ∈ bs, b.vis.flags.length ≤ n := fun b hb => by rw [ha.chans b hb]; exact Nat.le_refl _
  -- the first record
  unfold openUv at hopen
  cases hu : uvread f size MAXCHAN ⟨openReader (table W.w) W.w.offset, 0, m⟩ with
  | eof x => rw [hu] at hopen; simp at hopen
  | bad => rw [hu] at hopen; simp at hopen
  | ok S1 out1 =>
    rw [hu] at hopen
    simp only at hopen
    have hpos : 0 < bs.length := by
      apply Nat.pos_of_ne_zero
      intro h0
      obtain ⟨R, outs, g1, _, _, R', g4⟩ := c48_records hw hf hnm (open_atStart W) hm
      rw [h0] at g1
      simp only [uvreadN, Option.some.injEq, Prod.mk.injEq] at g1
      rw [← g1.1, hu] at g4
      simp at g4
    have hn0 : 0 < n := by
      rw [← ha.chans _ (List.getElem_mem hpos)]
      exact (hw.blocks _ (List.getElem_mem hpos)).vis.one
    obtain ⟨R, outs, i1, i2, _, i6, _, _⟩ := reads_k hw hf hnm (open_atStart W) hm 1 hpos
    rw [uvreadN, hu] at i1
    simp only [uvreadN, Option.map_some, Option.some.injEq, Prod.mk.injEq] at i1
    obtain ⟨rfl, _⟩ := i1
    -- values
    have values : ∀ (k : Nat) (hk : k < bs.length) {r0 R : Reader}, AtStart W r0 → readN f size (k + 1) r0 = some R →
        ∃ sk c, Held o q mode sk bs[k].vis c ∧ valueAfter sk.evs nmNchan = some (be32 n) ∧
          upTo (k + 1) W.evs = sk.evs ∧ ∀ {nm d}, valueAfter sk.evs nm = some d →
            ∃ ty, (nm, ty) ∈ table W.w ∧ d.length % ty.mem = 0 ∧ d.length < 2 ^ 31 ∧ getvr R nm ty = some d ∧
              ∃ upd, probe R nm = some (ty, d.length / ty.mem, upd) := by
      intro k hk r0 R hr0 hread
      obtain ⟨s0, sk, u1, u2, u3, u4, u5, u6, u7⟩ := written_upTo hw k hk
      obtain ⟨c, hc⟩ := written_held hw u1 hk u2
      have hmem : ∀ b ∈ bs.take (k + 1), b ∈ bs := fun b hb => List.mem_of_mem_take hb
      refine ⟨sk, c, hc, ?_, u3, fun hv => written_get hw hf hr0 hread u3 u4 u5 u6 u7 hv⟩
      refine nchan_blocks hn0 (fun b hb => ha.chans b (hmem b hb)) (fun b hb => ha.nchan b (hmem b hb))
        (fun b hb => ha.corr b (hmem b hb)) (Or.inl (open_numchan u1)) u2 ?_
      intro hc
      have := congrArg List.length hc
      rw [List.length_take, List.length_nil] at this
      omega
    have hhist : wrun newWriter W.evs = some W.w ∧ HistOk W.evs ∧ 1 ≤ records W.evs := by
      obtain ⟨s0, sk, u1, u2, u3, u4, u5, u6, u7⟩ := written_upTo hw 0 hpos
      exact ⟨u6, u7, u4⟩
    obtain ⟨hrun, hhok, hrec1⟩ := hhist
    have htab1 : rtable S1.r.vars = table W.w := by
      obtain ⟨r1, _, _, a1, _, _, _, _, _, _, _, a9, _⟩ := readN_all hrun hhok hw.vars hf (open_atStart W).vars rfl rfl hrec1
      rw [i2, Option.some.injEq] at a1
      rw [a1]; exact a9
    -- the size of the arrays
    obtain ⟨s1, c1, held1, nch1, up1, get1⟩ := values 0 hpos (open_atStart W) i2
    have hint : ∀ {ty : Ty}, (nmNchan, ty) ∈ table W.w → ty = .int := fun h => ha.types _ h .int (by simp [std])
    have hsize : nchanOf E (rewind S1.r) = some n := by
      obtain ⟨ty, t1, _, _, t2, upd, t3⟩ := get1 nch1
      have := hint t1
      subst this
      have t4 := rewind_probe S1.r nmNchan
      rw [t3] at t4
      rw [← rewind_getvr] at t2
      unfold nchanOf
      cases hl : rlocvar (rewind S1.r).vars nmNchan with
      | none =>
        unfold getvr at t2
        rw [hl] at t2
        simp at t2
      | some v =>
        simp only
        have t5 : ∃ upd', probe (rewind S1.r) nmNchan = some (.int, 1, upd') := by
          cases hp : probe (rewind S1.r) nmNchan with
          | none => rw [hp] at t4; simp at t4
          | some p =>
            rw [hp] at t4
            simp only [Option.map_some, Option.some.injEq, Prod.mk.injEq] at t4
            obtain ⟨p1, p2, p3⟩ := p
            simp only at t4
            rw [t4.1, t4.2, be32_length]
            exact ⟨p3, rfl⟩
        obtain ⟨upd', t5⟩ := t5
        rw [rdvr_int (by have := ha.size; simp only [MAXCHAN] at this; omega) t2 t5]
        simp
    rw [hsize] at hopen
    simp only [Option.map_some, Option.some.injEq, Prod.mk.injEq] at hopen
    obtain ⟨rfl, rfl⟩ := hopen
    -- the reader that is tracked
    have hSr : (rewindVis S1).r = rewind S1.r := rfl
    have htabS : rtable (rewind S1.r).vars = table W.w := by rw [rewind_rtable]; exact htab1
    have hmax1 : S1.r.maxOffset = W.w.offset := by
      obtain ⟨r1, _, _, a1, _, _, _, _, _, a7, _, _, _⟩ := readN_all hrun hhok hw.vars hf (open_atStart W).vars rfl rfl hrec1
      rw [i2, Option.some.injEq] at a1
      rw [a1]; exact a7
    have hstart : AtStart W (track (rewind S1.r) ks) := by
      refine ⟨?_, rfl, hmax1⟩
      rw [track_table]; exact htabS
    have hks : ∀ nm ∈ ks, valueAfter (upTo 1 W.evs) nm ≠ none := by
      intro nm hnm hc
      obtain ⟨_, h2, _⟩ := init_spec hinit
      obtain ⟨v, hv, rfl, _, _, _, d, hd⟩ := h2 nm hnm
      rw [hSr, rewind_getvr] at hd
      obtain ⟨r1, _, _, a1, _, _, _, a5, _, _, _, _, _⟩ := readN_all hrun hhok hw.vars hf (open_atStart W).vars rfl rfl hrec1
      rw [i2, Option.some.injEq] at a1
      subst a1
      rw [getvr_unassigned a5 (by
        intro u hu
        obtain ⟨p, _, rfl⟩ := List.mem_map.1 hu
        rfl) hc] at hd
      simp at hd
    have hgood : AllGood (rewind S1.r).vars := rewind_good (uvread_good hu (open_good _ _))
    have hplain : ∀ v ∈ (rewind S1.r).vars, v.copy = false := by
      intro v hv
      obtain ⟨u, hu', rfl⟩ := List.mem_map.1 hv
      obtain ⟨u0, hu0, _, _, e, _⟩ := keeps_back (uvread_keeps hu).2.2 hu'
      obtain ⟨p, _, rfl⟩ := List.mem_map.1 hu0
      exact e
    have hcalled : ∀ v ∈ (rewindVis S1).r.vars, v.callno = 0 := by
      intro v hv
      obtain ⟨w, _, rfl⟩ := List.mem_map.1 hv
      rfl
    have hbegun : Begun W (rewindVis S1) := ⟨⟨htabS, rfl, hmax1⟩, rfl, i6, hgood, hplain, rfl, hcalled⟩
    exact ⟨rfl, ⟨hstart, rfl, hcalled, rfl, i6⟩, source_at ha (List.length_pos_iff.1 hpos) hbl hun hf hbegun hinit hok hks own⟩

theorem archive_source {E : Env} {o : FpOps} {q : Quant} {junk : Nat → Nat} {mode : Ty} {bs : List Block} {W : VisW}
    {n : Nat} (ha : Archive E o q junk mode bs W n) (hbl : BlLaws E.bl o)
    (hun : ∀ t ints, (E.unscale t ints).length = ints.length) {f : Nat → Byte} {size : Nat} (hf : Holds f size W.w.out)
    {m : Mask} (hm : FlagFile W m) {S : VisR} {nsize : Nat}
    (hopen : openUv E f size (table W.w) W.w.offset m = some (S, nsize)) {over : List (Name × PyVal)} {excl : List Name}
    {us : List User} {ks : List Name} (hinit : initFrom E S.r over excl S.r.vars = some (us, ks))
    (hok : ∀ u ∈ us, EvOk u.ev)
    (own : ∀ x ∈ std, x.1 ≠ nmTscale → x.1 ∉ excl ∧ over.find? (fun p => p.1 = x.1) = none) :
    nsize = n ∧ ∃ l, Source E f size n over excl us ks S l ∧ l.length = bs.length ∧
      ∀ (j : Nat) (Sj : VisR) (out : Out) (b : Block), l[j]? = some (Sj, out) → bs[j]? = some b →
        Matches o q mode out b.vis ∧ ∀ nm ty d, (nm, ty) ∈ table W.w → valueAfter (upTo (j + 1) W.evs) nm = some d →
          getvr Sj.r nm ty = some d := by
  obtain ⟨h1, _, l, h2, h3, h4⟩ := archive_source' ha hbl hun hf hm hopen hinit hok own
  exact ⟨h1, l, h2, h3, fun j Sj out b hj hb => ⟨(h4 j Sj out b hj hb).1, (h4 j Sj out b hj hb).2.2⟩⟩

/-! ## The theorems -/

theorem kept_echo (E : Env) (nsize : Nat) (l : List (VisR × Out)) : ∀ k, kept E nsize echo k l =
    l.map fun x => (x.1, E.show nsize x.2) := by
  induction l with
  | nil => intro k; rfl
  | cons x l ih =>
    intro k
    obtain ⟨S, out⟩ := x
    rw [kept]
    simp only [echo, List.map_cons]
    rw [ih]

theorem polite_echo : Polite echo := by
  refine ⟨?_, ?_, ?_⟩ <;> intro k p p' h <;> simp only [echo, Option.some.injEq] at h <;> subst h <;> simp

theorem echo_same {E : Env} (hmode : E.mode = .real) {nsize : Nat} {S S1 : VisR} {out : Out}
    (h : Step S S1 out) (hr : RecOk E nsize S1 out) {d : List Byte} (hd : out.data = .plain d) :
    recOf E (E.show nsize out) = out := by
  obtain ⟨_, _, _, ⟨_, _, e3, _, e5⟩, _⟩ := pre_bytes (k := 0) polite_echo h hr (rfl : echo 0 (E.show nsize out) = some _)
  obtain ⟨h1, h2⟩ := show_full hr
  unfold recOf
  have hdata : dataOf E.q E.mode (E.vis (E.show nsize out)) = out.data := by
    unfold dataOf
    rw [hmode, if_neg (by decide)]
    show Data.plain (E.show nsize out).data = _
    rw [h1, hd]
    rfl
  rw [hdata, h2, show E.bl.bits (Codes.mkbl (E.show nsize out).i (E.show nsize out).j) = out.bl from e5]
  have e3' : some (E.show nsize out).w = out.w := e3.symm
  rw [e3']
  rfl

/-- **C51**: with the default `mfunc` and data that are not scaled the copy has the records of the source, bit for bit. -/
theorem c51_echo {E : Env} (hl : FpLaws E.o) (hq : QuantOk E.q) (hmode : E.mode = .real)
    {f : Nat → Byte} {size nsize : Nat} {over : List (Name × PyVal)} {excl : List Name} {us : List User} {ks : List Name}
    {S : VisR} {l : List (VisR × Out)} (h : Source E f size nsize over excl us ks S l)
    (hplain : ∀ x ∈ l, ∃ d, x.2.data = .plain d) :
    ∃ W, (∀ fuel, l.length < fuel → pipeFrom E f size nsize echo over excl S fuel = some W) ∧
      ∀ {f' : Nat → Byte} {size' : Nat} {r0 : Reader} {m : Mask}, Holds f' size' W.w.out → AtStart W r0 → FlagFile W m →
        ∃ R R', uvreadN f' size' nsize l.length ⟨r0, 0, m⟩ = some (R, l.map (·.2)) ∧ uvread f' size' nsize R = .eof R' := by
  obtain ⟨W, h1, h2⟩ := c51_copy hl hq (Or.inl hmode) h polite_echo
  refine ⟨W, h1, ?_⟩
  intro f' size' r0 m hf hr0 hm
  obtain ⟨⟨R, outs, R', g1, g2⟩, g3⟩ := h2 hf hr0 hm
  rw [kept_echo, List.length_map] at g1
  have hsrc : ∀ x ∈ l, recOf E (E.show nsize x.2) = x.2 := by
    intro x hx
    obtain ⟨d, hd⟩ := hplain x hx
    obtain ⟨k', S0, out, w1, w2, w3⟩ := kept_from (E := E) (mf := echo) h.chain 0 (x.1, E.show nsize x.2) (by
      rw [kept_echo]; exact List.mem_map.2 ⟨x, hx, rfl⟩)
    have key : ∀ {S : VisR} {l : List (VisR × Out)}, Reads f size nsize S l → ∀ x ∈ l, ∃ S0, uvread f size nsize S0 = .ok x.1 x.2 := by
      intro S l hr
      induction hr with
      | done _ => intro x hx; simp at hx
      | @more S S1 out l h hr ih =>
        intro x hx
        rcases List.mem_cons.1 hx with rfl | hx
        · exact ⟨S, h⟩
        · exact ih x hx
    obtain ⟨S0, hS0⟩ := key h.reads x hx
    exact echo_same hmode (uvread_step hS0) (h.recs x hx) hd
  have houts : outs = l.map (·.2) := by
    have hlen : outs.length = l.length := by
      have key : ∀ (n : Nat) (s R : VisR) (outs : List Out), uvreadN f' size' nsize n s = some (R, outs) → outs.length = n := by
        intro n
        induction n with
        | zero =>
          intro s R outs h
          simp only [uvreadN, Option.some.injEq, Prod.mk.injEq] at h
          rw [← h.2]; rfl
        | succ n ih =>
          intro s R outs h
          obtain ⟨R0, outs0, out, k1, _, rfl⟩ := uvreadN_last h
          rw [List.length_append, ih _ _ _ k1]; rfl
      exact key _ _ _ _ g1
    obtain ⟨l', l1, l2, l3⟩ := reads_of _ g1 g2
    apply List.ext_getElem?
    intro j
    by_cases hj : j < l.length
    · have hK : (kept E nsize echo 0 l)[j]? = some (l[j].1, E.show nsize l[j].2) := by
        rw [kept_echo, List.getElem?_map, List.getElem?_eq_getElem hj]; rfl
      obtain ⟨Rj, outsj, q1, q2, _⟩ := g3 j _ _ hK
      have hjl' : j < l'.length := by
        have := congrArg List.length l2
        rw [List.length_map] at this
        omega
      have q3 := l3 j l'[j].1 l'[j].2 (List.getElem?_eq_getElem hjl')
      rw [q1, Option.some.injEq, Prod.mk.injEq] at q3
      have q4 : (outsj ++ [recOf E (E.show nsize l[j].2)])[j]? = (outs.take (j + 1))[j]? := by
        rw [q3.2]
      rw [List.getElem?_append_right (by omega), q2, Nat.sub_self, List.getElem?_take_of_lt (by omega)] at q4
      rw [← q4, List.getElem?_map, List.getElem?_eq_getElem hj, Option.map_some, hsrc _ (List.getElem_mem hj)]
      rfl
    · rw [List.getElem?_eq_none (by omega), List.getElem?_eq_none (by rw [List.length_map]; omega)]
  rw [houts] at g1
  exact ⟨R, R', g1, g2⟩

/-- **C51**: a data set written with aipy, opened and copied with `init_from_uv` and `pipe`: the copy has the visibilities
that were written, and with each the values that the variables had. -/
theorem c51_lossless {E : Env} {o : FpOps} {q : Quant} {junk : Nat → Nat} {bs : List Block} {W : VisW} {n : Nat}
    (ha : Archive E o q junk .real bs W n) (hmode : E.mode = .real) (hl : FpLaws E.o) (hq : QuantOk E.q)
    (hbl : BlLaws E.bl o) (hun : ∀ t ints, (E.unscale t ints).length = ints.length) {f : Nat → Byte} {size : Nat}
    (hf : Holds f size W.w.out) {m : Mask} (hm : FlagFile W m) {S : VisR} {nsize : Nat}
    (hopen : openUv E f size (table W.w) W.w.offset m = some (S, nsize)) {over : List (Name × PyVal)} {excl : List Name}
    {us : List User} {ks : List Name} (hinit : initFrom E S.r over excl S.r.vars = some (us, ks))
    (hok : ∀ u ∈ us, EvOk u.ev)
    (own : ∀ x ∈ std, x.1 ≠ nmTscale → x.1 ∉ excl ∧ over.find? (fun p => p.1 = x.1) = none) :
    ∃ W', (∀ fuel, bs.length < fuel → pipeFrom E f size nsize echo over excl S fuel = some W') ∧
      ∀ {f' : Nat → Byte} {size' : Nat} {r0 : Reader} {m' : Mask}, Holds f' size' W'.w.out → AtStart W' r0 → FlagFile W' m' →
        (∃ R outs R', uvreadN f' size' nsize bs.length ⟨r0, 0, m'⟩ = some (R, outs) ∧ uvread f' size' nsize R = .eof R') ∧
        ∀ (j : Nat) (b : Block), bs[j]? = some b → ∃ R outs out,
          uvreadN f' size' nsize (j + 1) ⟨r0, 0, m'⟩ = some (R, outs ++ [out]) ∧ outs.length = j ∧
          Matches o q .real out b.vis ∧
          ∀ nm ty d, (nm, ty) ∈ table W.w → Copied .real over excl nm → valueAfter (upTo (j + 1) W.evs) nm = some d →
            getvr R.r nm ty = some d := by
  obtain ⟨rfl, l, hsrc, hlen, hl3⟩ := archive_source ha hbl hun hf hm hopen hinit hok own
  obtain ⟨W', h1, h2⟩ := c51_copy hl hq (Or.inl hmode) hsrc polite_echo
  refine ⟨W', by rw [← hlen]; exact h1, ?_⟩
  intro f' size' r0 m' hf' hr0 hm'
  obtain ⟨g1, g3⟩ := h2 hf' hr0 hm'
  rw [kept_echo, List.length_map, hlen] at g1
  refine ⟨g1, ?_⟩
  intro j b hb
  have hj : j < l.length := by
    rw [hlen]; exact (List.getElem?_eq_some_iff.1 hb).1
  have hlj : l[j]? = some (l[j].1, l[j].2) := List.getElem?_eq_getElem hj
  have hK : (kept E nsize echo 0 l)[j]? = some (l[j].1, E.show nsize l[j].2) := by
    rw [kept_echo, List.getElem?_map, List.getElem?_eq_getElem hj]; rfl
  obtain ⟨R, outs, q1, q2, q3⟩ := g3 j _ _ hK
  obtain ⟨m1, m2⟩ := hl3 j _ _ b hlj hb
  have hsame : recOf E (E.show nsize l[j].2) = l[j].2 := by
    have key : ∀ {S : VisR} {l : List (VisR × Out)}, Reads f size nsize S l → ∀ x ∈ l, ∃ S0, uvread f size nsize S0 = .ok x.1 x.2 := by
      intro S l hr
      induction hr with
      | done _ => intro x hx; simp at hx
      | @more S S1 out l h hr ih =>
        intro x hx
        rcases List.mem_cons.1 hx with rfl | hx
        · exact ⟨S, h⟩
        · exact ih x hx
    obtain ⟨S0, hS0⟩ := key hsrc.reads _ (List.getElem_mem hj)
    exact echo_same hmode (uvread_step hS0) (hsrc.recs _ (List.getElem_mem hj)) (d := b.vis.data) (by rw [m1.data]; rfl)
  rw [hsame] at q1
  refine ⟨R, outs, _, q1, q2, m1, ?_⟩
  intro nm ty d ht hc hv
  have hg := m2 nm ty d ht hv
  obtain ⟨v, hv', rfl, rfl⟩ := getvr_mem_of hg
  rw [q3 v hv' (by rw [hmode]; exact hc), hg]

end Verif.Mir.Uv
