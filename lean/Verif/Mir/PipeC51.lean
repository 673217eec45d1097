import Verif.Mir.PipeInv

/-!
# Property C51 : the theorems about `init_from_uv` and `pipe`
-/
namespace Verif.Mir.Uv

open Verif.Mir.Hio (Byte)
open Verif.Mir.Mask (Mask)

/-! ## `init_from_uv` -/

theorem encode_ty (fo : FloatOps) (t : Ty) (v : PyVal) (ty : Ty) (d : List Byte)
    (h : encode fo (tyChar t) v = some (ty, d)) : ty = t := by
  cases t <;> cases v <;> simp [tyChar, encode] at h <;> exact h.1.symm

theorem tyOf_tyChar (t : Ty) : tyOf (tyChar t) = some t := by cases t <;> rfl

theorem rdvr_getvr {fo : FloatOps} {junk : Nat → Nat} {r : Reader} {nm : Name} {t : Ty} {x : PyVal}
    (h : rdvr fo junk r nm (tyChar t) = some x) : ∃ d, getvr r nm t = some d := by
  unfold rdvr at h
  rw [tyOf_tyChar] at h
  simp only at h
  cases hg : getvr r nm t with
  | some d => exact ⟨d, rfl⟩
  | none =>
    rw [hg] at h
    rw [Option.bind_none, ite_self] at h
    simp at h

theorem init_spec {E : Env} {r : Reader} {over : List (Name × PyVal)} {excl : List Name} {vs : List RVar} :
    ∀ {us : List User} {ks : List Name}, initFrom E r over excl vs = some (us, ks) →
    (∀ u ∈ us, ∃ v ∈ vs, u.name = v.name ∧ u.ty = v.ty ∧ v.name ≠ nmCorr ∧ v.name ∉ excl) ∧
    (∀ k ∈ ks, ∃ v ∈ vs, k = v.name ∧ v.name ≠ nmCorr ∧ v.name ∉ excl ∧ over.find? (fun p => p.1 = v.name) = none ∧
      ∃ d, getvr r v.name v.ty = some d) ∧
    (∀ v ∈ vs, v.name ≠ nmCorr → v.name ∉ excl → over.find? (fun p => p.1 = v.name) = none → v.name ∈ ks) := by
  induction vs with
  | nil =>
    intro us ks h
    simp only [initFrom, Option.some.injEq, Prod.mk.injEq] at h
    obtain ⟨rfl, rfl⟩ := h
    exact ⟨by simp, by simp, by simp⟩
  | cons v vs ih =>
    intro us ks h
    rw [initFrom] at h
    by_cases hx : v.name ∈ excl ∨ v.name = nmCorr
    · rw [if_pos hx] at h
      obtain ⟨h1, h2, h3⟩ := ih h
      refine ⟨?_, ?_, ?_⟩
      · intro u hu
        obtain ⟨w, hw, g⟩ := h1 u hu
        exact ⟨w, List.mem_cons_of_mem _ hw, g⟩
      · intro k hk
        obtain ⟨w, hw, g⟩ := h2 k hk
        exact ⟨w, List.mem_cons_of_mem _ hw, g⟩
      · intro w hw g1 g2 g3
        rcases List.mem_cons.1 hw with rfl | hw
        · rcases hx with hx | hx
          · exact absurd hx g2
          · exact absurd hx g1
        · exact h3 w hw g1 g2 g3
    · rw [if_neg hx] at h
      have hx1 : v.name ∉ excl := fun hc => hx (Or.inl hc)
      have hx2 : v.name ≠ nmCorr := fun hc => hx (Or.inr hc)
      cases ho : over.find? (fun p => p.1 = v.name) with
      | some p =>
        rw [ho] at h
        simp only at h
        cases he : encode E.fo (tyChar v.ty) p.2 with
        | none => rw [he] at h; simp at h
        | some x =>
          obtain ⟨ty, d⟩ := x
          rw [he] at h
          simp only at h
          cases hi : initFrom E r over excl vs with
          | none => rw [hi] at h; simp at h
          | some y =>
            rw [hi] at h
            simp only [Option.map_some, Option.some.injEq, Prod.mk.injEq] at h
            obtain ⟨rfl, rfl⟩ := h
            obtain ⟨h1, h2, h3⟩ := ih (us := y.1) (ks := y.2) hi
            refine ⟨?_, ?_, ?_⟩
            · intro u hu
              rcases List.mem_cons.1 hu with rfl | hu
              · exact ⟨v, List.mem_cons_self, rfl, encode_ty _ _ _ _ _ he, hx2, hx1⟩
              · obtain ⟨w, hw, g⟩ := h1 u hu
                exact ⟨w, List.mem_cons_of_mem _ hw, g⟩
            · intro k hk
              obtain ⟨w, hw, g⟩ := h2 k hk
              exact ⟨w, List.mem_cons_of_mem _ hw, g⟩
            · intro w hw g1 g2 g3
              rcases List.mem_cons.1 hw with rfl | hw
              · rw [ho] at g3; simp at g3
              · exact h3 w hw g1 g2 g3
      | none =>
        rw [ho] at h
        simp only at h
        cases hr : rdvr E.fo E.junk r v.name (tyChar v.ty) with
        | none => rw [hr] at h; simp at h
        | some val =>
          rw [hr] at h
          simp only [Option.bind_some] at h
          cases he : encode E.fo (tyChar v.ty) val with
          | none => rw [he] at h; simp at h
          | some x =>
            obtain ⟨ty, d⟩ := x
            rw [he] at h
            simp only at h
            cases hi : initFrom E r over excl vs with
            | none => rw [hi] at h; simp at h
            | some y =>
              rw [hi] at h
              simp only [Option.map_some, Option.some.injEq, Prod.mk.injEq] at h
              obtain ⟨rfl, rfl⟩ := h
              obtain ⟨h1, h2, h3⟩ := ih (us := y.1) (ks := y.2) hi
              refine ⟨?_, ?_, ?_⟩
              · intro u hu
                rcases List.mem_cons.1 hu with rfl | hu
                · exact ⟨v, List.mem_cons_self, rfl, encode_ty _ _ _ _ _ he, hx2, hx1⟩
                · obtain ⟨w, hw, g⟩ := h1 u hu
                  exact ⟨w, List.mem_cons_of_mem _ hw, g⟩
              · intro k hk
                rcases List.mem_cons.1 hk with rfl | hk
                · exact ⟨v, List.mem_cons_self, rfl, hx2, hx1, ho, rdvr_getvr hr⟩
                · obtain ⟨w, hw, g⟩ := h2 k hk
                  exact ⟨w, List.mem_cons_of_mem _ hw, g⟩
              · intro w hw g1 g2 g3
                rcases List.mem_cons.1 hw with rfl | hw
                · exact List.mem_cons_self
                · exact List.mem_cons_of_mem _ (h3 w hw g1 g2 g3)

/-! ## The scheme of a source -/

/-- the type of a variable in the copy -/
def tyIn (mode : Ty) (vars : List RVar) (n : Name) : Ty :=
  if n = nmCorr then mode
  else match rlocvar vars n with
    | some v => v.ty
    | none => match std.find? (fun x => x.1 = n) with
      | some x => x.2
      | none => .byte

def schemeOf (mode : Ty) (vars : List RVar) (few : vars.length ≤ 122) (short : ∀ v ∈ vars, v.name.length ≤ MAXNAM) :
    Scheme where
  names := vars.map (·.name) ++ [nmCorr, nmCoord, nmTime, nmBl, nmNchan, nmTscale]
  ty := tyIn mode vars
  few := by simp; omega
  short := by
    intro n hn
    rcases List.mem_append.1 hn with hn | hn
    · obtain ⟨v, hv, rfl⟩ := List.mem_map.1 hn
      exact short v hv
    · clear short few
      simp only [List.mem_cons, List.not_mem_nil, or_false] at hn
      rcases hn with rfl | rfl | rfl | rfl | rfl | rfl <;> decide

theorem rlocvar_none {vars : List RVar} {n : Name} (h : rlocvar vars n = none) : ∀ v ∈ vars, v.name ≠ n := by
  intro v hv hc
  have := List.find?_eq_none.1 h v hv
  simp [hc] at this

theorem std_corr : ∀ x ∈ std, x.1 ≠ nmCorr := by decide

theorem scheme_std (mode : Ty) (vars : List RVar) (few : vars.length ≤ 122) (short : ∀ v ∈ vars, v.name.length ≤ MAXNAM)
    (types : ∀ v ∈ vars, ∀ ty, (v.name, ty) ∈ std → v.ty = ty) : KnowsStd (schemeOf mode vars few short) mode := by
  refine ⟨⟨by simp [schemeOf], by simp [schemeOf, tyIn]⟩, ?_⟩
  intro x hx
  have hne : x.1 ≠ nmCorr := std_corr x hx
  refine ⟨?_, ?_⟩
  · refine List.mem_append_right _ ?_
    revert x
    decide
  · show tyIn mode vars x.1 = x.2
    unfold tyIn
    rw [if_neg hne]
    cases hl : rlocvar vars x.1 with
    | some v =>
      have hp := List.find?_some hl
      simp only [decide_eq_true_eq] at hp
      exact types v (List.mem_of_find?_eq_some hl) x.2 (by rw [hp]; exact hx)
    | none =>
      revert x
      simp only [std, List.mem_cons, List.not_mem_nil, or_false]
      rintro x (rfl | rfl | rfl | rfl | rfl) _ _ <;> rfl

theorem scheme_covers (mode : Ty) (vars : List RVar) (few : vars.length ≤ 122) (short : ∀ v ∈ vars, v.name.length ≤ MAXNAM)
    (names : (vars.map (·.name)).Nodup) : Covers (schemeOf mode vars few short) (rtable vars) := by
  intro x hx hne
  obtain ⟨v, hv, rfl⟩ := List.mem_map.1 hx
  refine ⟨List.mem_append_left _ (List.mem_map.2 ⟨v, hv, rfl⟩), ?_⟩
  show v.ty = tyIn mode vars v.name
  unfold tyIn
  rw [if_neg hne, rlocvar_mem names hv]

/-! ## The copy as a file that was written -/

theorem track_name {r : Reader} {ks : List Name} {v' : RVar} (h : v' ∈ (track r ks).vars) : ∃ v ∈ r.vars,
    v'.name = v.name ∧ v'.ty = v.ty ∧ v'.buf = v.buf ∧ v'.copy = (v.copy || decide (v.name ∈ ks)) := by
  obtain ⟨v, hv, rfl⟩ := List.mem_map.1 h
  refine ⟨v, hv, ?_⟩
  by_cases hc : v.name ∈ ks
  · rw [if_pos hc]; simp [hc]
  · rw [if_neg hc]; simp [hc]

theorem track_table (r : Reader) (ks : List Name) : rtable (track r ks).vars = rtable r.vars := by
  unfold rtable track
  simp only [List.map_map]
  apply List.map_congr_left
  intro v _
  simp only [Function.comp]
  split <;> rfl

theorem source_st {E : Env} {nsize over excl us ks} {S : VisR} {l : List (VisR × Out)}
    (h : Listed E nsize over excl us ks S l) : St ks (rtable S.r.vars) { S with r := track S.r ks } := by
  obtain ⟨_, h2, _⟩ := init_spec h.init
  refine ⟨track_good h.good ks, ?_, ?_, ?_, track_table _ _⟩
  · show ((track S.r ks).vars.map (·.name)).Nodup
    rw [← rtable_names, track_table, rtable_names]
    exact h.names
  · intro v' hv'
    obtain ⟨v, hv, e1, _, _, e4⟩ := track_name hv'
    rw [e1, e4, h.plain v hv]
    simp
  · intro v' hv' hc
    obtain ⟨v, hv, e1, _, e3, e4⟩ := track_name hv'
    rw [e4, h.plain v hv, Bool.false_or, decide_eq_true_eq] at hc
    obtain ⟨w, hw, g1, _, _, _, d, g2⟩ := h2 _ hc
    have : w = v := by
      have a := rlocvar_mem h.names hw
      have b := rlocvar_mem h.names hv
      rw [← g1, b, Option.some.injEq] at a
      exact a.symm
    subst this
    rw [getvr_mem h.names hw] at g2
    rw [e3]
    intro hb
    rw [hb] at g2
    simp at g2

theorem open_typed {σ : Scheme} {mode : Ty} (hk : KnowsStd σ mode) {s : VisW} (h : openVis mode = some s) :
    Typed σ s.w := by
  rw [openVis_some, Option.some.injEq] at h
  subst h
  refine ⟨?_, by simp⟩
  intro v hv
  rw [List.mem_singleton] at hv
  subst hv
  exact ⟨hk.corr.1, hk.corr.2.symm⟩

/-- what `pipe` makes of a source, as calls on the new file -/
theorem pipe_written {E : Env} (hl : FpLaws E.o) (hq : QuantOk E.q) (hmode : E.mode = .real ∨ E.mode = .int2)
    {nsize over excl us ks} {S : VisR} {l : List (VisR × Out)}
    (h : Listed E nsize over excl us ks S l) {mf : MFunc} (hp : Polite mf) :
    ∃ W bs s0, openVis E.mode = some s0 ∧ bs = (blocksOf E nsize mf 0 us l).1 ∧
      ((assignAll s0 us).bind fun s1 => pipeList E nsize mf 0 l s1) = some W ∧
      Written E.o E.q E.junk E.mode bs W ∧
      bs.map (·.vis) = (kept E nsize mf 0 l).map (fun x => E.vis x.2) ∧
      (∀ x ∈ kept E nsize mf 0 l, St ks (rtable S.r.vars) x.1) ∧
      ValuesAt E s0 bs (kept E nsize mf 0 l) ∧
      Typed (schemeOf E.mode S.r.vars h.few h.short) W.w := by
  obtain ⟨h1, h2, h3⟩ := init_spec h.init
  have hk := scheme_std E.mode S.r.vars h.few h.short h.types
  have hσ := scheme_covers E.mode S.r.vars h.few h.short h.names
  obtain ⟨s0, hs0⟩ : ∃ s0, openVis E.mode = some s0 := ⟨_, openVis_some E.mode⟩
  have hty := open_typed hk hs0
  have hT : StdTypes (rtable S.r.vars) := by
    intro x hx ty hxt
    obtain ⟨v, hv, rfl⟩ := List.mem_map.1 hx
    exact h.types v hv ty hxt
  have hcore : ∀ x ∈ rtable S.r.vars, ∀ y ∈ std, y.1 ≠ nmTscale → x.1 = y.1 → x.1 ∈ ks := by
    intro x hx y hy hyt hxy
    obtain ⟨v, hv, rfl⟩ := List.mem_map.1 hx
    have hxy : v.name = y.1 := hxy
    obtain ⟨o1, o2⟩ := h.own y hy hyt
    refine h3 v hv ?_ (by rw [hxy]; exact o1) (by rw [hxy]; exact o2)
    rw [hxy]
    exact std_corr y hy
  have hcorr : nmCorr ∉ ks := by
    intro hc
    obtain ⟨v, _, e, g, _⟩ := h2 _ hc
    exact g e.symm
  have hus : ∀ p ∈ us, InT (rtable S.r.vars) p := by
    intro p hp
    obtain ⟨v, hv, e1, e2, e3, _⟩ := h1 p hp
    refine ⟨h.initOk p hp, ?_, by rw [e1]; exact e3⟩
    rw [e1, e2]
    exact List.mem_map.2 ⟨v, hv, rfl⟩
  obtain ⟨r1, r2, r3, r4, r5, r6⟩ := pipe_inv hk hσ hp h.chans hT hcore hcorr h.chain 0 s0 us hty (source_st h) h.recs hus
    (Or.inr h.first)
  obtain ⟨s1, hw1, hty1⟩ := writeBlocks_total (o := E.o) (q := E.q) (junk := E.junk) hk (blocksOf E nsize mf 0 us l).1 hty
    (fun b hb p hp => ((r1 b hb).2 p hp).ev hσ)
  obtain ⟨W, hW, htyW⟩ := assignAll_total hty1 (blocksOf E nsize mf 0 us l).2 (fun p hp => (r2 p hp).ev hσ)
  refine ⟨W, _, s0, hs0, rfl, ?_, ⟨hl, hq, hmode, ⟨s0, s1, _, hs0, hw1, hW, fun p hp => (r2 p hp).1⟩,
    fun b hb => (r1 b hb).1, ?_, ?_⟩, r3, r4, r5, htyW⟩
  · rw [pipe_blocks E nsize mf l 0 s0 us, hw1, Option.bind_some, hW]
  · -- the preamble variables are assigned before the first visibility
    intro b hb
    have hv : ∀ nm, valueAfter s0.evs nm = none := by
      intro nm
      rw [openVis_some, Option.some.injEq] at hs0
      rw [← hs0]
      rfl
    exact ⟨fun hn => absurd (r6 b hb _ (Or.inl rfl) (hv _)) hn, fun hn => absurd (r6 b hb _ (Or.inr (Or.inl rfl)) (hv _)) hn,
      fun hn => absurd (r6 b hb _ (Or.inr (Or.inr rfl)) (hv _)) hn⟩
  · have := htyW.length
    have h6 : (schemeOf E.mode S.r.vars h.few h.short).names.length ≤ 128 := Scheme.few _
    simp only [table, List.length_map]
    omega

/-! ## Reading the copy -/

/-- the state after `k + 1` visibilities of a file that was written -/
theorem written_upTo {o q junk mode} {bs : List Block} {s : VisW} (hw : Written o q junk mode bs s) (k : Nat)
    (hk : k < bs.length) : ∃ s0 sk, openVis mode = some s0 ∧ writeBlocks o q junk mode s0 (bs.take (k + 1)) = some sk ∧
      upTo (k + 1) s.evs = sk.evs ∧ k + 1 ≤ records s.evs ∧ (∀ e ∈ sk.evs, e ∈ s.evs) ∧
      wrun newWriter s.evs = some s.w ∧ HistOk s.evs := by
  obtain ⟨s0, s1, tail, h0, h1, h2, h3⟩ := hw.ran
  have htail : s.evs = s1.evs ++ tail.map User.ev ∧ wrun s1.w (tail.map User.ev) = some s.w := by
    unfold assignAll at h2
    cases hx : wrun s1.w (tail.map User.ev) with
    | none => rw [hx] at h2; simp at h2
    | some w1 =>
      rw [hx] at h2
      simp only [Option.map_some, Option.some.injEq] at h2
      subst h2
      exact ⟨rfl, rfl⟩
  obtain ⟨t1, t3⟩ := htail
  have hreach1 := reach_blocks (o := o) (junk := junk) hw.quant hw.corr (reach_open h0) hw.blocks h1
  have hrun : wrun newWriter s.evs = some s.w := by
    rw [t1, wrun_append, hreach1.run]
    exact t3
  have hok : HistOk s.evs := by
    intro e he
    rw [t1] at he
    rcases List.mem_append.1 he with he | he
    · exact hreach1.ok e he
    · obtain ⟨p, hp, rfl⟩ := List.mem_map.1 he
      exact h3 p hp
  have hsplit : bs = bs.take k ++ bs[k] :: bs.drop (k + 1) := by
    rw [← List.drop_eq_getElem_cons hk, List.take_append_drop]
  have h1' := h1
  rw [hsplit, writeBlocks_append] at h1'
  cases hk1 : writeBlocks o q junk mode s0 (bs.take k) with
  | none => rw [hk1] at h1'; simp at h1'
  | some sk =>
    rw [hk1] at h1'
    simp only [Option.bind_some, writeBlocks] at h1'
    cases hb2 : writeBlock o q junk mode sk bs[k] with
    | none => rw [hb2] at h1'; simp at h1'
    | some s2 =>
      rw [hb2] at h1'
      simp only [Option.bind_some] at h1'
      have htk : ∀ x ∈ bs.take k, BlockOk x := fun x hx => hw.blocks x (List.mem_of_mem_take hx)
      have hreachk := reach_blocks (o := o) (junk := junk) hw.quant hw.corr (reach_open h0) htk hk1
      rw [Nat.zero_add, List.length_take, Nat.min_eq_left (Nat.le_of_lt hk)] at hreachk
      obtain ⟨_, A, B, wA, a1, a2, a3, _⟩ := reach_block hw.quant hw.corr hreachk
        (hw.blocks _ (List.getElem_mem hk)) hb2
      obtain ⟨⟨x, hx⟩, _⟩ := blocks_extend h1'
      have hevs : s.evs = A ++ .put nmCorr mode (corrBytes q mode bs[k].vis) :: B ++ .next :: (x ++ tail.map User.ev) := by
        rw [t1, hx, a1]
        simp
      refine ⟨s0, s2, h0, ?_, ?_, ?_, ?_, hrun, hok⟩
      · rw [List.take_succ_eq_append_getElem hk, writeBlocks_append, hk1]
        simp only [Option.bind_some, writeBlocks, hb2]
      · rw [hevs, a1]
        exact upTo_rec _ _ k (by
          rw [records_append, a2]
          simp only [records, records_none B a3]
          rfl)
      · rw [hevs, records_append, records_append, a2]
        simp only [records]
        omega
      · intro e he
        rw [t1, hx]
        exact List.mem_append_left _ (List.mem_append_left _ he)

theorem uvreadN_last {f : Nat → Byte} {size nsize n : Nat} {s R : VisR} {outs : List Out}
    (h : uvreadN f size nsize (n + 1) s = some (R, outs)) : ∃ R0 outs0 out, uvreadN f size nsize n s = some (R0, outs0) ∧
      uvread f size nsize R0 = .ok R out ∧ outs = outs0 ++ [out] := by
  induction n generalizing s outs with
  | zero =>
    rw [uvreadN] at h
    cases hu : uvread f size nsize s with
    | eof x => rw [hu] at h; simp at h
    | bad => rw [hu] at h; simp at h
    | ok s' out =>
      rw [hu] at h
      simp only [uvreadN, Option.map_some, Option.some.injEq, Prod.mk.injEq] at h
      obtain ⟨rfl, rfl⟩ := h
      exact ⟨s, [], out, rfl, hu, rfl⟩
  | succ n ih =>
    rw [uvreadN] at h
    cases hu : uvread f size nsize s with
    | eof x => rw [hu] at h; simp at h
    | bad => rw [hu] at h; simp at h
    | ok s' out =>
      rw [hu] at h
      simp only at h
      cases hn : uvreadN f size nsize (n + 1) s' with
      | none => rw [hn] at h; simp at h
      | some x =>
        rw [hn] at h
        simp only [Option.map_some, Option.some.injEq, Prod.mk.injEq] at h
        obtain ⟨h1, h2⟩ := h
        obtain ⟨R0, outs0, o2, g1, g2, g3⟩ := ih (s := s') (outs := x.2) (by rw [hn, ← h1])
        refine ⟨R0, out :: outs0, o2, ?_, g2, by rw [← h2, g3]; rfl⟩
        rw [uvreadN, hu]
        simp only [g1, Option.map_some]

theorem kept_from {E : Env} {nsize : Nat} {mf : MFunc} {S : VisR} {l : List (VisR × Out)}
    (hr : Chain S l) : ∀ (k : Nat) (x : VisR × PyRec), x ∈ kept E nsize mf k l →
      ∃ k' S0 out, (x.1, out) ∈ l ∧ Step S0 x.1 out ∧ mf k' (E.show nsize out) = some x.2 := by
  induction hr with
  | done => intro k x hx; simp [kept] at hx
  | @more S S1 out l h hr ih =>
    intro k x hx
    rw [kept] at hx
    cases hm : mf k (E.show nsize out) with
    | none =>
      rw [hm] at hx
      obtain ⟨k', S0, o, g1, g2⟩ := ih _ x hx
      exact ⟨k', S0, o, List.mem_cons_of_mem _ g1, g2⟩
    | some p =>
      rw [hm] at hx
      rcases List.mem_cons.1 hx with rfl | hx
      · exact ⟨k, S, out, List.mem_cons_self, h, hm⟩
      · obtain ⟨k', S0, o, g1, g2⟩ := ih _ x hx
        exact ⟨k', S0, o, List.mem_cons_of_mem _ g1, g2⟩

/-- what is read from the copy: the record that was to be written -/
def recOf (E : Env) (p : PyRec) : Out :=
  ⟨p.u, p.v, some p.w, p.time, E.bl.bits (Codes.mkbl p.i p.j), dataOf E.q E.mode (E.vis p), p.flags⟩

/-- the variable is copied -/
def Copied (mode : Ty) (over : List (Name × PyVal)) (excl : List Name) (nm : Name) : Prop :=
  nm ≠ nmCorr ∧ nm ∉ excl ∧ over.find? (fun p => p.1 = nm) = none ∧ (nm = nmTscale → mode ≠ .int2)

/-- `init_from_uv` and `pipe` with records that are read in one way or another: see `c51_copy` -/
theorem copy_list {E : Env} (hl : FpLaws E.o) (hq : QuantOk E.q) (hmode : E.mode = .real ∨ E.mode = .int2)
    {nsize : Nat} {over : List (Name × PyVal)} {excl : List Name} {us : List User} {ks : List Name}
    {S : VisR} {l : List (VisR × Out)}
    (h : Listed E nsize over excl us ks S l) {mf : MFunc} (hp : Polite mf) :
    ∃ W s0, openVis E.mode = some s0 ∧ ((assignAll s0 us).bind fun s1 => pipeList E nsize mf 0 l s1) = some W ∧
      ∀ {f' : Nat → Byte} {size' : Nat} {r0 : Reader} {m : Mask}, Holds f' size' W.w.out → AtStart W r0 → FlagFile W m →
        (∃ R outs R', uvreadN f' size' nsize (kept E nsize mf 0 l).length ⟨r0, 0, m⟩ = some (R, outs) ∧
          uvread f' size' nsize R = .eof R') ∧
        ∀ (j : Nat) (Sj : VisR) (p : PyRec), (kept E nsize mf 0 l)[j]? = some (Sj, p) →
          ∃ R outs, uvreadN f' size' nsize (j + 1) ⟨r0, 0, m⟩ = some (R, outs ++ [recOf E p]) ∧ outs.length = j ∧
            ∀ v ∈ Sj.r.vars, Copied E.mode over excl v.name → getvr R.r v.name v.ty = getvr Sj.r v.name v.ty := by
  obtain ⟨W, bs, s0, hs0, hbs, hrun, hwr, hvis, hst, hvals, hty⟩ := pipe_written hl hq hmode h hp
  obtain ⟨_, _, hinit⟩ := init_spec h.init
  have hlen : bs.length = (kept E nsize mf 0 l).length := by
    have := congrArg List.length hvis
    simpa using this
  refine ⟨W, s0, hs0, hrun, ?_⟩
  intro f' size' r0 m hf hr0 hm
  have hns : ∀ b ∈ bs, b.vis.flags.length ≤ nsize := by
    intro b hb
    have : b.vis ∈ bs.map (·.vis) := List.mem_map_of_mem hb
    rw [hvis] at this
    obtain ⟨x, hx, hxv⟩ := List.mem_map.1 this
    obtain ⟨k', S0, out, g1, _, g3⟩ := kept_from h.chain 0 x hx
    rw [← hxv, (rec_len hp (h.recs _ g1) g3).1]
    exact Nat.le_refl _
  refine ⟨?_, ?_⟩
  · rw [← hlen]
    obtain ⟨R, outs, g1, _, _, g4⟩ := c48_records hwr hf hns hr0 hm
    obtain ⟨R', g4⟩ := g4
    exact ⟨R, outs, R', g1, g4⟩
  · intro j Sj p hj
    have hjl : j < bs.length := by
      rw [hlen]
      exact (List.getElem?_eq_some_iff.1 hj).1
    obtain ⟨R, outs, g1, g2, _, _, g5, g6⟩ := reads_k hwr hf hns hr0 hm (j + 1) hjl
    obtain ⟨s0', sj, u1, u2, u3, u4, u5, u6, u7⟩ := written_upTo hwr j hjl
    rw [hs0, Option.some.injEq] at u1
    subst u1
    have hinv := hvals j sj Sj p u2 hj
    have hmem : (Sj, p) ∈ kept E nsize mf 0 l := List.mem_of_getElem? hj
    have hSt := hst _ hmem
    obtain ⟨k', S0, out, w1, w2, w3⟩ := kept_from h.chain 0 _ hmem
    have hrec := h.recs _ w1
    -- the values of the variables
    have hval : ∀ v ∈ Sj.r.vars, Copied E.mode over excl v.name → getvr R.r v.name v.ty = getvr Sj.r v.name v.ty := by
      intro v hv hc
      have hin : (v.name, v.ty) ∈ rtable S.r.vars := by
        rw [← hSt.table]
        exact List.mem_map.2 ⟨v, hv, rfl⟩
      obtain ⟨v0, hv0, e0⟩ := List.mem_map.1 hin
      simp only [Prod.mk.injEq] at e0
      have hks : v.name ∈ ks := by
        rw [← e0.1]
        exact hinit v0 hv0 (by rw [e0.1]; exact hc.1) (by rw [e0.1]; exact hc.2.1) (by rw [e0.1]; exact hc.2.2.1)
      have hcopy := (hSt.copy v hv).2 hks
      have hi := hinv v hv ⟨hcopy, fun hx => hc.2.2.2 hx.1 hx.2⟩
      obtain ⟨b, hb⟩ := Option.ne_none_iff_exists'.1 (hSt.has v hv hcopy)
      obtain ⟨q1, q2, _⟩ := good_get hSt.names hv (hSt.good v hv) hb
      rw [q1] at hi ⊢
      have hi : valueAfter sj.evs v.name = some b := hi
      obtain ⟨ty, hput, hne⟩ := valueAfter_mem _ _ _ hi
      have htab := put_in_table u6 u7 (u5 _ hput) hne
      have hty' : ty = v.ty := by
        obtain ⟨x, hx, ex⟩ := List.mem_map.1 htab
        simp only [Prod.mk.injEq] at ex
        have := (hty.vars x hx).2
        have h2 := (scheme_covers E.mode S.r.vars h.few h.short h.names) _ hin hc.1
        have h2 : v.ty = (schemeOf E.mode S.r.vars h.few h.short).ty v.name := h2.2
        rw [ex.1, ← h2, ex.2] at this
        exact this
      subst hty'
      exact (getvr_assigned u6 u7 hwr.vars hf hr0.vars hr0.offset hr0.maxOffset u4 g2 (u5 _ hput) hne
        (by rw [u3]; exact hi)).1
    obtain ⟨R0, outs0, out', k1, k2, rfl⟩ := uvreadN_last g1
    have hl0 : outs0.length = j := by
      rw [List.length_append] at g5
      simpa using g5
    have hmatch : Matches E.o E.q E.mode out' (E.vis p) := by
      have hb : bs[j]?.map (·.vis) = some (E.vis p) := by
        rw [← List.getElem?_map, hvis, List.getElem?_map, hj]
        rfl
      cases hbj : bs[j]? with
      | none => rw [hbj] at hb; simp at hb
      | some b =>
        rw [hbj] at hb
        simp only [Option.map_some, Option.some.injEq] at hb
        rw [← hb]
        exact g6 j out' b (by rw [← hl0]; simp) hbj
    -- the preamble
    obtain ⟨a1, a2, a3, ⟨e1, e2, e3, e4, e5⟩, l1, l2, l3, l4, l5⟩ := pre_bytes hp w2 hrec w3
    have core : ∀ (nm : Name) (ty : Ty) (d : List Byte), (nm, ty) ∈ std → nm ≠ nmTscale → getvr Sj.r nm ty = some d →
        getvr R.r nm ty = some d := by
      intro nm ty d hx ht hd
      obtain ⟨v, hv, rfl, rfl⟩ := getvr_mem_of hd
      obtain ⟨o1, o2⟩ := h.own _ hx ht
      rw [hval v hv ⟨std_corr _ hx, o1, o2, fun hc => absurd hc ht⟩, hd]
    have b1 := core nmCoord .dble _ (by simp [std]) (by decide) a1
    have b2 := core nmTime .dble _ (by simp [std]) (by decide) a2
    have b3 := core nmBl .real _ (by simp [std]) (by decide) a3
    have hpre := (uvread_some k2).2
    unfold readPreamble at hpre
    rw [b1, b2, b3] at hpre
    have p1 : pairsBig (words (coordBytes (E.vis p))) = [(E.vis p).u, (E.vis p).v, (E.vis p).w] :=
      pairs_three _ _ _ (by rw [e1]; exact l1) (by rw [e2]; exact l2) l3
    have p2 : pairsBig (words (be64 (E.vis p).time)) = [(E.vis p).time] := pairs_one _ (by rw [e4]; exact l4)
    have p3 : words (be32 (E.vis p).bl) = [(E.vis p).bl] := words_one _ (by rw [e5]; exact l5)
    simp only [p1, p2, p3, List.head?_cons, Option.some.injEq, Prod.mk.injEq] at hpre
    obtain ⟨q1, q2, q3, q4, q5⟩ := hpre
    have hout : out' = recOf E p := by
      have hd := hmatch.data
      have hfl := hmatch.flags
      cases out' with
      | mk u v w t b d fl =>
        simp only at q1 q2 q3 q4 q5 hd hfl
        subst hd
        subst hfl
        rw [← q1, ← q2, ← q3, ← q4, ← q5]
        rfl
    subst hout
    exact ⟨R, outs0, g1, hl0, hval⟩

theorem pipe_from {E : Env} {f : Nat → Byte} {size nsize : Nat} {over : List (Name × PyVal)} {excl : List Name}
    {us : List User} {ks : List Name} {S : VisR} {l : List (VisR × Out)} (h : Source E f size nsize over excl us ks S l)
    {mf : MFunc} {s0 W : VisW} (h0 : openVis E.mode = some s0)
    (hW : ((assignAll s0 us).bind fun s1 => pipeList E nsize mf 0 l s1) = some W) {fuel : Nat} (hf : l.length < fuel) :
    pipeFrom E f size nsize mf over excl S fuel = some W := by
  unfold pipeFrom
  rw [h0, h.init]
  simp only
  cases ha : assignAll s0 us with
  | none => rw [ha] at hW; simp at hW
  | some s2 =>
    rw [ha, Option.bind_some] at hW
    simp only
    rw [pipe_list h.reads fuel 0 s2 hf]
    exact hW

/-- **C51**: `init_from_uv` and `pipe` succeed, and the new file holds the records that `mfunc` returned, one after the
other and no more, with its preambles (bit for bit), data and flags; and with every record the copied variables have the
values they have in the source with that record. -/
theorem c51_copy {E : Env} (hl : FpLaws E.o) (hq : QuantOk E.q) (hmode : E.mode = .real ∨ E.mode = .int2)
    {f : Nat → Byte} {size nsize : Nat} {over : List (Name × PyVal)} {excl : List Name} {us : List User} {ks : List Name}
    {S : VisR} {l : List (VisR × Out)}
    (h : Source E f size nsize over excl us ks S l) {mf : MFunc} (hp : Polite mf) :
    ∃ W, (∀ fuel, l.length < fuel → pipeFrom E f size nsize mf over excl S fuel = some W) ∧
      ∀ {f' : Nat → Byte} {size' : Nat} {r0 : Reader} {m : Mask}, Holds f' size' W.w.out → AtStart W r0 → FlagFile W m →
        (∃ R outs R', uvreadN f' size' nsize (kept E nsize mf 0 l).length ⟨r0, 0, m⟩ = some (R, outs) ∧
          uvread f' size' nsize R = .eof R') ∧
        ∀ (j : Nat) (Sj : VisR) (p : PyRec), (kept E nsize mf 0 l)[j]? = some (Sj, p) →
          ∃ R outs, uvreadN f' size' nsize (j + 1) ⟨r0, 0, m⟩ = some (R, outs ++ [recOf E p]) ∧ outs.length = j ∧
            ∀ v ∈ Sj.r.vars, Copied E.mode over excl v.name → getvr R.r v.name v.ty = getvr Sj.r v.name v.ty := by
  obtain ⟨W, s0, h0, hW, h1⟩ := copy_list hl hq hmode h.toListed hp
  exact ⟨W, fun fuel hf => pipe_from h h0 hW hf, h1⟩

end Verif.Mir.Uv
