import Verif.Mir.PipeWhole
import Verif.Mir.UvSelectC79

/-!
# Property C80 : copying what is selected

`uvo.init_from_uv(uvi)` and `uvo.pipe(uvi)` (/repo/aipy/miriad.py 258-286) after calls of `uvi.select`.  The copy has the
records that the selections say and no others, with the values the variables had: also those that changed only in
records that are not selected.
-/
namespace Verif.Mir.UvSel

open Verif.Mir.Uv
open Verif.Mir.Hio (Byte)
open Verif.Mir.Mask (Mask)
open Verif.Miriad

/-! ## The model -/

/-- the loop of `UV.pipe`, miriad.py 276-286, on a file with a selection (see `pipeLoop`) -/
def pipeSelLoop (E : Env) (S : SelEnv) (f : Nat → Byte) (size nsize : Nat) (mf : MFunc) : Nat → Nat → SelR → VisW → Option VisW
  | 0, _, _, _ => none
  | fuel + 1, k, st, s =>
    match uvreadSel S f size nsize st with
    | .eof _ => some s
    | .bad => none
    | .ok st1 out =>
      match assignAll s (copyvr st1.v.r) with
      | none => none
      | some s1 =>
        match writeMaybe E s1 (mf k (E.show nsize out)) with
        | none => none
        | some s2 => pipeSelLoop E S f size nsize mf fuel (k + 1) st1 s2

/-- a new file, `init_from_uv(uv, override, exclude)`, `pipe(uv, mfunc)` (see `pipeFrom`); `init_from_uv` does not look
at the selection -/
def pipeSel (E : Env) (S : SelEnv) (f : Nat → Byte) (size nsize : Nat) (mf : MFunc) (over : List (Name × PyVal))
    (excl : List Name) (st : SelR) (fuel : Nat) : Option VisW :=
  match openVis E.mode, initFrom E st.v.r over excl st.v.r.vars with
  | some s0, some x =>
    match assignAll s0 x.1 with
    | none => none
    | some s1 => pipeSelLoop E S f size nsize mf fuel 0 { st with v := { st.v with r := track st.v.r x.2 } } s1
  | _, _ => none

/-- `UV(filename)` reads a record (see `openUv`) before anything can be selected: `uvread_init` was called -/
def opened (v : VisR) : SelR := ⟨v, initSel noSel⟩

/-! ## What a record that is read leaves -/

theorem readLine_some {nsize : Nat} {v v' : VisR} {out : Out} (h : readLine nsize v = .ok v' out) :
    v'.r = v.r ∧ readPreamble v.r = some (out.u, out.v, out.w, out.time, out.bl) := by
  unfold readLine at h
  cases hc : rlocvar v.r.vars nmCorr with
  | none => rw [hc] at h; simp at h
  | some c =>
    rw [hc] at h
    simp only at h
    split at h
    · simp at h
    split at h
    · simp at h
    cases hf : Mask.mkreadFlags v.m v.flagOff (c.length / (2 * c.ty.ext)) with
    | error e => rw [hf] at h; simp at h
    | ok p =>
      rw [hf] at h
      simp only at h
      cases hd : readCorr v.r c (c.length / (2 * c.ty.ext)) with
      | none => rw [hd] at h; simp at h
      | some d =>
        rw [hd] at h
        cases hp : readPreamble v.r with
        | none => rw [hp] at h; simp at h
        | some x =>
          rw [hp] at h
          simp only [VRead.ok.injEq] at h
          obtain ⟨rfl, rfl⟩ := h
          exact ⟨rfl, rfl⟩

section

variable {E : Env} {S : SelEnv} {f : Nat → Byte} {size nsize : Nat}

theorem loop_step : ∀ (fuel : Nat) {st st' : SelR} {out : Out}, loop S f size nsize fuel st = .ok st' out →
    st'.v.r.mark = st.v.r.mark ∧ st.v.r.callno < st'.v.r.callno ∧ (st.v.r.copy = true → st'.v.r.copy = true) ∧
    Keeps st.v.r.callno st.v.r.vars st'.v.r.vars st'.v.r.copy ∧ (AllGood st.v.r.vars → AllGood st'.v.r.vars) ∧
    readPreamble st'.v.r = some (out.u, out.v, out.w, out.time, out.bl) := by
  intro fuel
  induction fuel with
  | zero => intro st st' out h; simp [loop] at h
  | succ fuel ih =>
    intro st st' out h
    unfold loop at h
    split at h
    · simp at h
    cases hf : findCorr f size (st.v.r.maxOffset - st.v.r.offset + 1) st.v.r with
    | eof r => rw [hf] at h; simp at h
    | bad => rw [hf] at h; simp at h
    | ok r =>
      rw [hf] at h
      simp only at h
      obtain ⟨k1, k2, _, k4, k5⟩ := findCorr_keeps _ _ _ _ _ hf
      have k6 := findCorr_good _ _ _ _ _ hf
      cases hc : chosen S r (initSel st.sel) with
      | none => rw [hc] at h; simp at h
      | some b =>
        rw [hc] at h
        cases b with
        | true =>
          simp only at h
          unfold take at h
          cases hr : readLine nsize { st.v with r := r } with
          | eof x => rw [hr] at h; simp at h
          | bad => rw [hr] at h; simp at h
          | ok v' out' =>
            rw [hr] at h
            simp only [SRead.ok.injEq] at h
            obtain ⟨rfl, rfl⟩ := h
            obtain ⟨e1, e2⟩ := readLine_some hr
            show v'.r.mark = _ ∧ _ < v'.r.callno ∧ (_ → v'.r.copy = true) ∧ Keeps _ _ v'.r.vars v'.r.copy ∧
              (_ → AllGood v'.r.vars) ∧ readPreamble v'.r = _
            rw [e1]
            exact ⟨k2, k1, k4, k5, k6, e2⟩
        | false =>
          simp only at h
          obtain ⟨g1, g2, g3, g4, g5, g6⟩ := ih h
          exact ⟨g1.trans k2, by have : r.callno < st'.v.r.callno := g2; omega, fun x => g3 (k4 x),
            k5.trans g4 (Nat.le_of_lt k1) g3, fun x => g5 (k6 x), g6⟩

theorem uvreadSel_step {st st' : SelR} {out : Out} (h : uvreadSel S f size nsize st = .ok st' out) : Step st.v st'.v out := by
  obtain ⟨g1, g2, _, g4, g5, g6⟩ := loop_step _ h
  exact ⟨g1, g2, g4, g5, g6⟩

theorem readAll_chain : ∀ (fuel : Nat) {st : SelR} {l : List (VisR × Out)}, readAll S f size nsize fuel st = some l →
    Chain st.v l := by
  intro fuel
  induction fuel with
  | zero => intro st l h; simp [readAll] at h
  | succ fuel ih =>
    intro st l h
    unfold readAll at h
    cases hu : uvreadSel S f size nsize st with
    | eof x =>
      rw [hu] at h
      simp only [Option.some.injEq] at h
      subst h
      exact .done
    | bad => rw [hu] at h; simp at h
    | ok st' out =>
      rw [hu] at h
      simp only [Option.map_eq_some_iff] at h
      obtain ⟨l', h1, rfl⟩ := h
      exact .more (uvreadSel_step hu) (ih h1)

theorem pipeSel_list {mf : MFunc} : ∀ (fuel k : Nat) {st : SelR} {l : List (VisR × Out)} (s : VisW),
    readAll S f size nsize fuel st = some l → pipeSelLoop E S f size nsize mf fuel k st s = pipeList E nsize mf k l s := by
  intro fuel
  induction fuel with
  | zero => intro k st l s h; simp [readAll] at h
  | succ fuel ih =>
    intro k st l s h
    unfold readAll at h
    unfold pipeSelLoop
    cases hu : uvreadSel S f size nsize st with
    | eof x =>
      rw [hu] at h
      simp only [Option.some.injEq] at h
      subst h
      rfl
    | bad => rw [hu] at h; simp at h
    | ok st' out =>
      rw [hu] at h
      simp only [Option.map_eq_some_iff] at h
      obtain ⟨l', h1, rfl⟩ := h
      simp only [pipeList]
      cases assignAll s (copyvr st'.v.r) with
      | none => rfl
      | some s1 =>
        simp only
        cases writeMaybe E s1 (mf k (E.show nsize out)) with
        | none => rfl
        | some s2 => exact ih (k + 1) s2 h1

end

/-! ## The records that are selected -/

section

variable {S : SelEnv} {o : FpOps} {q : Quant} {mode : Ty} {bs : List Block} {s : VisW} {ant : Block → Nat × Nat}
  {f : Nat → Byte} {size nsize : Nat} {r0 : Reader} {sp : List SpecClause}

theorem wanted_mem {k : Nat} {b : Block} {j : Nat} (h : (b, j) ∈ wantedFrom S s ant sp bs k) : bs[j]? = some b := by
  unfold wantedFrom at h
  have h := (List.mem_filter.1 h).1
  rw [List.mk_mem_zipIdx_iff_le_and_getElem?_sub] at h
  rw [List.getElem?_drop] at h
  rw [← h.2]
  congr 1
  omega

/-- `readAll_ok` with the place of the records -/
theorem readAll_at (hw : DataSet o q mode bs s) (hsel : Selectable S o bs s ant) (hf : Holds f size s.w.out)
    (hn : ∀ b ∈ bs, b.vis.flags.length ≤ nsize) (hr0 : AtStart s r0) (hc0 : r0.callno = 0) :
    ∀ (fuel k : Nat) (st : SelR), bs.length - k < fuel → At bs s f size r0 k st.v → SelOk sp st.sel k →
      ∃ l, readAll S f size nsize fuel st = some l ∧
        List.Forall₂ (fun p r => Returned o q mode s p r ∧ At bs s f size r0 (r.2 + 1) p.1) l (wantedFrom S s ant sp bs k) := by
  intro fuel
  induction fuel with
  | zero => intro k st h; omega
  | succ fuel ih =>
    intro k st hfuel hat hso
    unfold readAll
    rcases read_one (nsize := nsize) hw hsel hf hn hr0 hc0 hat hso with ⟨st', out, b, j, h1, h2, h3, h4, h5, h6, h7, _⟩ | ⟨st', h1, h2⟩
    · obtain ⟨l, l1, l2⟩ := ih (j + 1) st' (by omega) h6 (by rw [h7]; exact hso.inited _)
      rw [h1]
      simp only [l1]
      refine ⟨_, rfl, ?_⟩
      rw [h2]
      exact .cons ⟨h5, h6⟩ l2
    · rw [h1, h2]
      exact ⟨[], rfl, .nil⟩

end

/-! ## Every variable was read after the rewind -/

theorem chain_touched {nm : Name} : ∀ {l : List (VisR × Out)} {S : VisR}, Chain S l →
    (∀ v ∈ S.r.vars, v.name = nm → 1 ≤ v.callno) → ∀ x ∈ l, ∀ v ∈ x.1.r.vars, v.name = nm → 1 ≤ v.callno := by
  intro l S h
  induction h with
  | done => intro _ x hx; simp at hx
  | @more S S1 out l h _ ih =>
    intro h0
    have h1 : ∀ v ∈ S1.r.vars, v.name = nm → 1 ≤ v.callno := by
      intro v hv hn
      obtain ⟨u, hu, e1, _, _, _, e5⟩ := keeps_back h.keeps hv
      rcases e5 with rfl | ⟨e5, _⟩
      · exact h0 v hu hn
      · omega
    intro x hx
    rcases List.mem_cons.1 hx with rfl | hx
    · exact h1
    · exact ih h1 x hx

theorem chain_mem : ∀ {l : List (VisR × Out)} {S : VisR}, Chain S l → ∀ x ∈ l, ∃ S0, Step S0 x.1 x.2 := by
  intro l S h
  induction h with
  | done => intro x hx; simp at hx
  | @more S S1 out l h _ ih =>
    intro x hx
    rcases List.mem_cons.1 hx with rfl | hx
    · exact ⟨S, h⟩
    · exact ih x hx

theorem forall₂_mem {α β : Type} {R : α → β → Prop} {l : List α} {l' : List β} (h : List.Forall₂ R l l') :
    ∀ x ∈ l, ∃ y ∈ l', R x y := by
  induction h with
  | nil => intro x hx; simp at hx
  | cons h _ ih =>
    intro x hx
    rcases List.mem_cons.1 hx with rfl | hx
    · exact ⟨_, List.mem_cons_self, h⟩
    · obtain ⟨y, h1, h2⟩ := ih x hx
      exact ⟨y, List.mem_cons_of_mem _ h1, h2⟩

theorem readAll_more {Se : SelEnv} {f : Nat → Byte} {size nsize : Nat} : ∀ (fuel : Nat) {st : SelR} {l : List (VisR × Out)},
    readAll Se f size nsize fuel st = some l → ∀ fuel', fuel ≤ fuel' → readAll Se f size nsize fuel' st = some l := by
  intro fuel
  induction fuel with
  | zero => intro st l h; simp [readAll] at h
  | succ fuel ih =>
    intro st l h fuel' hf
    obtain ⟨n, rfl⟩ : ∃ n, fuel' = n + 1 := ⟨fuel' - 1, by omega⟩
    unfold readAll at h ⊢
    cases hu : uvreadSel Se f size nsize st with
    | eof x => rw [hu] at h; exact h
    | bad => rw [hu] at h; simp at h
    | ok st' out =>
      rw [hu] at h
      simp only [Option.map_eq_some_iff] at h ⊢
      obtain ⟨l', h1, rfl⟩ := h
      exact ⟨l', ih h1 n (by omega), rfl⟩

theorem preamble_alike {a b : Reader} (h : Alike a b) : readPreamble a = readPreamble b := by
  unfold readPreamble
  simp only [getvr_alike h]

/-! ## The source -/

section

variable {E : Env} {Se : SelEnv} {o : FpOps} {q : Quant} {junk : Nat → Nat} {mode : Ty} {bs : List Block} {W : VisW} {n : Nat}
  {ant : Block → Nat × Nat} {f : Nat → Byte} {size nsize : Nat} {m : Mask} {S : VisR} {over : List (Name × PyVal)}
  {excl : List Name} {us : List User} {ks : List Name}

/-- what is selected from a data set written with aipy can be copied -/
theorem select_listed (ha : Archive E o q junk mode bs W n) (hbl : BlLaws E.bl o)
    (hun : ∀ t ints, (E.unscale t ints).length = ints.length) (hf : Holds f size W.w.out) (hm : FlagFile W m)
    (hopen : openUv E f size (table W.w) W.w.offset m = some (S, nsize))
    (hinit : initFrom E S.r over excl S.r.vars = some (us, ks)) (hok : ∀ u ∈ us, EvOk u.ev)
    (own : ∀ x ∈ std, x.1 ≠ nmTscale → x.1 ∉ excl ∧ over.find? (fun p => p.1 = x.1) = none)
    (hsel : Selectable Se o bs W ant) (cs : List Call) (hcs : ∀ c ∈ cs, OkSel c) :
    nsize = n ∧ ∃ sel l, selectAll (initSel noSel) cs = some sel ∧
      (∀ fuel, bs.length < fuel → readAll Se f size nsize fuel ⟨{ S with r := track S.r ks }, sel⟩ = some l) ∧
      List.Forall₂ (Returned o q mode W) l (wanted Se W ant (specClauses (cs.map Call.sel)) bs) ∧
      Listed E nsize over excl us ks S l := by
  obtain ⟨rfl, ⟨s1, s2, s3, s4, s5⟩, lf, hsrc, hlen, hfull⟩ := archive_source' ha hbl hun hf hm hopen hinit hok own
  have hw := ha.wr.dataset
  have hn : ∀ b ∈ bs, b.vis.flags.length ≤ nsize := fun b hb => by rw [ha.chans b hb]; exact Nat.le_refl _
  obtain ⟨sel, a1, a2, a3, a4⟩ := chosen_all (chosen_init chosen_none) (by simp) hcs
  rw [List.nil_append] at a2
  have hso : SelOk (specClauses (cs.map Call.sel)) sel 0 := chosen_ok a2 hcs (fun _ => a4)
    (fun _ h => by rw [a4] at h; exact absurd h (by decide))
  obtain ⟨l, l1, l2⟩ := readAll_at (nsize := nsize) hw hsel hf hn s1 s2 (bs.length + 1) 0
    ⟨{ S with r := track S.r ks }, sel⟩ (by omega) (at_start (v := { S with r := track S.r ks }) s4 s5) hso
  have hchain : Chain { S with r := track S.r ks } l := readAll_chain _ l1
  -- a record that is selected, among all of them
  have same : ∀ x ∈ l, ∃ y ∈ lf, Alike x.1.r y.1.r ∧ x.2 = y.2 := by
    intro x hx
    obtain ⟨⟨b, j⟩, h1, h2, h3⟩ := forall₂_mem l2 x hx
    have hb := wanted_mem h1
    have hj : j < lf.length := by rw [hlen]; exact (List.getElem?_eq_some_iff.1 hb).1
    have hy : lf[j]? = some (lf[j].1, lf[j].2) := List.getElem?_eq_getElem hj
    obtain ⟨m1, m2, _⟩ := hfull j _ _ b hy hb
    obtain ⟨rk, r1, r2⟩ := h3.read
    rw [m2, Option.some.injEq] at r1
    subst r1
    refine ⟨lf[j], List.getElem_mem hj, r2, ?_⟩
    obtain ⟨_, p1⟩ := chain_mem hchain x hx
    obtain ⟨_, p2⟩ := chain_mem hsrc.chain lf[j] (List.getElem_mem hj)
    have hp := p1.pre
    rw [preamble_alike r2, p2.pre] at hp
    simp only [Option.some.injEq, Prod.mk.injEq] at hp
    have hd := h2.data.data.trans m1.data.symm
    have hfl := h2.data.flags.trans m1.flags.symm
    obtain ⟨e1, e2, e3, e4, e5⟩ := hp
    rcases hxx : x.2 with ⟨u, v, w, t, bl, d, fl⟩
    rcases hyy : lf[j].2 with ⟨u', v', w', t', bl', d', fl'⟩
    rw [hxx, hyy] at e1 e2 e3 e4 e5 hd hfl
    simp only at e1 e2 e3 e4 e5 hd hfl
    rw [e1, e2, e3, e4, e5, hd, hfl]
  refine ⟨rfl, sel, l, a1, fun fuel hfuel => readAll_more _ l1 fuel hfuel, l2.imp fun _ _ h => h.1,
    ⟨hinit, hok, hchain, ?_, ?_, hsrc.good, hsrc.names, hsrc.short, hsrc.few, hsrc.types, hsrc.plain, own, hsrc.chans⟩⟩
  · intro x hx
    obtain ⟨y, hy, hal, ho⟩ := same x hx
    have hr := hsrc.recs y hy
    refine ⟨?_, ?_, ?_, ?_, ?_, ?_, ?_, ?_⟩
    · rw [getvr_alike hal]; exact hr.coord
    · rw [getvr_alike hal]; exact hr.time
    · rw [getvr_alike hal]; exact hr.bl
    · rw [getvr_alike hal]; exact hr.nchan
    · rw [ho]; exact hr.flags
    · rw [ho]; exact hr.data
    · rw [ho]; exact hr.canon
    · rw [hal.vars]; exact hr.small
  · intro S1 out l' hl v hv hvk
    subst hl
    obtain ⟨y, hy, hal, _⟩ := same (S1, out) List.mem_cons_self
    -- it was read at the first record at the latest
    have htouch : 1 ≤ v.callno := by
      cases lf with
      | nil => simp at hy
      | cons z lf =>
        have hc := hsrc.chain
        cases hc with
        | more hst hrest =>
          rename_i S2 out2
          have h0 : ∀ u ∈ S2.r.vars, u.name = v.name → 1 ≤ u.callno := by
            intro u hu he
            have := (hsrc.first S2 out2 lf rfl u hu (by rw [he]; exact hvk)).1
            rw [hst.mark] at this
            omega
          have hv' : v ∈ y.1.r.vars := by rw [← hal.vars]; exact hv
          rcases List.mem_cons.1 hy with rfl | hy
          · exact h0 v hv' rfl
          · exact chain_touched hrest h0 y hy v hv' rfl
    cases hchain with
    | more hst _ =>
      refine ⟨by rw [hst.mark]; show S.r.callno + 1 ≤ _; omega, ?_⟩
      obtain ⟨u, hu, e1, _, e3, _, e5⟩ := keeps_back hst.keeps hv
      obtain ⟨u0, hu0, hx⟩ := List.mem_map.1 hu
      rcases e5 with rfl | ⟨_, e5⟩
      · exfalso
        have := s3 u0 hu0
        have hc : v.callno = u0.callno := by rw [← hx]; split <;> rfl
        omega
      · apply e5
        obtain ⟨u1, hu1, e7, _, _, e6⟩ := track_name hu
        rw [e6, ← e7, ← e1]
        simp [hvk]

/-! ## The theorems -/

theorem pipe_sel {mf : MFunc} {sel : Sel} {l : List (VisR × Out)} {s0 W' : VisW}
    (hinit : initFrom E S.r over excl S.r.vars = some (us, ks)) (h0 : openVis E.mode = some s0)
    (hW : ((assignAll s0 us).bind fun s1 => pipeList E nsize mf 0 l s1) = some W') {fuel : Nat}
    (hl : readAll Se f size nsize fuel ⟨{ S with r := track S.r ks }, sel⟩ = some l) :
    pipeSel E Se f size nsize mf over excl ⟨S, sel⟩ fuel = some W' := by
  unfold pipeSel
  simp only
  rw [h0, hinit]
  simp only
  cases ha : assignAll s0 us with
  | none => rw [ha] at hW; simp at hW
  | some s2 =>
    rw [ha, Option.bind_some] at hW
    simp only
    rw [pipeSel_list fuel 0 s2 hl]
    exact hW

/-- **C80**: a data set that aipy has written is opened, records are selected from it, and it is copied with
`init_from_uv` and `pipe`.  `l` is what is read: the records selected, in order (see C79).  The copy has the records that
`mfunc` returned for these and no more, and with each of them the copied variables have the values they had in the source,
no matter how many records were skipped. -/
theorem c80_copy (ha : Archive E o q junk mode bs W n) (hmode : E.mode = .real ∨ E.mode = .int2) (hl : FpLaws E.o) (hq : QuantOk E.q)
    (hbl : BlLaws E.bl o) (hun : ∀ t ints, (E.unscale t ints).length = ints.length) (hf : Holds f size W.w.out)
    (hm : FlagFile W m) (hopen : openUv E f size (table W.w) W.w.offset m = some (S, nsize))
    (hinit : initFrom E S.r over excl S.r.vars = some (us, ks)) (hok : ∀ u ∈ us, EvOk u.ev)
    (own : ∀ x ∈ std, x.1 ≠ nmTscale → x.1 ∉ excl ∧ over.find? (fun p => p.1 = x.1) = none)
    (hsel : Selectable Se o bs W ant) (cs : List Call) (hcs : ∀ c ∈ cs, OkSel c) {mf : MFunc} (hp : Polite mf) :
    ∃ sel l W', selectAll (opened S).sel cs = some sel ∧
      List.Forall₂ (Returned o q mode W) l (wanted Se W ant (specClauses (cs.map Call.sel)) bs) ∧
      (∀ fuel, bs.length < fuel → pipeSel E Se f size nsize mf over excl ⟨S, sel⟩ fuel = some W') ∧
      ∀ {f' : Nat → Byte} {size' : Nat} {r0 : Reader} {m' : Mask}, Holds f' size' W'.w.out → AtStart W' r0 → FlagFile W' m' →
        (∃ R outs R', uvreadN f' size' nsize (kept E nsize mf 0 l).length ⟨r0, 0, m'⟩ = some (R, outs) ∧
          uvread f' size' nsize R = .eof R') ∧
        ∀ (j : Nat) (Sj : VisR) (p : PyRec), (kept E nsize mf 0 l)[j]? = some (Sj, p) →
          ∃ R outs, uvreadN f' size' nsize (j + 1) ⟨r0, 0, m'⟩ = some (R, outs ++ [recOf E p]) ∧ outs.length = j ∧
            ∀ v ∈ Sj.r.vars, Copied E.mode over excl v.name → getvr R.r v.name v.ty = getvr Sj.r v.name v.ty := by
  obtain ⟨rfl, sel, l, a1, a2, a3, a4⟩ := select_listed ha hbl hun hf hm hopen hinit hok own hsel cs hcs
  obtain ⟨W', s0, h0, hW, h1⟩ := copy_list hl hq hmode a4 hp
  exact ⟨sel, l, W', a1, a3, fun fuel hfuel => pipe_sel hinit h0 hW (a2 fuel hfuel), h1⟩

/-- **C80**: with the default `mfunc` and data that are not scaled the copy has the visibilities selected, as they were
written, and with each the values that the variables had when it was written. -/
theorem c80_lossless (ha : Archive E o q junk .real bs W n) (hmode : E.mode = .real) (hl : FpLaws E.o) (hq : QuantOk E.q)
    (hbl : BlLaws E.bl o) (hun : ∀ t ints, (E.unscale t ints).length = ints.length) (hf : Holds f size W.w.out)
    (hm : FlagFile W m) (hopen : openUv E f size (table W.w) W.w.offset m = some (S, nsize))
    (hinit : initFrom E S.r over excl S.r.vars = some (us, ks)) (hok : ∀ u ∈ us, EvOk u.ev)
    (own : ∀ x ∈ std, x.1 ≠ nmTscale → x.1 ∉ excl ∧ over.find? (fun p => p.1 = x.1) = none)
    (hsel : Selectable Se o bs W ant) (cs : List Call) (hcs : ∀ c ∈ cs, OkSel c) :
    ∃ sel W', selectAll (opened S).sel cs = some sel ∧
      (∀ fuel, bs.length < fuel → pipeSel E Se f size nsize echo over excl ⟨S, sel⟩ fuel = some W') ∧
      ∀ {f' : Nat → Byte} {size' : Nat} {r0 : Reader} {m' : Mask}, Holds f' size' W'.w.out → AtStart W' r0 → FlagFile W' m' →
        (∃ R outs R', uvreadN f' size' nsize (wanted Se W ant (specClauses (cs.map Call.sel)) bs).length ⟨r0, 0, m'⟩ = some (R, outs) ∧
          uvread f' size' nsize R = .eof R') ∧
        ∀ (j : Nat) (b : Block) (k : Nat), (wanted Se W ant (specClauses (cs.map Call.sel)) bs)[j]? = some (b, k) →
          ∃ R outs out, uvreadN f' size' nsize (j + 1) ⟨r0, 0, m'⟩ = some (R, outs ++ [out]) ∧ outs.length = j ∧
            Matches o q .real out b.vis ∧
            ∀ nm ty d, (nm, ty) ∈ table W.w → Copied .real over excl nm → valueAfter (upTo (k + 1) W.evs) nm = some d →
              getvr R.r nm ty = some d := by
  obtain ⟨rfl, sel, l, a1, a2, a3, a4⟩ := select_listed ha hbl hun hf hm hopen hinit hok own hsel cs hcs
  obtain ⟨W', s0, h0, hW, h1⟩ := copy_list hl hq (Or.inl hmode) a4 polite_echo
  refine ⟨sel, W', a1, fun fuel hfuel => pipe_sel hinit h0 hW (a2 fuel hfuel), ?_⟩
  intro f' size' r0 m' hf' hr0 hm'
  obtain ⟨g1, g3⟩ := h1 hf' hr0 hm'
  rw [kept_echo, List.length_map, a3.length_eq] at g1
  refine ⟨g1, ?_⟩
  intro j b k hb
  have hjw := (List.getElem?_eq_some_iff.1 hb).1
  have hj : j < l.length := by rw [a3.length_eq]; exact hjw
  have hK : (kept E nsize echo 0 l)[j]? = some (l[j].1, E.show nsize l[j].2) := by
    rw [kept_echo, List.getElem?_map, List.getElem?_eq_getElem hj]; rfl
  obtain ⟨R, outs, q1, q2, q3⟩ := g3 j _ _ hK
  have hret : Returned o q .real W l[j] (b, k) := by
    have := a3.get hj hjw
    rw [List.getElem?_eq_getElem hjw, Option.some.injEq] at hb
    simpa [hb] using this
  obtain ⟨S0, hst⟩ := chain_mem a4.chain l[j] (List.getElem_mem hj)
  have hsame : recOf E (E.show nsize l[j].2) = l[j].2 :=
    echo_same hmode hst (a4.recs _ (List.getElem_mem hj)) (d := b.vis.data) (by rw [hret.data.data]; rfl)
  rw [hsame] at q1
  refine ⟨R, outs, _, q1, q2, hret.data, ?_⟩
  intro nm ty d ht hc hv
  obtain ⟨ty', hput, hd⟩ := valueAfter_mem _ _ _ hv
  have hput := upTo_mem _ _ _ hput
  have hw := ha.wr.dataset
  have htab := put_in_table hw.run hw.ok hput hd
  have hty := table_type (table_nodup hw.run hw.ok hw.vars) htab ht
  subst hty
  have hg := hret.vars nm ty' _ d hput hd hv
  obtain ⟨v, hv', rfl, rfl⟩ := getvr_mem_of hg
  rw [q3 v hv' (by rw [hmode]; exact hc), hg]

/-- **C80**: the same, where `init_from_uv(uv)` and `pipe(uv)` have no further arguments: nothing raises. -/
theorem c80_whole (ha : Archive E o q junk .real bs W n) (hne : bs ≠ []) (hv : PlainVars W) (hmode : E.mode = .real)
    (hl : FpLaws E.o) (hq : QuantOk E.q) (hbl : BlLaws E.bl o) (hun : ∀ t ints, (E.unscale t ints).length = ints.length)
    (hf : Holds f size W.w.out) (hm : FlagFile W m) (hsel : Selectable Se o bs W ant) (cs : List Call) (hcs : ∀ c ∈ cs, OkSel c) :
    ∃ S sel W', openUv E f size (table W.w) W.w.offset m = some (S, n) ∧ selectAll (opened S).sel cs = some sel ∧
      (∀ fuel, bs.length < fuel → pipeSel E Se f size n echo [] [] ⟨S, sel⟩ fuel = some W') ∧
      ∀ {f' : Nat → Byte} {size' : Nat} {r0 : Reader} {m' : Mask}, Holds f' size' W'.w.out → AtStart W' r0 → FlagFile W' m' →
        (∃ R outs R', uvreadN f' size' n (wanted Se W ant (specClauses (cs.map Call.sel)) bs).length ⟨r0, 0, m'⟩ = some (R, outs) ∧
          uvread f' size' n R = .eof R') ∧
        ∀ (j : Nat) (b : Block) (k : Nat), (wanted Se W ant (specClauses (cs.map Call.sel)) bs)[j]? = some (b, k) →
          ∃ R outs out, uvreadN f' size' n (j + 1) ⟨r0, 0, m'⟩ = some (R, outs ++ [out]) ∧ outs.length = j ∧
            Matches o q .real out b.vis ∧
            ∀ nm ty d, (nm, ty) ∈ table W.w → nm ≠ nmCorr → valueAfter (upTo (k + 1) W.evs) nm = some d →
              getvr R.r nm ty = some d := by
  obtain ⟨S, us, ks, h1, g1, g2⟩ := init_archive (E := E) ha hne hv hf hm
  obtain ⟨sel, W', w0, w1, w2⟩ := c80_lossless ha hmode hl hq hbl hun hf hm h1 g1 g2 (by intro x _ _; simp) hsel cs hcs
  refine ⟨S, sel, W', h1, w0, w1, ?_⟩
  intro f' size' r0 m' hf' hr0 hm'
  obtain ⟨p1, p2⟩ := w2 hf' hr0 hm'
  refine ⟨p1, ?_⟩
  intro j b k hb
  obtain ⟨R, outs, out, q1, q2, q3, q4⟩ := p2 j b k hb
  exact ⟨R, outs, out, q1, q2, q3, fun nm ty d ht hc hvv => q4 nm ty d ht ⟨hc, by simp, by simp, fun _ => by decide⟩ hvv⟩

theorem pipeSelLoop_read {mf : MFunc} : ∀ (fuel k : Nat) {st : SelR} {w w' : VisW},
    pipeSelLoop E Se f size nsize mf fuel k st w = some w' → ∃ l, readAll Se f size nsize fuel st = some l := by
  intro fuel
  induction fuel with
  | zero => intro k st w w' h; simp [pipeSelLoop] at h
  | succ fuel ih =>
    intro k st w w' h
    unfold pipeSelLoop at h
    unfold readAll
    cases hu : uvreadSel Se f size nsize st with
    | eof x => exact ⟨[], rfl⟩
    | bad => rw [hu] at h; simp at h
    | ok st' out =>
      rw [hu] at h
      simp only at h
      cases ha : assignAll w (copyvr st'.v.r) with
      | none => rw [ha] at h; cases h
      | some s1 =>
        rw [ha] at h
        simp only at h
        cases hw : writeMaybe E s1 (mf k (E.show nsize out)) with
        | none => rw [hw] at h; cases h
        | some s2 =>
          rw [hw] at h
          obtain ⟨l, hl⟩ := ih (k + 1) h
          exact ⟨(st'.v, out) :: l, by simp [hl]⟩

/-- C80: a copy that ends without an exception has read the input to its end: whatever the bytes of the input are, an error while
reading is not taken for the end of the file, and the copy consists of what the records read give. -/
theorem c80_no_silent_stop {mf : MFunc} {over : List (Name × PyVal)} {excl : List Name} {st : SelR} {fuel : Nat} {W' : VisW}
    (h : pipeSel E Se f size nsize mf over excl st fuel = some W') :
    ∃ ks s1 l, readAll Se f size nsize fuel { st with v := { st.v with r := track st.v.r ks } } = some l ∧
      pipeList E nsize mf 0 l s1 = some W' := by
  unfold pipeSel at h
  split at h
  · rename_i s0 x _ _
    split at h
    · cases h
    · rename_i s1 _
      obtain ⟨l, hl⟩ := pipeSelLoop_read _ _ h
      exact ⟨x.2, s1, l, hl, by rw [← pipeSel_list _ _ _ hl]; exact h⟩
  · cases h

end

end Verif.Mir.UvSel
