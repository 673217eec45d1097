import Verif.Mir.PipeEnd

/-!
# Property C51 : `override` and `exclude`
-/
namespace Verif.Mir.Uv

open Verif.Mir.Hio (Byte)
open Verif.Mir.Mask (Mask)

/-! ## Variables that are left out -/

/-- the variable a call makes -/
def Ev.about : Ev → Name → Prop
  | .put n _ _, nm => n = nm
  | .noCheck n _, nm => n = nm
  | .next, _ => False
  | .reopen, _ => False

theorem mkvar_novar {w w1 : Writer} {n nm : Name} {ty : Ty} {i : Nat} (h : mkvar w n ty = some (w1, i)) (hn : n ≠ nm)
    (hw : ∀ v ∈ w.vars, v.name ≠ nm) : ∀ v ∈ w1.vars, v.name ≠ nm := by
  unfold mkvar at h
  cases hl : locvar w.vars n with
  | some k =>
    rw [hl] at h
    simp only [Option.some.injEq, Prod.mk.injEq] at h
    rw [← h.1]
    exact hw
  | none =>
    rw [hl] at h
    simp only at h
    by_cases h1 : MAXNAM < n.length
    · rw [if_pos h1] at h; simp at h
    · rw [if_neg h1] at h
      by_cases h2 : MAXVAR ≤ w.vars.length
      · rw [if_pos h2] at h; simp at h
      · rw [if_neg h2, Option.some.injEq, Prod.mk.injEq] at h
        rw [← h.1]
        intro v hv
        rcases List.mem_append.1 hv with hv | hv
        · exact hw v hv
        · rw [List.mem_singleton] at hv
          subst hv
          exact hn

theorem wstep_novar {w w1 : Writer} {e : Ev} {nm : Name} (h : wstep w e = some w1) (hn : ¬ e.about nm)
    (hw : ∀ v ∈ w.vars, v.name ≠ nm) : ∀ v ∈ w1.vars, v.name ≠ nm := by
  cases e with
  | next =>
    simp only [wstep, Option.some.injEq] at h
    rw [← h]
    exact hw
  | reopen =>
    simp only [wstep, Option.some.injEq] at h
    rw [← h]
    intro v hv
    obtain ⟨u, hu, rfl⟩ := List.mem_map.1 hv
    exact hw u hu
  | noCheck n ty =>
    have h : noCheck w n ty = some w1 := h
    unfold noCheck at h
    cases hm : mkvar w n ty with
    | none => rw [hm] at h; simp at h
    | some x =>
      obtain ⟨w2, i⟩ := x
      have h2 := mkvar_novar hm hn hw
      rw [hm] at h
      simp only at h
      cases hv : w2.vars[i]? with
      | none => rw [hv] at h; simp at h
      | some v =>
        rw [hv] at h
        simp only [Option.some.injEq] at h
        rw [← h]
        intro u hu
        rcases List.mem_or_eq_of_mem_set hu with hu | rfl
        · exact h2 u hu
        · exact h2 v (List.mem_of_getElem? hv)
  | put n ty d =>
    have h : put w n ty d = some w1 := h
    unfold put at h
    by_cases h0 : d.length / ty.mem = 0
    · simp only [h0, if_true, Option.some.injEq] at h
      rw [← h]
      exact hw
    · simp only [if_neg h0] at h
      cases hm : mkvar w n ty with
      | none => rw [hm] at h; simp at h
      | some x =>
        obtain ⟨w2, i⟩ := x
        have h2 := mkvar_novar hm hn hw
        rw [hm] at h
        simp only at h
        cases hv : w2.vars[i]? with
        | none => rw [hv] at h; simp at h
        | some v =>
          rw [hv] at h
          simp only at h
          by_cases hty : v.ty ≠ ty
          · rw [if_pos hty] at h; simp at h
          · rw [if_neg hty, Option.some.injEq] at h
            obtain ⟨f1, f2, f3⟩ := putVar_frame w2 i v d (d.length / ty.mem)
            rw [← h]
            intro u hu
            simp only [f1] at hu
            rcases List.mem_or_eq_of_mem_set hu with hu | rfl
            · exact h2 u hu
            · rw [f2]; exact h2 v (List.mem_of_getElem? hv)

theorem wrun_novar {nm : Name} (es : List Ev) : ∀ {w w1 : Writer}, wrun w es = some w1 → (∀ e ∈ es, ¬ e.about nm) →
    (∀ v ∈ w.vars, v.name ≠ nm) → ∀ v ∈ w1.vars, v.name ≠ nm := by
  induction es with
  | nil =>
    intro w w1 h _ hw
    simp only [wrun, Option.some.injEq] at h
    rw [← h]; exact hw
  | cons e es ih =>
    intro w w1 h he hw
    rw [wrun] at h
    cases h1 : wstep w e with
    | none => rw [h1] at h; simp at h
    | some w2 =>
      rw [h1, Option.bind_some] at h
      exact ih h (fun e' he' => he e' (List.mem_cons_of_mem _ he')) (wstep_novar h1 (he e List.mem_cons_self) hw)

theorem assignAll_novar {nm : Name} {s s1 : VisW} {ps : List User} (h : assignAll s ps = some s1)
    (hp : ∀ p ∈ ps, p.name ≠ nm) (hw : ∀ v ∈ s.w.vars, v.name ≠ nm) : ∀ v ∈ s1.w.vars, v.name ≠ nm := by
  unfold assignAll at h
  cases hx : wrun s.w (ps.map User.ev) with
  | none => rw [hx] at h; simp at h
  | some w1 =>
    rw [hx, Option.map_some, Option.some.injEq] at h
    rw [← h]
    refine wrun_novar _ hx ?_ hw
    intro e he
    obtain ⟨p, hp', rfl⟩ := List.mem_map.1 he
    exact hp p hp'

theorem visEvs_about (o : FpOps) (q : Quant) (mode : Ty) (first : Bool) (n0 : Nat) (c : Cache) (v : Vis) (nm : Name)
    (h1 : ∀ x ∈ std, x.1 ≠ nm) (h2 : nm ≠ nmCorr) : ∀ e ∈ visEvs o q mode first n0 c v, ¬ e.about nm := by
  have a1 : nmCoord ≠ nm := h1 (nmCoord, .dble) (by simp [std])
  have a2 : nmTime ≠ nm := h1 (nmTime, .dble) (by simp [std])
  have a3 : nmBl ≠ nm := h1 (nmBl, .real) (by simp [std])
  have a4 : nmNchan ≠ nm := h1 (nmNchan, .int) (by simp [std])
  have a5 : nmTscale ≠ nm := h1 (nmTscale, .real) (by simp [std])
  have a6 : nmCorr ≠ nm := Ne.symm h2
  intro e he
  unfold visEvs at he
  simp only [List.mem_append] at he
  rcases he with (((((he | he) | he) | he) | he) | he) | he
  · split at he <;> simp at he
    rcases he with rfl | rfl | rfl <;> assumption
  · split at he <;> simp at he
    subst he; exact a4
  · unfold corrEvs at he
    split at he
    · simp only [List.mem_cons, List.not_mem_nil, or_false] at he
      rcases he with rfl | rfl <;> assumption
    · rw [List.mem_singleton] at he
      subst he; exact a6
  · split at he <;> simp at he
    subst he; exact a1
  · split at he <;> simp at he
    subst he; exact a2
  · split at he <;> simp at he
    subst he; exact a3
  · rw [List.mem_singleton] at he
    subst he
    exact fun h => h

theorem write_novar {E : Env} {nm : Name} (h1 : ∀ x ∈ std, x.1 ≠ nm) (h2 : nm ≠ nmCorr) {s s1 : VisW} {p : Option PyRec}
    (h : writeMaybe E s p = some s1) (hw : ∀ v ∈ s.w.vars, v.name ≠ nm) : ∀ v ∈ s1.w.vars, v.name ≠ nm := by
  cases p with
  | none =>
    simp only [writeMaybe, Option.some.injEq] at h
    rw [← h]; exact hw
  | some p =>
    simp only [writeMaybe, uvwrite] at h
    cases hx : wrun s.w (callEvs E.o E.q E.junk E.mode s (E.vis p)) with
    | none => rw [hx] at h; simp at h
    | some w1 =>
      rw [hx, Option.map_some, Option.some.injEq] at h
      rw [← h]
      exact wrun_novar _ hx (visEvs_about _ _ _ _ _ _ _ _ h1 h2) hw

/-- the variables that are copied along are the tracked ones -/
theorem copy_step {nm : Name} {S S1 : VisR} {out : Out}
    (h : Step S S1 out) (h0 : ∀ v ∈ S.r.vars, v.copy = true → v.name ≠ nm) :
    ∀ v ∈ S1.r.vars, v.copy = true → v.name ≠ nm := by
  intro v hv hc
  obtain ⟨u, hu, e1, _, e3, _⟩ := keeps_back h.keeps hv
  rw [e1]
  exact h0 u hu (by rw [← e3]; exact hc)

theorem loop_novar {E : Env} {f : Nat → Byte} {size nsize : Nat} {mf : MFunc} {nm : Name} (h1 : ∀ x ∈ std, x.1 ≠ nm)
    (h2 : nm ≠ nmCorr) (fuel : Nat) : ∀ {k : Nat} {S : VisR} {s W : VisW}, pipeLoop E f size nsize mf fuel k S s = some W →
      (∀ v ∈ S.r.vars, v.copy = true → v.name ≠ nm) → (∀ v ∈ s.w.vars, v.name ≠ nm) → ∀ v ∈ W.w.vars, v.name ≠ nm := by
  induction fuel with
  | zero => intro k S s W h; simp [pipeLoop] at h
  | succ fuel ih =>
    intro k S s W h hS hs
    rw [pipeLoop] at h
    cases hu : uvread f size nsize S with
    | eof x =>
      rw [hu] at h
      simp only [Option.some.injEq] at h
      rw [← h]; exact hs
    | bad => rw [hu] at h; simp at h
    | ok S1 out =>
      rw [hu] at h
      simp only at h
      have hS1 := copy_step (uvread_step hu) hS
      cases ha : assignAll s (copyvr S1.r) with
      | none => rw [ha] at h; simp at h
      | some s1 =>
        rw [ha] at h
        simp only at h
        have hs1 := assignAll_novar ha (by
          intro p hp
          obtain ⟨v, hv, g1, g2, _⟩ := copyvr_name hp
          rw [g2]
          exact hS1 v hv g1) hs
        cases hw : writeMaybe E s1 (mf k (E.show nsize out)) with
        | none => rw [hw] at h; simp at h
        | some s2 =>
          rw [hw] at h
          simp only at h
          exact ih h hS1 (write_novar h1 h2 hw hs1)

/-- **C51**: a variable that is excluded does not exist in the copy (unless it is one of those that `uvwrite_c` writes). -/
theorem c51_exclude {E : Env} {f : Nat → Byte} {size nsize : Nat} {mf : MFunc} {over : List (Name × PyVal)}
    {excl : List Name} {S : VisR} {fuel : Nat} {W : VisW} (h : pipeFrom E f size nsize mf over excl S fuel = some W)
    (hplain : ∀ v ∈ S.r.vars, v.copy = false) {nm : Name} (hx : nm ∈ excl) (h1 : ∀ x ∈ std, x.1 ≠ nm) (h2 : nm ≠ nmCorr) :
    ∀ x ∈ table W.w, x.1 ≠ nm := by
  unfold pipeFrom at h
  rw [openVis_some] at h
  cases hi : initFrom E S.r over excl S.r.vars with
  | none => rw [hi] at h; simp at h
  | some x =>
    obtain ⟨us, ks⟩ := x
    rw [hi] at h
    simp only at h
    obtain ⟨i1, i2, _⟩ := init_spec hi
    cases ha : assignAll ⟨⟨[⟨nmCorr, E.mode, 0, [], 0, true⟩], 0, []⟩, none, 0, [], [.noCheck nmCorr E.mode]⟩ us with
    | none => rw [ha] at h; simp at h
    | some s1 =>
      rw [ha] at h
      simp only at h
      have hs1 := assignAll_novar (nm := nm) ha (by
        intro p hp hc
        obtain ⟨v, _, e1, _, _, e4⟩ := i1 p hp
        rw [← e1, hc] at e4
        exact e4 hx) (by
        intro v hv
        rw [List.mem_singleton] at hv
        subst hv
        exact Ne.symm h2)
      have := loop_novar h1 h2 fuel h (by
        intro v' hv' hc hn
        obtain ⟨v, hv, e1, _, _, e4⟩ := track_name hv'
        rw [e4, hplain v hv, Bool.false_or, decide_eq_true_eq] at hc
        obtain ⟨u, _, g1, _, g3, _⟩ := i2 _ hc
        rw [← g1, ← e1, hn] at g3
        exact g3 hx) hs1
      intro x hx'
      obtain ⟨v, hv, rfl⟩ := List.mem_map.1 hx'
      exact this v hv

/-! ## Variables that are overridden -/

theorem init_over {E : Env} {r : Reader} {over : List (Name × PyVal)} {excl : List Name} {vs : List RVar} :
    ∀ {us : List User} {ks : List Name}, initFrom E r over excl vs = some (us, ks) → (vs.map (·.name)).Nodup →
    ∀ v ∈ vs, v.name ≠ nmCorr → v.name ∉ excl → ∀ p, over.find? (fun p => p.1 = v.name) = some p →
      ∃ d, encode E.fo (tyChar v.ty) p.2 = some (v.ty, d) ∧ (d ≠ [] → lastGiven us v.name = some d) := by
  induction vs with
  | nil => intro us ks _ _ v hv; simp at hv
  | cons a vs ih =>
    intro us ks h hnd v hv g1 g2 p g3
    rw [List.map_cons, List.nodup_cons] at hnd
    rw [initFrom] at h
    have key : ∀ {us' : List User} {ks' : List Name} (x : User), initFrom E r over excl vs = some (us', ks') →
        v ∈ vs → x.name = a.name → ∃ d, encode E.fo (tyChar v.ty) p.2 = some (v.ty, d) ∧
          (d ≠ [] → lastGiven (x :: us') v.name = some d) := by
      intro us' ks' x h' hv' hxn
      obtain ⟨d, e1, e2⟩ := ih h' hnd.2 v hv' g1 g2 p g3
      refine ⟨d, e1, fun hd => ?_⟩
      have e : lastGiven (x :: us') v.name = match lastGiven us' v.name with
        | some d => some d
        | none => if x.name = v.name ∧ x.data ≠ [] then some x.data else none := rfl
      rw [e, e2 hd]
    by_cases hx : a.name ∈ excl ∨ a.name = nmCorr
    · rw [if_pos hx] at h
      rcases List.mem_cons.1 hv with rfl | hv
      · rcases hx with hx | hx
        · exact absurd hx g2
        · exact absurd hx g1
      · exact ih h hnd.2 v hv g1 g2 p g3
    · rw [if_neg hx] at h
      cases ho : over.find? (fun p => p.1 = a.name) with
      | some p' =>
        rw [ho] at h
        simp only at h
        cases he : encode E.fo (tyChar a.ty) p'.2 with
        | none => rw [he] at h; simp at h
        | some x =>
          obtain ⟨ty, d⟩ := x
          rw [he] at h
          simp only at h
          cases hi : initFrom E r over excl vs with
          | none => rw [hi] at h; simp at h
          | some y =>
            rw [hi] at h
            simp only [Option.map_some, Option.some.injEq, Prod.mk.injEq] at h
            obtain ⟨rfl, rfl⟩ := h
            rcases List.mem_cons.1 hv with rfl | hv
            · rw [ho, Option.some.injEq] at g3
              subst g3
              have hty := encode_ty _ _ _ _ _ he
              subst hty
              refine ⟨d, he, fun hd => ?_⟩
              have e : lastGiven ((⟨v.name, v.ty, d⟩ : User) :: y.1) v.name = match lastGiven y.1 v.name with
                | some d => some d
                | none => if v.name = v.name ∧ d ≠ [] then some d else none := rfl
              rw [e, lastGiven_none (by
                intro q hq hc
                obtain ⟨w, hw, e1, _⟩ := (init_spec (us := y.1) (ks := y.2) hi).1 q hq
                exact hnd.1 (by rw [← hc, e1]; exact List.mem_map_of_mem hw))]
              simp [hd]
            · exact key _ (ks' := y.2) hi hv rfl
      | none =>
        rw [ho] at h
        simp only at h
        cases hr : (rdvr E.fo E.junk r a.name (tyChar a.ty)).bind (encode E.fo (tyChar a.ty)) with
        | none => rw [hr] at h; simp at h
        | some x =>
          obtain ⟨ty, d⟩ := x
          rw [hr] at h
          simp only at h
          cases hi : initFrom E r over excl vs with
          | none => rw [hi] at h; simp at h
          | some y =>
            rw [hi] at h
            simp only [Option.map_some, Option.some.injEq, Prod.mk.injEq] at h
            obtain ⟨rfl, rfl⟩ := h
            rcases List.mem_cons.1 hv with rfl | hv
            · rw [ho] at g3; simp at g3
            · exact key _ (ks' := y.2) hi hv rfl

theorem blocks_keep {E : Env} {nsize : Nat} {mf : MFunc} {nm : Name} {d : List Byte}
    (h1 : ∀ x ∈ std, x.1 ≠ nm) (h2 : nm ≠ nmCorr) {S : VisR} {l : List (VisR × Out)} (hr : Chain S l) :
    ∀ (k : Nat) (s : VisW) (pend : List User), (∀ v ∈ S.r.vars, v.copy = true → v.name ≠ nm) → cur s pend nm = some d →
      ∀ (j : Nat) (sj : VisW), j < (blocksOf E nsize mf k pend l).1.length →
        writeBlocks E.o E.q E.junk E.mode s ((blocksOf E nsize mf k pend l).1.take (j + 1)) = some sj →
        valueAfter sj.evs nm = some d := by
  induction hr with
  | done =>
    intro k s pend _ _ j sj hj
    simp [blocksOf] at hj
  | @more S S1 out l h hr ih =>
    intro k s pend hS hcur j sj hj hw
    have hS1 := copy_step h hS
    have hcur1 : cur s (pend ++ copyvr S1.r) nm = some d := by
      rw [cur_append, lastGiven_none (by
        intro p hp
        obtain ⟨v, hv, g1, g2, _⟩ := copyvr_name hp
        rw [g2]
        exact hS1 v hv g1), hcur]
      rfl
    cases hm : mf k (E.show nsize out) with
    | none =>
      have e1 : blocksOf E nsize mf k pend ((S1, out) :: l) = blocksOf E nsize mf (k + 1) (pend ++ copyvr S1.r) l := by
        rw [blocksOf, hm]
      rw [e1] at hj hw
      exact ih (k + 1) s _ hS1 hcur1 j sj hj hw
    | some p =>
      have e1 : blocksOf E nsize mf k pend ((S1, out) :: l) = (⟨pend ++ copyvr S1.r, E.vis p⟩ ::
          (blocksOf E nsize mf (k + 1) [] l).1, (blocksOf E nsize mf (k + 1) [] l).2) := by
        rw [blocksOf, hm]
      rw [e1] at hj hw
      rw [List.take_succ_cons, writeBlocks] at hw
      cases hb : writeBlock E.o E.q E.junk E.mode s ⟨pend ++ copyvr S1.r, E.vis p⟩ with
      | none => rw [hb] at hw; simp at hw
      | some s2 =>
        rw [hb, Option.bind_some] at hw
        obtain ⟨s1, _, _, _, _, _, _, _, _, _, _, e8⟩ := writeBlock_some hb
        have hval : valueAfter s2.evs nm = some d := by
          have : valueAfter s2.evs nm =
              (callEvs E.o E.q E.junk E.mode s1 (E.vis p)).foldl (assign nm) (cur s (pend ++ copyvr S1.r) nm) := by
            unfold cur valueAfter
            rw [e8, List.foldl_append, List.foldl_append]
          rw [this, hcur1]
          exact vis_other _ _ _ _ _ _ _ _ _ (Ne.symm (h1 (nmCoord, .dble) (by simp [std])))
            (Ne.symm (h1 (nmTime, .dble) (by simp [std]))) (Ne.symm (h1 (nmBl, .real) (by simp [std])))
            (Ne.symm (h1 (nmNchan, .int) (by simp [std]))) h2
            (fun hc => absurd hc.symm (h1 (nmTscale, .real) (by simp [std])))
        cases j with
        | zero =>
          simp only [List.take_zero, writeBlocks, Option.some.injEq] at hw
          rw [← hw]; exact hval
        | succ j => exact ih (k + 1) s2 [] hS1 hval j sj (by simpa using hj) hw

/-- **C51**: a variable that is overridden has in the copy, with every record, the value that was given. -/
theorem c51_override {E : Env} (hl : FpLaws E.o) (hq : QuantOk E.q) (hmode : E.mode = .real ∨ E.mode = .int2)
    {f : Nat → Byte} {size nsize : Nat} {over : List (Name × PyVal)} {excl : List Name} {us : List User} {ks : List Name}
    {S : VisR} {l : List (VisR × Out)}
    (h : Source E f size nsize over excl us ks S l) {mf : MFunc} (hp : Polite mf) :
    ∃ W, (∀ fuel, l.length < fuel → pipeFrom E f size nsize mf over excl S fuel = some W) ∧
      ∀ {f' : Nat → Byte} {size' : Nat} {r0 : Reader} {m : Mask}, Holds f' size' W.w.out → AtStart W r0 → FlagFile W m →
        ∀ (j : Nat), j < (kept E nsize mf 0 l).length → ∃ R outs, uvreadN f' size' nsize (j + 1) ⟨r0, 0, m⟩ = some (R, outs) ∧
          ∀ v ∈ S.r.vars, v.name ∉ excl → v.name ≠ nmCorr → (∀ x ∈ std, x.1 ≠ v.name) →
            ∀ p, over.find? (fun p => p.1 = v.name) = some p →
              ∃ d, encode E.fo (tyChar v.ty) p.2 = some (v.ty, d) ∧ (d ≠ [] → getvr R.r v.name v.ty = some d) := by
  obtain ⟨W, bs, s0, hs0, hbs, hrun, hwr, hvis, hst, hvals, hty⟩ := pipe_written hl hq hmode h.toListed hp
  obtain ⟨_, hks, _⟩ := init_spec h.init
  have hlen : bs.length = (kept E nsize mf 0 l).length := by
    have := congrArg List.length hvis
    simpa using this
  refine ⟨W, fun fuel hf => pipe_from h hs0 hrun hf, ?_⟩
  intro f' size' r0 m hf hr0 hm j hj
  have hns : ∀ b ∈ bs, b.vis.flags.length ≤ nsize := by
    intro b hb
    have : b.vis ∈ bs.map (·.vis) := List.mem_map_of_mem hb
    rw [hvis] at this
    obtain ⟨x, hx, hxv⟩ := List.mem_map.1 this
    obtain ⟨k', S0, out, g1, g2, g3⟩ := kept_from h.chain 0 x hx
    rw [← hxv, (rec_len hp (h.recs _ g1) g3).1]
    exact Nat.le_refl _
  have hjl : j < bs.length := by rw [hlen]; exact hj
  obtain ⟨R, outs, g1, g2, _, _, _, _⟩ := reads_k hwr hf hns hr0 hm (j + 1) hjl
  obtain ⟨s0', sj, u1, u2, u3, u4, u5, u6, u7⟩ := written_upTo hwr j hjl
  rw [hs0, Option.some.injEq] at u1
  subst u1
  refine ⟨R, outs, g1, ?_⟩
  intro v hv hx hc hstd p hfind
  obtain ⟨d, e1, e2⟩ := init_over h.init h.names v hv hc hx p hfind
  refine ⟨d, e1, fun hd => ?_⟩
  have hcur : cur s0 us v.name = some d := by
    unfold cur
    rw [lastGiven_fold, e2 hd]
    rfl
  have hval : valueAfter sj.evs v.name = some d := by
    rw [hbs] at hjl u2
    refine blocks_keep hstd hc h.chain 0 s0 us ?_ hcur j sj hjl u2
    intro u' hu' hcp hn
    obtain ⟨u, hu, a1, _, _, a4⟩ := track_name hu'
    rw [a4, h.plain u hu, Bool.false_or, decide_eq_true_eq] at hcp
    obtain ⟨w, _, b1, _, _, b4, _⟩ := hks _ hcp
    rw [← b1, ← a1, hn, hfind] at b4
    simp at b4
  obtain ⟨ty, hput, hne⟩ := valueAfter_mem _ _ _ hval
  have htab := put_in_table u6 u7 (u5 _ hput) hne
  have hty' : ty = v.ty := by
    obtain ⟨x, hx', ex⟩ := List.mem_map.1 htab
    simp only [Prod.mk.injEq] at ex
    have := (hty.vars x hx').2
    have h2 := (scheme_covers E.mode S.r.vars h.few h.short h.names) (v.name, v.ty) (List.mem_map.2 ⟨v, hv, rfl⟩) hc
    have h2 : v.ty = (schemeOf E.mode S.r.vars h.few h.short).ty v.name := h2.2
    rw [ex.1, ← h2, ex.2] at this
    exact this
  subst hty'
  exact (getvr_assigned u6 u7 hwr.vars hf hr0.vars hr0.offset hr0.maxOffset u4 g2 (u5 _ hput) hne
    (by rw [u3]; exact hval)).1

end Verif.Mir.Uv
