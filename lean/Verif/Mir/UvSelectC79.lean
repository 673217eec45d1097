import Verif.Mir.UvSelectRead

/-!
# Property C79 : reading with a selection
-/
namespace Verif.Mir.UvSel

open Verif.Mir.Uv
open Verif.Mir.Hio (Byte)
open Verif.Mir.Mask (Mask)
open Verif.Miriad (SelCall Clause uvselect uvreadSelect runSelect SpecSelected SpecClause specClauses specStep OkCall OrderedRec Cond
  addCond groupKeeps c07_select_semantics RelList run_rel)

/-! ## The specification -/

open Classical in
/-- the records to be returned, from record `k` on, with their numbers (from zero) -/
noncomputable def wantedFrom (S : SelEnv) (s : VisW) (ant : Block → Nat × Nat) (sp : List SpecClause) (bs : List Block) (k : Nat) :
    List (Block × Nat) := ((bs.drop k).zipIdx k).filter fun p => decide (Want S s ant sp p.1 p.2)

/-- the records to be returned -/
noncomputable abbrev wanted (S : SelEnv) (s : VisW) (ant : Block → Nat × Nat) (sp : List SpecClause) (bs : List Block) :
    List (Block × Nat) := wantedFrom S s ant sp bs 0

/-- what is returned for a record: its own time, baseline, data and flags, and while it is the last one read all
variables have the values they had when it was written -/
structure Returned (o : FpOps) (q : Quant) (mode : Ty) (s : VisW) (p : VisR × Out) (r : Block × Nat) : Prop where
  data : Matches o q mode p.2 r.1.vis
  number : p.1.r.callno = r.2 + 1
  vars : ∀ nm ty d d', Ev.put nm ty d ∈ s.evs → d ≠ [] → valueAfter (upTo (r.2 + 1) s.evs) nm = some d' →
    getvr p.1.r nm ty = some d'

/-- the calls of `select` in a history -/
def calls : List Op → List Call
  | [] => []
  | .select c :: os => c :: calls os
  | .read :: os => calls os
  | .rewind :: os => calls os

/-- what a program sees of a file: `pos` is the number of records passed, `none` behind the end -/
inductive Sees (S : SelEnv) (o : FpOps) (q : Quant) (mode : Ty) (bs : List Block) (s : VisW) (ant : Block → Nat × Nat) :
    Option Nat → List SpecClause → List Op → List Res → Prop
  | done {pos sp} : Sees S o q mode bs s ant pos sp [] []
  /-- a selection changes what is wanted from here on -/
  | select {pos sp c os rs} (h : Sees S o q mode bs s ant pos (specStep sp c.sel) os rs) :
      Sees S o q mode bs s ant pos sp (.select c :: os) rs
  | rewind {pos sp os rs} (h : Sees S o q mode bs s ant (some 0) sp os rs) : Sees S o q mode bs s ant pos sp (.rewind :: os) rs
  /-- the next record is the first one wanted -/
  | got {k sp os rs b j l v out} (hl : wantedFrom S s ant sp bs k = (b, j) :: l) (hr : Returned o q mode s (v, out) (b, j))
      (h : Sees S o q mode bs s ant (some (j + 1)) sp os rs) : Sees S o q mode bs s ant (some k) sp (.read :: os) (.got v out :: rs)
  /-- there is no such record -/
  | eof {k sp os rs} (hl : wantedFrom S s ant sp bs k = []) (h : Sees S o q mode bs s ant none sp os rs) :
      Sees S o q mode bs s ant (some k) sp (.read :: os) (.eof :: rs)
  /-- nothing is said about reading on behind the end -/
  | behind {sp os rs} : Sees S o q mode bs s ant none sp (.read :: os) rs

def Call.isVis : Call → Bool
  | .vis _ _ _ => true
  | .other _ => false

/-! ## The records wanted -/

theorem wanted_end {S : SelEnv} {s ant sp bs} {k : Nat} (hk : bs.length ≤ k) : wantedFrom S s ant sp bs k = [] := by
  unfold wantedFrom
  rw [List.drop_eq_nil_of_le hk]
  rfl

theorem wanted_cons {bs : List Block} {k : Nat} {b : Block} (hb : bs[k]? = some b) :
    bs.drop k = b :: bs.drop (k + 1) := by
  obtain ⟨h, rfl⟩ := List.getElem?_eq_some_iff.1 hb
  exact List.drop_eq_getElem_cons h

theorem wanted_yes {S : SelEnv} {s ant sp} {bs : List Block} {k : Nat} {b : Block} (hb : bs[k]? = some b)
    (h : Want S s ant sp b k) : wantedFrom S s ant sp bs k = (b, k) :: wantedFrom S s ant sp bs (k + 1) := by
  unfold wantedFrom
  rw [wanted_cons hb, List.zipIdx_cons, List.filter_cons_of_pos (by simpa using h)]

theorem wanted_no {S : SelEnv} {s ant sp} {bs : List Block} {k : Nat} {b : Block} (hb : bs[k]? = some b)
    (h : ¬ Want S s ant sp b k) : wantedFrom S s ant sp bs k = wantedFrom S s ant sp bs (k + 1) := by
  unfold wantedFrom
  rw [wanted_cons hb, List.zipIdx_cons, List.filter_cons_of_neg (by simpa using h)]

theorem wanted_skip {S : SelEnv} {s ant sp} {bs : List Block} {k j : Nat} (hj : k ≤ j) (hl : j ≤ bs.length)
    (hskip : ∀ i b', k ≤ i → i < j → bs[i]? = some b' → ¬ Want S s ant sp b' i) :
    wantedFrom S s ant sp bs k = wantedFrom S s ant sp bs j := by
  induction hd : j - k generalizing k with
  | zero =>
    have : k = j := by omega
    rw [this]
  | succ d ih =>
    have hk : k < bs.length := by omega
    have hb : bs[k]? = some bs[k] := List.getElem?_eq_getElem hk
    rw [wanted_no hb (hskip k _ (Nat.le_refl _) (by omega) hb)]
    exact ih (by omega) (fun i b' h1 h2 => hskip i b' (by omega) h2) (by omega)

/-! ## The selections -/

/-- the selection that calls make -/
structure Chosen (cs : List Call) (sel : Sel) : Prop where
  clauses : runSelect (cs.map Call.sel) = some sel.clauses
  vis : sel.vis = cs.foldl visStep []
  done : sel.init = true → sel.clauses ≠ [] → sel.maxvis = maxvisOf 0 sel.vis
  plain : (∀ c ∈ cs, c.isVis = false) → sel.maxvis = 0

theorem chosen_none : Chosen [] noSel := ⟨rfl, rfl, by simp [noSel], fun _ => rfl⟩

theorem chosen_init {cs : List Call} {sel : Sel} (h : Chosen cs sel) : Chosen cs (initSel sel) := by
  unfold initSel
  by_cases hi : sel.init = true
  · rw [if_pos hi]; exact h
  · rw [if_neg hi]
    refine ⟨h.clauses, h.vis, fun _ hne => if_neg hne, fun hp => ?_⟩
    show (if sel.clauses = [] then sel.maxvis else maxvisOf 0 sel.vis) = 0
    by_cases he : sel.clauses = []
    · rw [if_pos he]; exact h.plain hp
    · rw [if_neg he, h.vis]
      -- no clause has an operation
      have hall : ∀ (cs : List Call) (vs : List (List VisOp)), (∀ c ∈ cs, c.isVis = false) → (∀ l ∈ vs, l = []) →
          ∀ l ∈ cs.foldl visStep vs, l = [] := by
        intro cs
        induction cs with
        | nil => intro vs _ hv; exact hv
        | cons c cs ih =>
          intro vs hc hv
          rw [List.foldl_cons]
          refine ih _ (fun c' hc' => hc c' (List.mem_cons_of_mem _ hc')) ?_
          have h1 := hc c List.mem_cons_self
          have happ : ∀ l ∈ (if vs.isEmpty then [] else vs ++ [[]]), l = [] := by
            intro l hl
            split at hl
            · simp at hl
            · rcases List.mem_append.1 hl with hl | hl
              · exact hv l hl
              · simpa using hl
          have hone : ∀ l ∈ (if vs.isEmpty then [[]] else vs), l = [] := by
            intro l hl
            split at hl
            · simpa using hl
            · exact hv l hl
          cases c with
          | vis lo hi incl => simp [Call.isVis] at h1
          | other c =>
            cases c with
            | clear => intro l hl; simp [visStep] at hl
            | conj => exact happ
            | disj => exact happ
            | antennae a b i => exact hone
            | auto i => exact hone
            | oper t x i => exact hone
      have := hall cs [] hp (by simp)
      cases hv : cs.foldl visStep [] with
      | nil => rfl
      | cons l ls =>
        rw [hv] at this
        rw [this l List.mem_cons_self]
        rfl

theorem chosen_select {cs : List Call} {sel : Sel} (h : Chosen cs sel) (hcs : ∀ c ∈ cs, OkSel c) {c : Call} (hc : OkSel c) :
    ∃ sel', select sel c = some sel' ∧ Chosen (cs ++ [c]) sel' ∧ sel'.init = false ∧ sel'.maxvis = sel.maxvis := by
  obtain ⟨cl, e, _⟩ := c07_select_semantics ((cs ++ [c]).map Call.sel) (by
    intro x hx
    obtain ⟨y, hy, rfl⟩ := List.mem_map.1 hx
    rcases List.mem_append.1 hy with hy | hy
    · exact (hcs y hy).ok
    · rw [List.mem_singleton] at hy
      subst hy
      exact hc.ok)
  have e2 : uvselect c.sel sel.clauses = some cl := by
    have := h.clauses
    unfold runSelect at e this
    rw [List.map_append, List.foldlM_append, this] at e
    simp only [List.map_cons, List.map_nil] at e
    cases hu : uvselect c.sel sel.clauses with
    | none => simp [List.foldlM_cons, hu] at e
    | some a => simp [List.foldlM_cons, hu] at e; rw [e]
  have hv : visStep sel.vis c = (cs ++ [c]).foldl visStep [] := by
    rw [List.foldl_append, h.vis]
    rfl
  have hpl : (∀ x ∈ cs ++ [c], x.isVis = false) → sel.maxvis = 0 := fun hp => h.plain fun x hx => hp x (List.mem_append_left _ hx)
  refine ⟨⟨cl, visStep sel.vis c, sel.maxvis, false⟩, ?_, ⟨e, hv, by simp, hpl⟩, rfl, rfl⟩
  cases c with
  | vis lo hi incl =>
    have h1 : 1 ≤ lo ∧ lo ≤ hi := hc
    unfold select
    simp only
    rw [if_neg (by omega), e2]
    rfl
  | other c =>
    unfold select
    have e2 : uvselect c sel.clauses = some cl := e2
    simp only [e2]
    rfl

theorem chosen_all {cs' : List Call} : ∀ {cs : List Call} {sel : Sel}, Chosen cs sel → (∀ c ∈ cs, OkSel c) → (∀ c ∈ cs', OkSel c) →
    ∃ sel', selectAll sel cs' = some sel' ∧ Chosen (cs ++ cs') sel' ∧ (cs' ≠ [] → sel'.init = false) ∧ sel'.maxvis = sel.maxvis := by
  induction cs' with
  | nil =>
    intro cs sel h _ _
    exact ⟨sel, rfl, by rw [List.append_nil]; exact h, by simp, rfl⟩
  | cons c cs' ih =>
    intro cs sel h h1 h2
    obtain ⟨s1, a1, a2, a3, a4⟩ := chosen_select h h1 (h2 c List.mem_cons_self)
    obtain ⟨s2, b1, b2, b3, b4⟩ := ih (cs := cs ++ [c]) a2 (by
      intro x hx
      rcases List.mem_append.1 hx with hx | hx
      · exact h1 x hx
      · rw [List.mem_singleton] at hx
        subst hx
        exact h2 _ List.mem_cons_self) (fun x hx => h2 x (List.mem_cons_of_mem _ hx))
    refine ⟨s2, ?_, by rw [List.append_assoc] at b2; exact b2, fun _ => ?_, b4.trans a4⟩
    · unfold selectAll at b1 ⊢
      rw [List.foldlM_cons, a1]
      exact b1
    · cases cs' with
      | nil =>
        simp only [selectAll, List.foldlM_nil, Option.pure_def, Option.some.injEq] at b1
        rw [← b1]
        exact a3
      | cons x xs => exact b3 (by simp)

theorem chosen_ok {cs : List Call} {sel : Sel} (h : Chosen cs sel) (hcs : ∀ c ∈ cs, OkSel c) {k : Nat}
    (hclear : specClauses (cs.map Call.sel) = [] → sel.maxvis = 0)
    (hstop : sel.init = false → 0 < sel.maxvis → (k : Int) ≤ sel.maxvis) :
    SelOk (specClauses (cs.map Call.sel)) sel k := by
  have hok : ∀ x ∈ cs.map Call.sel, OkCall x := by
    intro x hx
    obtain ⟨y, hy, rfl⟩ := List.mem_map.1 hx
    exact (hcs y hy).ok
  obtain ⟨cl, e, hd⟩ := c07_select_semantics (cs.map Call.sel) hok
  rw [h.clauses, Option.some.injEq] at e
  subst e
  have hr0 : OrderedRec ⟨1, 1, 0, fun _ => 0⟩ := by unfold OrderedRec; decide
  obtain ⟨cl, e, hrel⟩ := run_rel hr0 (cs.map Call.sel) hok .nil
  have e' := h.clauses
  unfold runSelect at e'
  rw [e', Option.some.injEq] at e
  subst e
  have hempty : sel.clauses = [] ↔ specClauses (cs.map Call.sel) = [] := by
    unfold specClauses
    generalize (cs.map Call.sel).foldl specStep [] = sp at hrel
    generalize sel.clauses = cl at hrel
    cases hrel <;> simp
  have hb : ∀ (l : List Call) (sp : List SpecClause) (vs : List (List VisOp)), (∀ c ∈ l, OkSel c) → Beside sp vs →
      Beside ((l.map Call.sel).foldl specStep sp) (l.foldl visStep vs) := by
    intro l
    induction l with
    | nil => intro sp vs _ hb; exact hb
    | cons c l ih =>
      intro sp vs hl hb
      exact ih _ _ (fun x hx => hl x (List.mem_cons_of_mem _ hx)) (beside_step hb c (hl c List.mem_cons_self))
  refine ⟨hd, ?_, hempty, h.done, fun he => hclear (hempty.1 he), hstop⟩
  rw [h.vis]
  exact hb cs [] [] hcs ⟨.nil, by simp⟩

/-! ## Reading everything -/

section
variable {S : SelEnv} {o : FpOps} {q : Quant} {mode : Ty} {bs : List Block} {s : VisW} {ant : Block → Nat × Nat}
  {f : Nat → Byte} {size nsize : Nat} {r0 : Reader} {sp : List SpecClause}

theorem getvr_alike {a b : Reader} (h : Alike a b) (nm : Name) (ty : Ty) : getvr a nm ty = getvr b nm ty := by
  unfold getvr
  rw [h.vars]

theorem returned_at (hw : DataSet o q mode bs s) (hf : Holds f size s.w.out) (hr0 : AtStart s r0) (hc0 : r0.callno = 0) {j : Nat}
    {v : VisR} (hat : At bs s f size r0 (j + 1) v) {out : Out} {b : Block} (hm : Matches o q mode out b.vis) :
    Returned o q mode s (v, out) (b, j) := by
  obtain ⟨rk, hrk, hal⟩ := hat.read
  refine ⟨hm, ?_, ?_⟩
  · show v.r.callno = j + 1
    rw [hal.callno, readN_next_callno hw hf hr0 hat.le hrk]
    omega
  · intro nm ty d d' hp hd hv
    show getvr v.r nm ty = some d'
    rw [getvr_alike hal]
    exact (getvr_assigned hw.run hw.ok hw.vars hf hr0.vars hr0.offset hr0.maxOffset (by rw [hw.recs]; exact hat.le) hrk hp hd hv).1

/-- one call of `uvread_c`, in terms of the records wanted -/
theorem read_one (hw : DataSet o q mode bs s) (hsel : Selectable S o bs s ant) (hf : Holds f size s.w.out)
    (hn : ∀ b ∈ bs, b.vis.flags.length ≤ nsize) (hr0 : AtStart s r0) (hc0 : r0.callno = 0) {k : Nat} {st : SelR}
    (hat : At bs s f size r0 k st.v) (hso : SelOk sp st.sel k) :
    (∃ st' out b j, uvreadSel S f size nsize st = .ok st' out ∧
      wantedFrom S s ant sp bs k = (b, j) :: wantedFrom S s ant sp bs (j + 1) ∧ k ≤ j ∧ j < bs.length ∧
      Returned o q mode s (st'.v, out) (b, j) ∧ At bs s f size r0 (j + 1) st'.v ∧ st'.sel = initSel st.sel ∧ st'.v.r.mark = k + 1) ∨
    (∃ st', uvreadSel S f size nsize st = .eof st' ∧ wantedFrom S s ant sp bs k = []) := by
  have := next_ok (nsize := nsize) hw hsel hf hn hr0 hc0 hat hso
  generalize uvreadSel S f size nsize st = x at this
  cases this with
  | found j b st' out h1 h2 h3 h4 h5 h6 h7 h8 =>
    have hj : j < bs.length := (List.getElem?_eq_some_iff.1 h2).1
    exact Or.inl ⟨st', out, b, j, rfl, by rw [wanted_skip h1 (by omega) h4, wanted_yes h2 h3], h1, hj,
      returned_at hw hf hr0 hc0 h5 h6, h5, h7, h8⟩
  | none st' h1 =>
    refine Or.inr ⟨st', rfl, ?_⟩
    rw [wanted_skip hat.le (Nat.le_refl _) (fun i b' a1 _ a3 => h1 i b' a1 a3), wanted_end (Nat.le_refl _)]

theorem readAll_ok (hw : DataSet o q mode bs s) (hsel : Selectable S o bs s ant) (hf : Holds f size s.w.out)
    (hn : ∀ b ∈ bs, b.vis.flags.length ≤ nsize) (hr0 : AtStart s r0) (hc0 : r0.callno = 0) :
    ∀ (fuel k : Nat) (st : SelR), bs.length - k < fuel → At bs s f size r0 k st.v → SelOk sp st.sel k →
      ∃ l, readAll S f size nsize fuel st = some l ∧ List.Forall₂ (Returned o q mode s) l (wantedFrom S s ant sp bs k) := by
  intro fuel
  induction fuel with
  | zero => intro k st h; omega
  | succ fuel ih =>
    intro k st hfuel hat hso
    unfold readAll
    rcases read_one (nsize := nsize) hw hsel hf hn hr0 hc0 hat hso with ⟨st', out, b, j, h1, h2, h3, h4, h5, h6, h7, _⟩ | ⟨st', h1, h2⟩
    · obtain ⟨l, l1, l2⟩ := ih (j + 1) st' (by omega) h6 (by rw [h7]; exact hso.inited _)
      rw [h1]
      simp only [l1]
      refine ⟨_, rfl, ?_⟩
      rw [h2]
      exact .cons h5 l2
    · rw [h1, h2]
      exact ⟨[], rfl, .nil⟩

theorem at_start {v : VisR} (ho : v.flagOff = 0) (hm : FlagFile s v.m) : At bs s f size v.r 0 v :=
  ⟨Nat.zero_le _, ⟨v.r, rfl, ⟨rfl, rfl, rfl, rfl⟩⟩, by rw [ho]; cases bs <;> rfl, hm⟩

/-! ## What stays through everything -/

/-- the reader of this data set, wherever it is -/
structure Kept (s : VisW) (v : VisR) : Prop where
  vars : rtable v.r.vars = table s.w
  maxOffset : v.r.maxOffset = s.w.offset
  flags : FlagFile s v.m

theorem kept_rewind {v : VisR} (h : Kept s v) : AtStart s (rewindVis v).r ∧ (rewindVis v).r.callno = 0 ∧ (rewindVis v).flagOff = 0 ∧
    FlagFile s (rewindVis v).m := by
  refine ⟨⟨?_, rfl, h.maxOffset⟩, rfl, rfl, h.flags⟩
  rw [← h.vars]
  simp [rtable, rewindVis, rewind]

theorem set_rtable {vars : List RVar} {i : Nat} {v v' : RVar} (hi : vars[i]? = some v) (h1 : v'.name = v.name) (h2 : v'.ty = v.ty) :
    rtable (vars.set i v') = rtable vars := by
  unfold rtable
  rw [List.map_set, h1, h2]
  apply List.ext_getElem?
  intro j
  rw [List.getElem?_set]
  by_cases hj : i = j
  · subst hj
    rw [if_pos rfl, List.getElem?_map, hi]
    have : i < vars.length := (List.getElem?_eq_some_iff.1 hi).1
    rw [if_pos (by simpa using this)]
    rfl
  · rw [if_neg hj]

/-- the table and the size stay -/
def Stays (a b : Reader) : Prop := rtable b.vars = rtable a.vars ∧ b.maxOffset = a.maxOffset

theorem applyRec_stays {c : Nat} {l l' : Loop} {x : Rec} (h : applyRec c l x = some l') : rtable l'.vars = rtable l.vars := by
  cases x with
  | size i len =>
    simp only [applyRec, Option.map_eq_some_iff] at h
    obtain ⟨v, h1, rfl⟩ := h
    exact set_rtable h1 rfl rfl
  | data i bytes =>
    simp only [applyRec, Option.map_eq_some_iff] at h
    obtain ⟨v, h1, rfl⟩ := h
    exact set_rtable h1 rfl rfl
  | eof => simp [applyRec] at h
  | bad => simp [applyRec] at h
  | eor => simp [applyRec] at h

theorem scanLoop_stays {r : Reader} {c : Nat} : ∀ (fuel : Nat) (l : Loop), rtable l.vars = rtable r.vars →
    (∀ r', scanLoop f size r c fuel l = .ok r' → Stays r r') ∧ ∀ r', scanLoop f size r c fuel l = .eof r' → Stays r r' := by
  intro fuel
  induction fuel with
  | zero => intro l _; exact ⟨fun r' h => by simp [scanLoop] at h, fun r' h => by simp [scanLoop] at h⟩
  | succ fuel ih =>
    intro l hl
    unfold scanLoop
    cases hx : readRec f size r.maxOffset l.vars l.off with
    | eof =>
      refine ⟨fun r' h => by simp at h, fun r' h => ?_⟩
      simp only [Scan.eof.injEq] at h
      subst h
      exact ⟨hl, rfl⟩
    | bad => exact ⟨fun r' h => by simp at h, fun r' h => by simp at h⟩
    | eor =>
      refine ⟨fun r' h => ?_, fun r' h => by simp at h⟩
      simp only [Scan.ok.injEq] at h
      subst h
      exact ⟨hl, rfl⟩
    | size i len =>
      simp only
      cases ha : applyRec c l (.size i len) with
      | none => exact ⟨fun r' h => by simp at h, fun r' h => by simp at h⟩
      | some l' => exact ih l' ((applyRec_stays ha).trans hl)
    | data i len =>
      simp only
      cases ha : applyRec c l (.data i len) with
      | none => exact ⟨fun r' h => by simp at h, fun r' h => by simp at h⟩
      | some l' => exact ih l' ((applyRec_stays ha).trans hl)

theorem findCorr_stays : ∀ (fuel : Nat) (r : Reader),
    (∀ r', findCorr f size fuel r = .ok r' → Stays r r') ∧ ∀ r', findCorr f size fuel r = .eof r' → Stays r r' := by
  intro fuel
  induction fuel with
  | zero => intro r; exact ⟨fun r' h => by simp [findCorr] at h, fun r' h => by simp [findCorr] at h⟩
  | succ fuel ih =>
    intro r
    have hs := scanLoop_stays (f := f) (size := size) (r := r) (c := r.callno + 1) (r.maxOffset - r.offset + 1)
      ⟨r.vars, r.offset, r.copy⟩ rfl
    unfold findCorr
    cases hx : scan f size r with
    | eof y =>
      refine ⟨fun r' h => by simp at h, fun r' h => ?_⟩
      simp only [Scan.eof.injEq] at h
      subst h
      exact hs.2 _ hx
    | bad => exact ⟨fun r' h => by simp at h, fun r' h => by simp at h⟩
    | ok y =>
      have hy := hs.1 _ hx
      simp only
      cases rlocvar y.vars nmCorr with
      | none => exact ⟨fun r' h => by simp at h, fun r' h => by simp at h⟩
      | some c =>
        simp only
        by_cases hc : c.callno = y.callno
        · rw [if_pos hc]
          refine ⟨fun r' h => ?_, fun r' h => by simp at h⟩
          simp only [Scan.ok.injEq] at h
          subst h
          exact hy
        · rw [if_neg hc]
          refine ⟨fun r' h => ?_, fun r' h => ?_⟩
          · obtain ⟨h1, h2⟩ := (ih y).1 r' h
            exact ⟨h1.trans hy.1, h2.trans hy.2⟩
          · obtain ⟨h1, h2⟩ := (ih y).2 r' h
            exact ⟨h1.trans hy.1, h2.trans hy.2⟩

theorem kept_stays {v : VisR} (h : Kept s v) {r : Reader} (hr : Stays v.r r) (n : Nat) : Kept s ⟨r, n, v.m⟩ :=
  ⟨hr.1.trans h.vars, hr.2.trans h.maxOffset, h.flags⟩

theorem flagFile_read {m m' : Mask} {off n : Nat} {l : List Bool} (hm : FlagFile s m) (h : Mask.mkreadFlags m off n = .ok (m', l)) :
    FlagFile s m' := by
  obtain ⟨file, buf, words, ops, h1, h2⟩ := hm
  refine ⟨file, buf, words, ops ++ [.read off n], ?_, ?_⟩
  · intro op hop
    rcases List.mem_append.1 hop with hop | hop
    · exact h1 op hop
    · rw [List.mem_singleton] at hop
      subst hop
      exact trivial
  · rw [← List.append_assoc]
    refine run_snoc _ m _ _ _ h2 ?_
    simp only [Mask.step, h]

theorem readLine_keeps {v v' : VisR} {out : Out} (hk : Kept s v) (h : readLine nsize v = .ok v' out) : Kept s v' := by
  unfold readLine at h
  cases hc : rlocvar v.r.vars nmCorr with
  | none => rw [hc] at h; simp at h
  | some c =>
    rw [hc] at h
    simp only at h
    split at h
    · simp at h
    split at h
    · simp at h
    cases hf : Mask.mkreadFlags v.m v.flagOff (c.length / (2 * c.ty.ext)) with
    | error e => rw [hf] at h; simp at h
    | ok p =>
      rw [hf] at h
      simp only at h
      cases hd : readCorr v.r c (c.length / (2 * c.ty.ext)) with
      | none => rw [hd] at h; simp at h
      | some d =>
        rw [hd] at h
        cases hp : readPreamble v.r with
        | none => rw [hp] at h; simp at h
        | some x =>
          rw [hp] at h
          simp only [VRead.ok.injEq] at h
          obtain ⟨rfl, _⟩ := h
          exact ⟨hk.vars, hk.maxOffset, flagFile_read hk.flags hf⟩

theorem readLine_noeof {v v' : VisR} (h : readLine nsize v = .eof v') : False := by
  unfold readLine at h
  cases hc : rlocvar v.r.vars nmCorr with
  | none => rw [hc] at h; simp at h
  | some c =>
    rw [hc] at h
    simp only at h
    split at h
    · simp at h
    split at h
    · simp at h
    cases hf : Mask.mkreadFlags v.m v.flagOff (c.length / (2 * c.ty.ext)) with
    | error e => rw [hf] at h; simp at h
    | ok p =>
      rw [hf] at h
      simp only at h
      cases hd : readCorr v.r c (c.length / (2 * c.ty.ext)) with
      | none => rw [hd] at h; simp at h
      | some d =>
        rw [hd] at h
        cases hp : readPreamble v.r with
        | none => rw [hp] at h; simp at h
        | some x => rw [hp] at h; simp at h

/-- whatever `uvread_c` does, the file can be rewound; the selection is the same, initialised or not -/
theorem loop_keeps : ∀ (fuel : Nat) (st : SelR), Kept s st.v →
    (∀ st' out, loop S f size nsize fuel st = .ok st' out → Kept s st'.v ∧ (st'.sel = st.sel ∨ st'.sel = initSel st.sel)) ∧
    ∀ st', loop S f size nsize fuel st = .eof st' → Kept s st'.v ∧ (st'.sel = st.sel ∨ st'.sel = initSel st.sel) := by
  intro fuel
  induction fuel with
  | zero => intro st _; exact ⟨fun _ _ h => by simp [loop] at h, fun _ h => by simp [loop] at h⟩
  | succ fuel ih =>
    intro st hk
    unfold loop
    by_cases hmax : 0 < st.sel.maxvis ∧ st.sel.maxvis < st.v.r.callno
    · rw [if_pos hmax]
      refine ⟨fun _ _ h => by simp at h, fun st' h => ?_⟩
      simp only [SRead.eof.injEq] at h
      subst h
      exact ⟨hk, Or.inl rfl⟩
    · rw [if_neg hmax]
      have hst := findCorr_stays (f := f) (size := size) (st.v.r.maxOffset - st.v.r.offset + 1) st.v.r
      cases hx : findCorr f size (st.v.r.maxOffset - st.v.r.offset + 1) st.v.r with
      | eof r =>
        refine ⟨fun _ _ h => by simp at h, fun st' h => ?_⟩
        simp only [SRead.eof.injEq] at h
        subst h
        exact ⟨kept_stays hk (hst.2 _ hx) _, Or.inl rfl⟩
      | bad => exact ⟨fun _ _ h => by simp at h, fun _ h => by simp at h⟩
      | ok r =>
        simp only
        cases chosen S r (initSel st.sel) with
        | none => exact ⟨fun _ _ h => by simp at h, fun _ h => by simp at h⟩
        | some t =>
          cases t with
          | true =>
            simp only [take]
            cases hl : readLine nsize { st.v with r := r } with
            | eof v => exact (readLine_noeof hl).elim
            | bad => exact ⟨fun _ _ h => by simp at h, fun _ h => by simp at h⟩
            | ok v out =>
              refine ⟨fun st' out' h => ?_, fun _ h => by simp at h⟩
              simp only [SRead.ok.injEq] at h
              obtain ⟨rfl, _⟩ := h
              exact ⟨readLine_keeps (v := { st.v with r := r }) (kept_stays hk (hst.1 _ hx) _) hl, Or.inr rfl⟩
          | false =>
            have := ih ⟨⟨r, st.v.flagOff + channels r, st.v.m⟩, initSel st.sel⟩ (kept_stays hk (hst.1 _ hx) _)
            simp only [initSel_twice, or_self] at this
            exact ⟨fun st' out h => ⟨(this.1 st' out h).1, Or.inr (this.1 st' out h).2⟩,
              fun st' h => ⟨(this.2 st' h).1, Or.inr (this.2 st' h).2⟩⟩

theorem calls_ok {os : List Op} {c : Op} (h : ∀ x ∈ calls (c :: os), OkSel x) : ∀ x ∈ calls os, OkSel x := by
  cases c with
  | select c => exact fun x hx => h x (List.mem_cons_of_mem _ hx)
  | read => exact h
  | rewind => exact h

/-- after any history -/
theorem run_keeps : ∀ (os : List Op) (st : SelR) (cs : List Call), Kept s st.v → Chosen cs st.sel → (∀ c ∈ cs, OkSel c) →
    (∀ c ∈ calls os, OkSel c) → Kept s (runOps S f size nsize st os).1.v ∧ Chosen (cs ++ calls os) (runOps S f size nsize st os).1.sel := by
  intro os
  induction os with
  | nil => intro st cs h1 h2 _ _; exact ⟨h1, by rw [calls, List.append_nil]; exact h2⟩
  | cons op os ih =>
    intro st cs h1 h2 h3 h4
    have h5 := calls_ok h4
    have e : (runOps S f size nsize st (op :: os)).1 = (runOps S f size nsize (act S f size nsize st op).1 os).1 := rfl
    rw [e]
    cases op with
    | select c =>
      obtain ⟨sel', a1, a2, _, _⟩ := chosen_select h2 h3 (h4 c List.mem_cons_self)
      have e2 : (act S f size nsize st (.select c)).1 = ⟨st.v, sel'⟩ := by
        simp only [act, a1]
      rw [e2]
      have := ih ⟨st.v, sel'⟩ (cs ++ [c]) h1 a2 (by
        intro x hx
        rcases List.mem_append.1 hx with hx | hx
        · exact h3 x hx
        · rw [List.mem_singleton] at hx
          subst hx
          exact h4 _ List.mem_cons_self) h5
      rw [List.append_assoc] at this
      exact this
    | rewind =>
      obtain ⟨b1, _, _, b4⟩ := kept_rewind h1
      exact ih (rewindSel st) cs ⟨b1.vars, b1.maxOffset, b4⟩ h2 h3 h5
    | read =>
      have hl := loop_keeps (S := S) (f := f) (size := size) (nsize := nsize) (st.v.r.maxOffset - st.v.r.offset + 1)
        ⟨{ st.v with r := { st.v.r with mark := st.v.r.callno + 1, copy := false } }, st.sel⟩ ⟨h1.vars, h1.maxOffset, h1.flags⟩
      have hsel : ∀ x : Sel, (x = st.sel ∨ x = initSel st.sel) → Chosen cs x := by
        rintro x (rfl | rfl)
        · exact h2
        · exact chosen_init h2
      cases hx : uvreadSel S f size nsize st with
      | eof st' =>
        have e2 : (act S f size nsize st .read).1 = st' := by simp only [act, hx]
        rw [e2]
        obtain ⟨c1, c2⟩ := hl.2 st' hx
        exact ih st' cs c1 (hsel _ c2) h3 h5
      | bad =>
        have e2 : (act S f size nsize st .read).1 = st := by simp only [act, hx]
        rw [e2]
        exact ih st cs h1 h2 h3 h5
      | ok st' out =>
        have e2 : (act S f size nsize st .read).1 = st' := by simp only [act, hx]
        rw [e2]
        obtain ⟨c1, c2⟩ := hl.1 st' out hx
        exact ih st' cs c1 (hsel _ c2) h3 h5

/-! ## The theorems -/

/-- **C79**: reading a data set through a selection returns exactly the records the selection asks for, in the order they
were written, each with its own preamble, data, flags and variables, and then the end; nothing goes wrong. -/
theorem c79_all (hw : DataSet o q mode bs s) (hsel : Selectable S o bs s ant) (hf : Holds f size s.w.out)
    (hn : ∀ b ∈ bs, b.vis.flags.length ≤ nsize) {v : VisR} (hv : AtStart s v.r) (hc : v.r.callno = 0) (ho : v.flagOff = 0)
    (hm : FlagFile s v.m) (cs : List Call) (hcs : ∀ c ∈ cs, OkSel c) {fuel : Nat} (hfuel : bs.length < fuel) :
    ∃ sel l, selectAll noSel cs = some sel ∧ readAll S f size nsize fuel ⟨v, sel⟩ = some l ∧
      List.Forall₂ (Returned o q mode s) l (wanted S s ant (specClauses (cs.map Call.sel)) bs) := by
  obtain ⟨sel, a1, a2, a3, a4⟩ := chosen_all chosen_none (by simp) hcs
  rw [List.nil_append] at a2
  have hso : SelOk (specClauses (cs.map Call.sel)) sel 0 := chosen_ok a2 hcs (fun _ => a4) (fun _ h => by rw [a4] at h; exact absurd h (by decide))
  obtain ⟨l, l1, l2⟩ := readAll_ok (nsize := nsize) hw hsel hf hn hv hc fuel 0 ⟨v, sel⟩ (by omega) (at_start ho hm) hso
  exact ⟨sel, l, a1, l1, l2⟩

/-- **C79**: whatever was selected, read and rewound before: after a rewind the same is true of all the selections made so
far, if they leave something selected or if none of them was by visibility number. -/
theorem c79_rewind_partial (hw : DataSet o q mode bs s) (hsel : Selectable S o bs s ant) (hf : Holds f size s.w.out)
    (hn : ∀ b ∈ bs, b.vis.flags.length ≤ nsize) {v : VisR} (hv : AtStart s v.r) (hm : FlagFile s v.m) (os : List Op)
    (hos : ∀ c ∈ calls os, OkSel c)
    (hclear : specClauses ((calls os).map Call.sel) = [] → ∀ c ∈ calls os, c.isVis = false) {fuel : Nat} (hfuel : bs.length < fuel) :
    ∃ l, readAll S f size nsize fuel (rewindSel (runOps S f size nsize ⟨v, noSel⟩ os).1) = some l ∧
      List.Forall₂ (Returned o q mode s) l (wanted S s ant (specClauses ((calls os).map Call.sel)) bs) := by
  obtain ⟨h1, h2⟩ := run_keeps (S := S) (f := f) (size := size) (nsize := nsize) os ⟨v, noSel⟩ [] ⟨hv.vars, hv.maxOffset, hm⟩
    chosen_none (by simp) hos
  rw [List.nil_append] at h2
  generalize (runOps S f size nsize ⟨v, noSel⟩ os).1 = st at h1 h2
  obtain ⟨b1, b2, b3, b4⟩ := kept_rewind h1
  have hso : SelOk (specClauses ((calls os).map Call.sel)) (rewindSel st).sel 0 :=
    chosen_ok h2 hos (fun he => h2.plain (hclear he)) (fun _ h => by
      have : 0 < st.sel.maxvis := h
      show (0 : Int) ≤ st.sel.maxvis
      omega)
  exact readAll_ok (nsize := nsize) hw hsel hf hn b1 b2 fuel 0 (rewindSel st) (by omega) (at_start b3 b4) hso

/-- the invariant of `c79_history` -/
theorem history_ok (hw : DataSet o q mode bs s) (hsel : Selectable S o bs s ant) (hf : Holds f size s.w.out)
    (hn : ∀ b ∈ bs, b.vis.flags.length ≤ nsize) :
    ∀ (os : List Op) (st : SelR) (cs : List Call) (pos : Option Nat), Kept s st.v → Chosen cs st.sel → (∀ c ∈ cs, OkSel c) →
      (∀ c ∈ cs, c.isVis = false) → (∀ c ∈ calls os, OkSel c) → (∀ c ∈ calls os, c.isVis = false) →
      (∀ k, pos = some k → ∃ r0, AtStart s r0 ∧ r0.callno = 0 ∧ At bs s f size r0 k st.v) →
      Sees S o q mode bs s ant pos (specClauses (cs.map Call.sel)) os (runOps S f size nsize st os).2 := by
  intro os
  induction os with
  | nil => intro st cs pos _ _ _ _ _ _ _; exact .done
  | cons op os ih =>
    intro st cs pos h1 h2 h3 h4 h5 h6 h7
    have g5 := calls_ok h5
    have e : (runOps S f size nsize st (op :: os)).2 =
      (act S f size nsize st op).2 ++ (runOps S f size nsize (act S f size nsize st op).1 os).2 := rfl
    have hk := run_keeps (S := S) (f := f) (size := size) (nsize := nsize) [op] st cs h1 h2 h3 (by
      intro x hx
      cases op with
      | select c =>
        have : x = c := by simpa [calls] using hx
        subst this
        exact h5 x List.mem_cons_self
      | read => simp [calls] at hx
      | rewind => simp [calls] at hx)
    have e1 : (runOps S f size nsize st [op]).1 = (act S f size nsize st op).1 := rfl
    rw [e1] at hk
    rw [e]
    cases op with
    | select c =>
      obtain ⟨sel', a1, a2, _, _⟩ := chosen_select h2 h3 (h5 c List.mem_cons_self)
      have e2 : act S f size nsize st (.select c) = (⟨st.v, sel'⟩, []) := by simp only [act, a1]
      rw [e2] at hk ⊢
      refine .select ?_
      have := ih ⟨st.v, sel'⟩ (cs ++ [c]) pos hk.1 a2 (by
        intro x hx
        rcases List.mem_append.1 hx with hx | hx
        · exact h3 x hx
        · rw [List.mem_singleton] at hx
          subst hx
          exact h5 _ List.mem_cons_self) (by
        intro x hx
        rcases List.mem_append.1 hx with hx | hx
        · exact h4 x hx
        · rw [List.mem_singleton] at hx
          subst hx
          exact h6 _ List.mem_cons_self) g5 (fun x hx => h6 x (List.mem_cons_of_mem _ hx)) h7
      rw [List.map_append, specClauses, List.foldl_append] at this
      exact this
    | rewind =>
      obtain ⟨b1, b2, b3, b4⟩ := kept_rewind h1
      refine .rewind ?_
      exact ih (rewindSel st) cs (some 0) hk.1 h2 h3 h4 g5 h6 (fun k hk => by
        rw [Option.some.injEq] at hk
        subst hk
        exact ⟨_, b1, b2, at_start b3 b4⟩)
    | read =>
      rw [show calls [Op.read] = [] from rfl, List.append_nil] at hk
      cases pos with
      | none => exact .behind
      | some k =>
        obtain ⟨r0, c1, c2, c3⟩ := h7 k rfl
        have hso : SelOk (specClauses (cs.map Call.sel)) st.sel k := chosen_ok h2 h3 (fun _ => h2.plain h4)
          (fun _ h => by rw [h2.plain h4] at h; exact absurd h (by decide))
        rcases read_one (nsize := nsize) hw hsel hf hn c1 c2 c3 hso with ⟨st', out, b, j, d1, d2, d3, d4, d5, d6, d7, _⟩ | ⟨st', d1, d2⟩
        · have e2 : act S f size nsize st .read = (st', [.got st'.v out]) := by simp only [act, d1]
          rw [e2] at hk ⊢
          exact .got d2 d5 (ih st' cs (some (j + 1)) hk.1 hk.2 h3 h4 g5 h6 (fun k hk => by
            rw [Option.some.injEq] at hk
            subst hk
            exact ⟨r0, c1, c2, d6⟩))
        · have e2 : act S f size nsize st .read = (st', [.eof]) := by simp only [act, d1]
          rw [e2] at hk ⊢
          exact .eof d2 (ih st' cs none hk.1 hk.2 h3 h4 g5 h6 (fun k hk => by simp at hk))

/-- **C79**: selecting, reading and rewinding in any order, without selections by visibility number: every call of `read`
returns the next record that the selections made so far ask for, or the end if there is none.  (Nothing is said about
reading on behind the end before a rewind.) -/
theorem c79_history_partial (hw : DataSet o q mode bs s) (hsel : Selectable S o bs s ant) (hf : Holds f size s.w.out)
    (hn : ∀ b ∈ bs, b.vis.flags.length ≤ nsize) {v : VisR} (hv : AtStart s v.r) (hc : v.r.callno = 0) (ho : v.flagOff = 0)
    (hm : FlagFile s v.m) (os : List Op) (hos : ∀ c ∈ calls os, OkSel c) (hvis : ∀ c ∈ calls os, c.isVis = false) :
    Sees S o q mode bs s ant (some 0) [] os (runOps S f size nsize ⟨v, noSel⟩ os).2 :=
  history_ok hw hsel hf hn os ⟨v, noSel⟩ [] (some 0) ⟨hv.vars, hv.maxOffset, hm⟩ chosen_none (by simp) (by simp) hos hvis
    (fun k hk => by
      rw [Option.some.injEq] at hk
      subst hk
      exact ⟨v.r, hv, hc, at_start ho hm⟩)

/-- **C79**: the record number at which reading stops early (`uvread_maxvis`) is never too small: no record behind it is
selected. -/
theorem c79_maxvis (cs : List Call) (hcs : ∀ c ∈ cs, OkSel c) (hne : specClauses (cs.map Call.sel) ≠ []) (r : Miriad.Rec)
    (h0 : 0 < maxvisOf 0 (cs.foldl visStep [])) (hr : maxvisOf 0 (cs.foldl visStep []) < r.attr SEL_VIS) :
    ¬ SpecSelected r (specClauses (cs.map Call.sel)) := by
  obtain ⟨sel, _, a2, _, a4⟩ := chosen_all chosen_none (by simp) hcs
  rw [List.nil_append] at a2
  have := (chosen_ok (k := 0) a2 hcs (fun h => absurd h hne) (fun _ h => by rw [a4] at h; exact absurd h (by decide))).beside
  rw [a2.vis] at this
  exact beyond_maxvis this hne r h0 hr

end

/-! ## Examples -/

/-- the baselines of the example in `UvVisRead`, and a selection that looks at the variable `src` -/
def demoEnv : SelEnv :=
  ⟨fun n => if n = 5 then Codes.mkbl 0 1 else Codes.mkbl 1 2, [['s', 'r', 'c']],
    fun val _ => if val ['s', 'r', 'c'] = some [65, 66] then 1 else 0⟩

def demoAnt (b : Block) : Nat × Nat := if b.vis.bl = 5 then (0, 1) else (1, 2)

/-- the example can be selected from -/
theorem demo_selectable : ∃ s, DataSet demoOps demoQuant .real demoBlocks s ∧ Selectable demoEnv demoOps demoBlocks s demoAnt ∧
    Holds (content s.w.out) s.w.offset s.w.out ∧ (∃ m, FlagFile s m) ∧ AtStart s (openReader (table s.w) s.w.offset) := by
  obtain ⟨s, h0, h1, h2, h3, h4⟩ := demo_written' .real (Or.inl rfl)
  have hd : (writeAll .real demoBlocks).all (fun s =>
      s.evs.all (fun e => match e with | .put nm _ _ => decide (nm ≠ nmPol) | _ => true) &&
      decide (nmPol ∉ (table s.w).map (·.1)) && (valueAfter (upTo 1 s.evs) ['s', 'r', 'c']).isSome) = true := by decide +kernel
  rw [h0] at hd
  simp only [Option.all_some, Bool.and_eq_true, List.all_eq_true, decide_eq_true_eq] at hd
  obtain ⟨⟨d1, d2⟩, d3⟩ := hd
  refine ⟨s, h1.dataset, ⟨?_, ?_, ?_, ?_⟩, h2, h3, h4⟩
  · intro a b hab
    have : a = b := by simpa [demoOps] using hab
    rw [this]
  · intro b hb
    simp only [demoBlocks, List.mem_cons, List.not_mem_nil, or_false] at hb
    rcases hb with rfl | rfl | rfl <;> exact ⟨rfl, by decide, by decide⟩
  · intro ty d hp
    have := d1 _ hp
    simp [nmPol] at this
  · intro nm hnm
    simp only [demoEnv, List.mem_cons, List.not_mem_nil, or_false] at hnm
    rcases hnm with rfl | rfl
    · exact Or.inl d2
    · refine Or.inr fun he => ?_
      rw [he] at d3
      simp at d3

/-- the second antenna pair, or the first record -/
def demoCalls : List Call := [.other (.antennae 2 3 true), .other .disj, .vis 1 1 true]

example : ∀ c ∈ demoCalls, OkSel c := by
  intro c hc
  simp only [demoCalls, List.mem_cons, List.not_mem_nil, or_false] at hc
  rcases hc with rfl | rfl | rfl
  · show (0 : Int) ≤ 2 ∧ (2 : Int) ≤ 2048 ∧ (0 : Int) ≤ 3 ∧ (3 : Int) ≤ 2048
    omega
  · exact trivial
  · show (1 : Int) ≤ 1 ∧ (1 : Int) ≤ 1
    omega

/-- what is read of the example; `none` is the end, and an error -/
def demoRead (os : List Op) : Option (List (Option (Option Out))) :=
  (writeAll .real demoBlocks).bind fun s =>
    match Mask.run (Mask.mkopen (fun _ => 0) (fun _ => 0) 1) (s.flagOps ++ [.reopen (fun _ => 0)]) with
    | .error _ => none
    | .ok m => some ((runOps demoEnv (content s.w.out) s.w.offset 10 ⟨⟨openReader (table s.w) s.w.offset, 0, m⟩, noSel⟩ os).2.map
        fun r => match r with
          | .got _ out => some (some out)
          | .eof => some none
          | .err => none)

/-- the three records -/
def rec1 : Out := ⟨1, 2, some 3, 4, 5, .plain (List.replicate 16 9), [true, false]⟩
def rec2 : Out := ⟨1, 2, some 3, 6, 5, .plain (List.replicate 8 1), [true]⟩
def rec3 : Out := ⟨1, 2, some 8, 6, 4, .plain (List.replicate 8 2), [false]⟩

/-- the second record is skipped; after `clear` and a rewind all are read -/
example : demoRead (demoCalls.map .select ++ [.read, .read, .read, .select (.other .clear), .rewind, .read, .read, .read, .read]) =
    some [some (some rec1), some (some rec3), some none, some (some rec1), some (some rec2), some (some rec3), some none] := by
  decide +kernel

/-! ## Disagreements -/

/-- **C79, disagreement**: `select('clear')` removes the selections, but the record number at which reading stops stays:
after a selection of the first record has been read, `clear` and a rewind, only two of the three records are read. -/
theorem c79_clear_fails : demoRead ([.select (.vis 1 1 true), .read, .select (.other .clear), .rewind, .read, .read, .read]) =
    some [some (some rec1), some (some rec1), some (some rec2), some none] := by decide +kernel

/-- **C79, disagreement**: a new selection after the end of an old one is not seen before a rewind, even though records
behind the position are selected by it. -/
theorem c79_reselect_fails : demoRead ([.select (.vis 1 1 true), .read, .read, .select (.other .clear), .select (.vis 3 3 true), .read]) =
    some [some (some rec1), some none, some none] := by decide +kernel

/-- the theorems apply to the example -/
example : ∃ (s : VisW) (v : VisR) (sel : Sel) (l : List (VisR × Out)), selectAll noSel demoCalls = some sel ∧
    readAll demoEnv (content s.w.out) s.w.offset 2 4 ⟨v, sel⟩ = some l ∧
    List.Forall₂ (Returned demoOps demoQuant .real s) l (wanted demoEnv s demoAnt (specClauses (demoCalls.map Call.sel)) demoBlocks) := by
  obtain ⟨s, h1, h2, h3, ⟨m, h4⟩, h5⟩ := demo_selectable
  obtain ⟨sel, l, a1, a2, a3⟩ := c79_all (nsize := 2) (v := ⟨openReader (table s.w) s.w.offset, 0, m⟩) h1 h2 h3 (by decide) h5 rfl rfl h4
    demoCalls (by
      intro c hc
      simp only [demoCalls, List.mem_cons, List.not_mem_nil, or_false] at hc
      rcases hc with rfl | rfl | rfl
      · show (0 : Int) ≤ 2 ∧ (2 : Int) ≤ 2048 ∧ (0 : Int) ≤ 3 ∧ (3 : Int) ≤ 2048
        omega
      · exact trivial
      · show (1 : Int) ≤ 1 ∧ (1 : Int) ≤ 1
        omega) (fuel := 4) (by decide)
  exact ⟨s, _, sel, l, a1, a2, a3⟩

/-- a selection by number that stops early -/
example : 0 < maxvisOf 0 ([Call.vis 2 5 true, Call.vis 3 4 false].foldl visStep []) := by decide

end Verif.Mir.UvSel
