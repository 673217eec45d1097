import Verif.Miriad.SelectLemmas
import Verif.Scripting.Ants
import Mathlib.Data.List.Induction
/-!
# Property C07 : selection returns exactly the requested records
-/
namespace Verif.Miriad
open Verif.Util Verif.Codes Verif.Scripting

/-- C07: for every sequence of `select` calls (without `dazim`/`delev`, see below) the reader keeps exactly the
records the specification keeps. -/
theorem c07_select_semantics (cs : List SelCall) (hok : ∀ c ∈ cs, OkCall c) :
    ∃ sel, runSelect cs = some sel ∧
      ∀ r, OrderedRec r → (uvreadSelect r sel = true ↔ SpecSelected r (specClauses cs)) := by
  have hr0 : OrderedRec ⟨1, 1, 0, fun _ => 0⟩ := by unfold OrderedRec; decide
  obtain ⟨sel, e, _⟩ := run_rel hr0 cs hok .nil
  refine ⟨sel, e, fun r hr => ?_⟩
  obtain ⟨sel', e', h'⟩ := run_rel hr cs hok .nil
  rw [e] at e'; cases e'
  exact selected_step h' hr true True (by simp)

example : OkCall (.antennae 1 2 true) ∧ OrderedRec ⟨1, 2, -5, fun _ => 0⟩ := by
  unfold OkCall OrderedRec; decide

/-! ## uv_selector -/

/-- what the user asked for in one entry of the antenna list: the baselines named (a pair of antennas or
all autocorrelations), include/exclude, and polarisation codes (`none`: no restriction) -/
structure Want where
  pair : Option (Nat × Nat)
  incl : Bool
  pols : Option (List Int)

/-- is the record's baseline named by the entry? -/
def Want.Names (w : Want) (r : Rec) : Prop :=
  match w.pair with
  | none => r.i1 = r.i2
  | some (i, j) => (r.i1 = i + 1 ∧ r.i2 = j + 1) ∨ (r.i1 = j + 1 ∧ r.i2 = i + 1)

/-- the condition of one entry: right baseline (or not, when excluded) and polarisation allowed -/
def Want.Holds (w : Want) (r : Rec) : Prop :=
  (if w.incl then w.Names r else ¬ w.Names r) ∧
  (match w.pols with | none => True | some ps => r.pol ∈ ps)

/-- left to right: an included entry adds records, an excluded one removes records -/
def Selected (r : Rec) : List Want → Prop
  | [] => True
  | w :: ws => ws.foldl (fun p w => if w.incl then p ∨ w.Holds r else p ∧ w.Holds r) (w.Holds r)

/-- polarisation names, comma separated, to codes (KeyError: `none`) -/
def polCodes (p : List Char) : Option (List Int) :=
  (splitOn ',' p).mapM (fun n => str2pol (String.ofList n))

/-- entry `e` of the parsed list, with default polarisation `polStr`, expresses `w` -/
structure Expresses (polStr : Option (List Char)) (e : Entry) (w : Want) : Prop where
  bl : e.bl = w.pair.map (fun p => ij2bl p.1 p.2)
  ants : ∀ p, w.pair = some p → p.1 ≤ 2046 ∧ p.2 ≤ 2046
  incl : e.incl = w.incl
  pols : match effPol polStr e.pol with
    | none => w.pols = none
    | some p => ∃ codes, polCodes p = some codes ∧ w.pols = some codes

/-- pointwise expression of a list of wishes by a list of entries -/
inductive ExpressesAll (polStr : Option (List Char)) : List Entry → List Want → Prop
  | nil : ExpressesAll polStr [] []
  | cons {e w es ws} : Expresses polStr e w → ExpressesAll polStr es ws →
      ExpressesAll polStr (e :: es) (w :: ws)

def polCond (code : Int) : Cond := ⟨SEL_POL, true, fun r => r.pol == code⟩

/-- the clause built for one entry -/
def wantConds (w : Want) : List Cond :=
  (match w.pair with
    | none => ⟨0, w.incl, fun r => r.i1 == r.i2⟩
    | some (i, j) => ⟨0, w.incl, namesBaseline ((min i j : Nat) + 1) ((max i j : Nat) + 1)⟩) ::
  (match w.pols with | none => [] | some ps => ps.map polCond)

/-- the main call for one entry -/
def wantMain (w : Want) : SelCall :=
  match w.pair with
  | none => .auto w.incl
  | some (i, j) => .antennae ((min i j : Nat) + 1) ((max i j : Nat) + 1) w.incl

def wantCalls (w : Want) : List SelCall :=
  wantMain w :: (match w.pols with | none => [] | some ps => ps.map pySelectPol)

theorem polCalls_eq {p : List Char} {codes : List Int} (h : polCodes p = some codes) :
    polCalls p = some (codes.map pySelectPol) := by
  unfold polCalls polCodes at *
  generalize splitOn ',' p = l at *
  induction l generalizing codes with
  | nil => cases h; rfl
  | cons a l ih =>
    rw [List.mapM_cons] at h ⊢
    cases ha : str2pol (String.ofList a) with
    | none => rw [ha] at h; cases h
    | some c =>
      rw [ha] at h
      cases hl : l.mapM (fun n => str2pol (String.ofList n)) with
      | none => rw [hl] at h; cases h
      | some cs =>
        rw [hl] at h
        cases h
        simp [ih hl]

theorem entryCalls_eq {polStr : Option (List Char)} {e : Entry} {w : Want}
    (h : Expresses polStr e w) (cnt : Nat) : entryCalls polStr cnt e =
      some ((if cnt > 0 then [if w.incl then SelCall.disj else SelCall.conj] else []) ++ wantCalls w) := by
  have hpol : optPolCalls (effPol polStr e.pol) =
      some (match w.pols with | none => [] | some ps => ps.map pySelectPol) := by
    have := h.pols
    revert this
    cases effPol polStr e.pol with
    | none => intro this; simp only at this; rw [this]; rfl
    | some p =>
      rintro ⟨codes, h1, h2⟩
      rw [h2]; exact polCalls_eq h1
  have hmain : mainCall e.bl e.incl = wantMain w := by
    unfold mainCall wantMain
    rw [h.bl, h.incl]
    cases hp : w.pair with
    | none => rfl
    | some p =>
      obtain ⟨i, j⟩ := p
      obtain ⟨h1, h2⟩ := h.ants _ hp
      simp only [Option.map_some]
      rw [c01_roundtrip i j ⟨by omega, by omega⟩ ⟨by omega, by omega⟩]
      simp only [pySelectAntennae, SelCall.antennae.injEq, and_true]
      omega
  unfold entryCalls wantCalls
  rw [hpol, hmain, h.incl]
  rfl

/-- all calls of `uv_selector` -/
def allCalls : List Want → List SelCall
  | [] => []
  | w :: ws => wantCalls w ++
      ws.flatMap (fun w => (if w.incl then SelCall.disj else SelCall.conj) :: wantCalls w)

theorem selector_tail {polStr : Option (List Char)} {es : List Entry} {ws : List Want}
    (h : ExpressesAll polStr es ws) (n : Nat) (hn : 0 < n) :
    ((es.zipIdx n).mapM (fun (e, cnt) => entryCalls polStr cnt e)).map List.flatten =
      some (ws.flatMap (fun w => (if w.incl then SelCall.disj else SelCall.conj) :: wantCalls w)) := by
  induction h generalizing n with
  | nil => rfl
  | @cons e w es ws he _ ih =>
    have := ih (n + 1) (by omega)
    rw [List.zipIdx_cons, List.mapM_cons]
    simp only [entryCalls_eq he, hn, if_true]
    cases hm : (es.zipIdx (n + 1)).mapM (fun (e, cnt) => entryCalls polStr cnt e) with
    | none => rw [hm] at this; cases this
    | some l =>
      rw [hm] at this
      simp only [Option.map_some, Option.some.injEq] at this
      simp [this]

theorem selector_calls {polStr : Option (List Char)} {es : List Entry} {ws : List Want}
    (h : ExpressesAll polStr es ws) : uvSelector (some es) polStr = some (allCalls ws) := by
  unfold uvSelector
  cases h with
  | nil => rfl
  | @cons e w es ws he hes =>
    have := selector_tail hes 1 (by decide)
    simp only
    rw [List.zipIdx_cons, List.mapM_cons]
    simp only [entryCalls_eq he, Nat.lt_irrefl, if_false, gt_iff_lt, List.nil_append]
    cases hm : (es.zipIdx (0 + 1)).mapM (fun (e, cnt) => entryCalls polStr cnt e) with
    | none => rw [hm] at this; cases this
    | some l =>
      rw [hm] at this
      simp only [Option.map_some, Option.some.injEq] at this
      simp [this, allCalls]

theorem spec_pols (ps : List Int) (cls : List SpecClause) (b : Bool) (l : List Cond) :
    (ps.map pySelectPol).foldl specStep (cls ++ [⟨b, l⟩]) = cls ++ [⟨b, l ++ ps.map polCond⟩] := by
  induction ps generalizing l with
  | nil => simp
  | cons p ps ih =>
    rw [List.map_cons, List.foldl_cons]
    have : specStep (cls ++ [⟨b, l⟩]) (pySelectPol p) = cls ++ [⟨b, l ++ [polCond p]⟩] :=
      addCond_append _ _ _
    rw [this, ih]
    simp

theorem spec_want (w : Want) (cls : List SpecClause) (b : Bool) :
    (wantCalls w).foldl specStep (cls ++ [⟨b, []⟩]) = cls ++ [⟨b, wantConds w⟩] := by
  unfold wantCalls
  rw [List.foldl_cons]
  have h1 : specStep (cls ++ [⟨b, []⟩]) (wantMain w) =
      cls ++ [⟨b, [(match w.pair with
        | none => ⟨0, w.incl, fun r => r.i1 == r.i2⟩
        | some (i, j) =>
          ⟨0, w.incl, namesBaseline ((min i j : Nat) + 1) ((max i j : Nat) + 1)⟩)]⟩] := by
    unfold wantMain
    cases w.pair with
    | none => exact addCond_append _ _ _
    | some p => exact addCond_append _ _ _
  rw [h1]
  unfold wantConds
  cases w.pols with
  | none => rfl
  | some ps => exact spec_pols ps cls b _

theorem spec_want_first (w : Want) :
    (wantCalls w).foldl specStep [] = [⟨true, wantConds w⟩] := by
  have h := spec_want w [] true
  unfold wantCalls at *
  rw [List.foldl_cons] at h ⊢
  have : specStep [] (wantMain w) = specStep ([] ++ [⟨true, []⟩]) (wantMain w) := by
    unfold wantMain; cases w.pair <;> rfl
  rw [this]; exact h

theorem spec_rest (ws : List Want) (cls : List SpecClause) (hne : cls ≠ []) :
    (ws.flatMap (fun w => (if w.incl then SelCall.disj else SelCall.conj) :: wantCalls w)).foldl
      specStep cls = cls ++ ws.map (fun w => ⟨!w.incl, wantConds w⟩) := by
  induction ws generalizing cls with
  | nil => simp
  | cons w ws ih =>
    rw [List.flatMap_cons, List.foldl_append, List.foldl_cons]
    have h1 : specStep cls (if w.incl then SelCall.disj else SelCall.conj) =
        cls ++ [⟨!w.incl, []⟩] := by
      cases w.incl <;> simp [specStep, hne]
    rw [h1, spec_want, ih _ (by simp)]
    simp

theorem polGroup (r : Rec) (ps : List Int) :
    groupKeeps r (ps.map polCond) = (ps.isEmpty || decide (r.pol ∈ ps)) := by
  induction ps using List.reverseRecOn with
  | nil => rfl
  | append_singleton ps p ih =>
    rw [List.map_append, List.map_singleton, groupKeeps_snoc, ih]
    by_cases h : r.pol = p
    · simp [polCond, h]
    · cases ps with
      | nil => simp [polCond, h]
      | cons a l => simp [polCond, h]

theorem namesBaseline_iff {r : Rec} (hr : OrderedRec r) (i j : Nat) :
    namesBaseline ((min i j : Nat) + 1) ((max i j : Nat) + 1) r = true ↔
      ((r.i1 = i + 1 ∧ r.i2 = j + 1) ∨ (r.i1 = j + 1 ∧ r.i2 = i + 1)) := by
  obtain ⟨h1, h2, h3⟩ := hr
  unfold namesBaseline
  simp only [Bool.or_eq_true, Bool.and_eq_true, beq_iff_eq]
  omega

theorem wantConds_keeps (w : Want) (r : Rec) (hr : OrderedRec r) (b : Bool)
    (hp : ∀ ps, w.pols = some ps → ps ≠ []) :
    SpecClause.Keeps r ⟨b, wantConds w⟩ ↔ w.Holds r := by
  have hmain : ∀ c : Cond, c.ty = 0 → c.incl = w.incl → (c.test r = true ↔ w.Names r) →
      (SpecClause.Keeps r ⟨b, c :: (match w.pols with | none => [] | some ps => ps.map polCond)⟩ ↔
        w.Holds r) := by
    intro c h0 hi ht
    have hpol0 : ∀ ps : List Int, (ps.map polCond).filter (fun x => decide (x.ty = 0)) = [] := by
      intro ps; rw [List.filter_eq_nil_iff]; intro x hx
      rw [List.mem_map] at hx; obtain ⟨y, _, rfl⟩ := hx; simp [polCond]
    have hpol10 : ∀ ps : List Int, (ps.map polCond).filter (fun x => decide (x.ty = SEL_POL)) =
        ps.map polCond := by
      intro ps; rw [List.filter_eq_self]; intro x hx
      rw [List.mem_map] at hx; obtain ⟨y, _, rfl⟩ := hx; simp [polCond]
    have hpolt : ∀ (ps : List Int) (t : Nat), t ≠ SEL_POL →
        (ps.map polCond).filter (fun x => decide (x.ty = t)) = [] := by
      intro ps t ht; rw [List.filter_eq_nil_iff]; intro x hx
      rw [List.mem_map] at hx; obtain ⟨y, _, rfl⟩ := hx
      exact fun e => ht (of_decide_eq_true e).symm
    have hg0 : groupKeeps r [c] = true ↔ (if w.incl then w.Names r else ¬ w.Names r) := by
      by_cases htr : c.test r = true
      · have := ht.1 htr
        cases hw : w.incl <;> simp [groupKeeps, htr, hi, hw, this]
      · have : ¬ w.Names r := fun h => htr (ht.2 h)
        cases hw : w.incl <;> simp [groupKeeps, htr, hi, hw, this]
    unfold SpecClause.Keeps Want.Holds
    simp only
    cases hw : w.pols with
    | none =>
      simp only [and_true]
      rw [← hg0]
      constructor
      · intro h
        have := h 0
        simpa [h0] using this
      · intro h t
        by_cases e : t = 0
        · subst e; simpa [h0] using h
        · have : ¬ (c.ty = t) := by omega
          simp [this, groupKeeps]
    | some ps =>
      simp only
      rw [← hg0]
      have hne := hp ps hw
      have hnp : ¬ (c.ty = SEL_POL) := by rw [h0]; decide
      constructor
      · intro h
        constructor
        · have := h 0
          rw [List.filter_cons, hpol0, h0] at this
          simpa using this
        · have := h SEL_POL
          rw [List.filter_cons, hpol10] at this
          simp only [hnp, decide_false, Bool.false_eq_true, if_false] at this
          rw [polGroup] at this
          simpa [hne] using this
      · rintro ⟨ha, hb⟩ t
        by_cases e : t = SEL_POL
        · subst e
          rw [List.filter_cons, hpol10]
          simp only [hnp, decide_false, Bool.false_eq_true, if_false]
          rw [polGroup]; simp [hb]
        · rw [List.filter_cons, hpolt ps t e]
          by_cases e0 : c.ty = t
          · simpa [e0] using ha
          · simp [e0, groupKeeps]
  unfold wantConds
  cases hp' : w.pair with
  | none => exact hmain _ rfl rfl (by simp [Want.Names, hp'])
  | some p =>
    obtain ⟨i, j⟩ := p
    apply hmain _ rfl rfl
    rw [namesBaseline_iff hr]
    simp [Want.Names, hp']

theorem wantCalls_ok (w : Want) (h : ∀ p, w.pair = some p → p.1 ≤ 2046 ∧ p.2 ≤ 2046) :
    ∀ c ∈ wantCalls w, OkCall c := by
  intro c hc
  unfold wantCalls at hc
  rcases List.mem_cons.1 hc with rfl | hc
  · unfold wantMain
    cases hp : w.pair with
    | none => trivial
    | some p =>
      obtain ⟨i, j⟩ := p
      have := h _ hp
      simp only [OkCall]
      simp only at this
      omega
  · cases hw : w.pols with
    | none => rw [hw] at hc; cases hc
    | some ps =>
      rw [hw] at hc
      rw [List.mem_map] at hc
      obtain ⟨p, _, rfl⟩ := hc
      simp [pySelectPol, OkCall, SEL_POL]

theorem polCodes_ne {p : List Char} {codes : List Int} (h : polCodes p = some codes) : codes ≠ [] := by
  unfold polCodes at h
  have hne := splitOn_ne_nil ',' p
  generalize splitOn ',' p = l at *
  cases l with
  | nil => exact absurd rfl hne
  | cons a l =>
    rw [List.mapM_cons] at h
    intro e; subst e
    cases ha : str2pol (String.ofList a) with
    | none => rw [ha] at h; cases h
    | some c =>
      rw [ha] at h
      cases hl : l.mapM (fun n => str2pol (String.ofList n)) with
      | none => rw [hl] at h; cases h
      | some cs => rw [hl] at h; cases h

theorem expresses_pols_ne {polStr : Option (List Char)} {e : Entry} {w : Want}
    (h : Expresses polStr e w) : ∀ ps, w.pols = some ps → ps ≠ [] := by
  intro ps hps
  have := h.pols
  revert this
  cases effPol polStr e.pol with
  | none => intro this; simp only at this; rw [this] at hps; cases hps
  | some p =>
    rintro ⟨codes, h1, h2⟩
    rw [h2] at hps; cases hps
    exact polCodes_ne h1

theorem foldl_congr_prop {α : Type} (ws : List α) (f g : Prop → α → Prop) (p q : Prop) (hpq : p ↔ q)
    (h : ∀ w ∈ ws, ∀ p q : Prop, (p ↔ q) → (f p w ↔ g q w)) : ws.foldl f p ↔ ws.foldl g q := by
  induction ws generalizing p q with
  | nil => exact hpq
  | cons a ws ih =>
    rw [List.foldl_cons, List.foldl_cons]
    exact ih _ _ (h a (by simp) p q hpq) (fun w hw => h w (List.mem_cons_of_mem _ hw))

/-- C07: after `uv_selector(uv, ants, pol)` a record (with its antennas in ascending order) is returned by
the reader iff the antenna list selects it. -/
theorem c07_uv_selector (polStr : Option (List Char)) (es : List Entry) (ws : List Want)
    (h : ExpressesAll polStr es ws) :
    ∃ calls sel, uvSelector (some es) polStr = some calls ∧ runSelect calls = some sel ∧
      ∀ r, OrderedRec r → (uvreadSelect r sel = true ↔ Selected r ws) := by
  refine ⟨allCalls ws, ?_⟩
  have hex : ∀ w ∈ ws, ∃ e, Expresses polStr e w := by
    induction h with
    | nil => intro w hw; cases hw
    | @cons e w es ws he _ ih =>
      intro w' hw'
      rcases List.mem_cons.1 hw' with rfl | hw'
      · exact ⟨e, he⟩
      · exact ih w' hw'
  have hok : ∀ c ∈ allCalls ws, OkCall c := by
    intro c hc
    cases ws with
    | nil => cases hc
    | cons w ws =>
      unfold allCalls at hc
      rcases List.mem_append.1 hc with hc | hc
      · obtain ⟨e, he⟩ := hex w (by simp)
        exact wantCalls_ok w he.ants c hc
      · rw [List.mem_flatMap] at hc
        obtain ⟨w', hw', hc⟩ := hc
        rcases List.mem_cons.1 hc with rfl | hc
        · cases w'.incl <;> trivial
        · obtain ⟨e, he⟩ := hex w' (List.mem_cons_of_mem _ hw')
          exact wantCalls_ok w' he.ants c hc
  obtain ⟨sel, e, hsem⟩ := c07_select_semantics (allCalls ws) hok
  refine ⟨sel, selector_calls h, e, fun r hr => ?_⟩
  rw [hsem r hr]
  unfold specClauses
  cases ws with
  | nil => exact Iff.rfl
  | cons w ws =>
    have e1 : (allCalls (w :: ws)).foldl specStep [] =
        ⟨true, wantConds w⟩ :: ws.map (fun w => ⟨!w.incl, wantConds w⟩) := by
      unfold allCalls
      rw [List.foldl_append, spec_want_first, spec_rest _ _ (by simp)]
      rfl
    rw [e1]
    unfold SpecSelected Selected
    rw [List.foldl_cons, List.foldl_map]
    have hk : ∀ w' ∈ w :: ws, ∀ b, SpecClause.Keeps r ⟨b, wantConds w'⟩ ↔ w'.Holds r := by
      intro w' hw' b
      obtain ⟨e, he⟩ := hex w' hw'
      exact wantConds_keeps w' r hr b (expresses_pols_ne he)
    apply foldl_congr_prop
    · simp only [if_true, true_and]; exact hk w (by simp) true
    · intro w' hw' p q hpq
      have := hk w' (List.mem_cons_of_mem _ hw') (!w'.incl)
      cases hi : w'.incl
      · simp only [hi, Bool.not_false, if_true, Bool.false_eq_true, if_false] at this ⊢
        rw [hpq, this]
      · simp only [hi, Bool.not_true, if_true, Bool.false_eq_true, if_false] at this ⊢
        rw [hpq, this]

/-- the hypotheses of `c07_uv_selector` are met by `0_1,cross` with polarisation xx,yy -/
example : ExpressesAll (some "xx,yy".toList)
    [⟨some (ij2bl 0 1), true, none⟩, ⟨none, false, none⟩]
    [⟨some (0, 1), true, some [-5, -6]⟩, ⟨none, false, some [-5, -6]⟩] := by
  refine .cons ⟨rfl, ?_, rfl, ⟨[-5, -6], by decide, rfl⟩⟩
    (.cons ⟨rfl, ?_, rfl, ⟨[-5, -6], by decide, rfl⟩⟩ .nil)
  · intro p hp; cases hp; decide
  · intro p hp; cases hp

/-- the record written for antennas `i`, `j` (counted from 0, `i ≤ j`) -/
def recOf (i j : Nat) (pol : Int) : Rec := ⟨i + 1, j + 1, pol, fun _ => 0⟩

/-- C07, from the command line to the records: with `-a n1,n2,...` exactly the baselines involving a listed
antenna are read, in every polarisation. -/
theorem c07_antenna_list_end_to_end (ns : List Nat) (nants : Nat) (hn : nants ≤ 2047)
    (hns : ∀ n ∈ ns, n < nants) (hne : ns ≠ []) :
    ∃ es calls sel, parseAnts (joinWith ',' (ns.map printNat)) nants = some es ∧
      uvSelector (some es) none = some calls ∧ runSelect calls = some sel ∧
      ∀ i j pol, i ≤ j → j < nants →
        (uvreadSelect (recOf i j pol) sel = true ↔ i ∈ ns ∨ j ∈ ns) := by
  have ht : joinWith ',' (ns.map printNat) =
      antText (ns.map (fun n => AntItem.single ⟨false, n, none⟩)) := by
    unfold antText
    rw [List.map_map]
    congr 1
    apply List.map_congr_left
    intro n _
    simp [AntItem.text, Ant.text, Feed.text]
  -- the parsed entries and the wishes they express
  have hm : meaning nants (ns.map (fun n => AntItem.single ⟨false, n, none⟩)) =
      ns.flatMap (fun (n : Nat) => (List.range nants).map (fun (j : Nat) =>
        (⟨some (ij2bl n j), true, none⟩ : Entry))) := by
    unfold meaning
    have : ∀ l : List Nat, (l.map (fun n => AntItem.single ⟨false, n, none⟩)).takeWhile
        (fun i => !i.isAll) = l.map (fun n => AntItem.single ⟨false, n, none⟩) := by
      intro l
      induction l with
      | nil => rfl
      | cons a l ih => rw [List.map_cons, List.takeWhile_cons, ih]; rfl
    rw [← List.map_reverse, this, List.map_reverse, List.reverse_reverse, List.flatMap_map]
    congr 1
    funext n
    simp only [AntItem.entries, pairEntries, feedProducts]
    induction List.range nants with
    | nil => rfl
    | cons a l ih => rw [List.flatMap_cons, ih]; rfl
  let ws : List Want := ns.flatMap (fun n => (List.range nants).map (fun j =>
    (⟨some (n, j), true, none⟩ : Want)))
  have hex : ExpressesAll none (ns.flatMap (fun (n : Nat) => (List.range nants).map (fun (j : Nat) =>
        (⟨some (ij2bl n j), true, none⟩ : Entry)))) ws := by
    have happ : ∀ {a b c d}, ExpressesAll none a b → ExpressesAll none c d →
        ExpressesAll none (a ++ c) (b ++ d) := by
      intro a b c d h1 h2
      induction h1 with
      | nil => exact h2
      | cons h _ ih => exact .cons h ih
    have hrow : ∀ n, n < nants → ∀ l : List Nat, (∀ j ∈ l, j < nants) →
        ExpressesAll none (l.map (fun (j : Nat) => (⟨some (ij2bl n j), true, none⟩ : Entry)))
          (l.map (fun j => (⟨some (n, j), true, none⟩ : Want))) := by
      intro n hn' l
      induction l with
      | nil => intro _; exact .nil
      | cons j l ih =>
        intro hl
        refine .cons ⟨rfl, ?_, rfl, rfl⟩ (ih (fun x hx => hl x (List.mem_cons_of_mem _ hx)))
        intro p hp; cases hp
        have := hl j (by simp)
        simp only; omega
    have hall : ∀ l : List Nat, (∀ n ∈ l, n < nants) → ExpressesAll none
        (l.flatMap (fun (n : Nat) => (List.range nants).map (fun (j : Nat) =>
          (⟨some (ij2bl n j), true, none⟩ : Entry))))
        (l.flatMap (fun n => (List.range nants).map (fun j => (⟨some (n, j), true, none⟩ : Want)))) := by
      intro l
      induction l with
      | nil => intro _; exact .nil
      | cons n l ih =>
        intro hl
        rw [List.flatMap_cons, List.flatMap_cons]
        exact happ (hrow n (hl n (by simp)) _ (fun j hj => List.mem_range.1 hj))
          (ih (fun x hx => hl x (List.mem_cons_of_mem _ hx)))
    exact hall ns hns
  obtain ⟨calls, sel, h1, h2, h3⟩ := c07_uv_selector none _ ws hex
  refine ⟨_, calls, sel, by rw [ht, c06_parse_meaning, hm], h1, h2, ?_⟩
  intro i j pol hij hj
  have hr : OrderedRec (recOf i j pol) := by
    unfold OrderedRec recOf; simp only; omega
  rw [h3 _ hr]
  -- the disjunction over all wishes
  have hsel : ∀ ws : List Want, ws ≠ [] → (∀ w ∈ ws, w.incl = true) →
      (Selected (recOf i j pol) ws ↔ ∃ w ∈ ws, w.Holds (recOf i j pol)) := by
    intro ws hne hin
    cases ws with
    | nil => exact absurd rfl hne
    | cons w ws =>
      unfold Selected
      have : ∀ (l : List Want) (p : Prop), (∀ w ∈ l, w.incl = true) →
          (l.foldl (fun p w => if w.incl then p ∨ w.Holds (recOf i j pol)
            else p ∧ w.Holds (recOf i j pol)) p ↔ p ∨ ∃ w ∈ l, w.Holds (recOf i j pol)) := by
        intro l
        induction l with
        | nil => intro p _; simp
        | cons a l ih =>
          intro p hl
          rw [List.foldl_cons, ih _ (fun x hx => hl x (List.mem_cons_of_mem _ hx)),
            if_pos (hl a (by simp))]
          simp only [List.mem_cons, exists_eq_or_imp]
          exact or_assoc
      refine (this ws _ (fun x hx => hin x (List.mem_cons_of_mem _ hx))).trans ?_
      simp only [List.mem_cons, exists_eq_or_imp]
  have hmem : ∀ w, w ∈ ws ↔ ∃ n ∈ ns, ∃ k, k < nants ∧ w = ⟨some (n, k), true, none⟩ := by
    intro w
    simp only [ws, List.mem_flatMap, List.mem_map, List.mem_range]
    constructor
    · rintro ⟨n, hn1, k, hk, rfl⟩; exact ⟨n, hn1, k, hk, rfl⟩
    · rintro ⟨n, hn1, k, hk, rfl⟩; exact ⟨n, hn1, k, hk, rfl⟩
  rw [hsel]
  · constructor
    · rintro ⟨w, hw, hh⟩
      obtain ⟨n, hn1, k, hk, rfl⟩ := (hmem w).1 hw
      have hh1 := hh.1
      simp only [if_true, Want.Names, recOf] at hh1
      rcases hh1 with ⟨a, b⟩ | ⟨a, b⟩
      · left; have : n = i := by omega
        subst this; exact hn1
      · right; have : n = j := by omega
        subst this; exact hn1
    · rintro (h | h)
      · exact ⟨⟨some (i, j), true, none⟩, (hmem _).2 ⟨i, h, j, hj, rfl⟩, Or.inl ⟨rfl, rfl⟩, trivial⟩
      · exact ⟨⟨some (j, i), true, none⟩, (hmem _).2 ⟨j, h, i, by omega, rfl⟩,
          Or.inr ⟨rfl, rfl⟩, trivial⟩
  · obtain ⟨n, hn1⟩ := List.exists_mem_of_ne_nil _ hne
    have : (⟨some (n, 0), true, none⟩ : Want) ∈ ws :=
      (hmem _).2 ⟨n, hn1, 0, by have := hns n hn1; omega, rfl⟩
    intro e; rw [e] at this; cases this
  · intro w hw
    obtain ⟨n, _, k, _, rfl⟩ := (hmem w).1 hw
    rfl

example : ∃ es calls sel, parseAnts (joinWith ',' ([3].map printNat)) 5 = some es ∧
    uvSelector (some es) none = some calls ∧ runSelect calls = some sel ∧
    uvreadSelect (recOf 1 3 (-5)) sel = true ∧ uvreadSelect (recOf 1 2 (-5)) sel = false := by
  obtain ⟨es, calls, sel, h1, h2, h3, h4⟩ :=
    c07_antenna_list_end_to_end [3] 5 (by decide) (by decide) (by decide)
  refine ⟨es, calls, sel, h1, h2, h3, (h4 1 3 (-5) (by decide) (by decide)).2 (by decide), ?_⟩
  cases h : uvreadSelect (recOf 1 2 (-5)) sel with
  | false => rfl
  | true => exact absurd ((h4 1 2 (-5) (by decide) (by decide)).1 h) (by decide)

/-! ## Where the code does not do what was asked -/

/-- Records are only matched when their antennas are stored in ascending order: a record stored as (2,0) is
dropped by a selection of baseline 0_2 and kept by a selection of baseline 1_1. -/
theorem c07_descending_record_violated :
    (∃ sel, runSelect [pySelectAntennae 0 2 true] = some sel ∧ uvreadSelect (recOf 2 0 (-5)) sel = false) ∧
    (∃ sel, runSelect [pySelectAntennae 1 1 true] = some sel ∧ uvreadSelect (recOf 2 0 (-5)) sel = true) :=
  ⟨⟨_, rfl, by decide⟩, ⟨_, rfl, by decide⟩⟩

/-- `uv_selector(uv, 'all', 'xx')` makes no selection at all: the polarisation is ignored and a yy record is
returned. -/
theorem c07_all_ignores_pol_violated :
    ∃ es calls sel, parseAnts "all".toList 4 = some es ∧ uvSelector (some es) (some "xx".toList) = some calls ∧
      runSelect calls = some sel ∧ uvreadSelect (recOf 0 1 (-6)) sel = true := by
  have h := c06_parse_meaning [.all] 4
  exact ⟨[], [], [], h, rfl, rfl, rfl⟩

/-- Excluding one polarisation product of a baseline (`cross,-0_1` with feeds x and x) also removes every other
polarisation of every baseline: the yy record of baseline 0_2 is lost. -/
theorem c07_exclude_with_feed_violated :
    ∃ calls sel, uvSelector (some [⟨some (ij2bl 0 2), true, none⟩,
        ⟨some (ij2bl 0 1), false, some ['x', 'x']⟩]) none = some calls ∧
      runSelect calls = some sel ∧ uvreadSelect (recOf 0 2 (-6)) sel = false :=
  ⟨_, _, rfl, rfl, by decide⟩

/-- The help text says `auto` restricts the active baselines to autocorrelations, but `0_1,auto` also returns
the cross correlation 0_1 (and autocorrelations that were not active). -/
theorem c07_auto_adds_violated (r : Rec) (hr : r = recOf 0 1 (-5) ∨ r = recOf 5 5 (-5)) :
    ∃ calls sel, uvSelector (some [⟨some (ij2bl 0 1), true, none⟩, ⟨none, true, none⟩]) none = some calls ∧
      runSelect calls = some sel ∧ uvreadSelect r sel = true := by
  have hex : ExpressesAll none [⟨some (ij2bl 0 1), true, none⟩, ⟨none, true, none⟩]
      [⟨some (0, 1), true, none⟩, ⟨none, true, none⟩] := by
    refine .cons ⟨rfl, ?_, rfl, rfl⟩ (.cons ⟨rfl, ?_, rfl, rfl⟩ .nil)
    · intro p hp; cases hp; decide
    · intro p hp; cases hp
  obtain ⟨calls, sel, h1, h2, h3⟩ := c07_uv_selector none _ _ hex
  refine ⟨calls, sel, h1, h2, (h3 r ?_).2 ?_⟩
  · rcases hr with rfl | rfl <;> (unfold OrderedRec recOf; decide)
  · rcases hr with rfl | rfl
    · exact Or.inl ⟨Or.inl ⟨rfl, rfl⟩, trivial⟩
    · exact Or.inr ⟨rfl, trivial⟩

/-- Selections on `dazim` are silently ignored when the same clause has a condition of an earlier type
(here polarisation), because the list is sorted by type number but `dazim` is tested out of order. -/
theorem c07_dazim_ignored_violated :
    ∃ sel, runSelect [.oper SEL_DAZIM (fun _ => false) true, .oper SEL_POL (fun r => r.pol == -5) true] =
      some sel ∧ uvreadSelect (recOf 0 1 (-5)) sel = true ∧
    ∃ sel, runSelect [.oper SEL_DAZIM (fun _ => false) true] = some sel ∧
      uvreadSelect (recOf 0 1 (-5)) sel = false :=
  ⟨_, rfl, by decide, _, rfl, by decide⟩

end Verif.Miriad
