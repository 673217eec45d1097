import Verif.Sky.MapModel
import Verif.Sky.SchemeProps
import Mathlib.Algebra.Order.Floor.Ring
import Mathlib.Data.Rat.Floor
import Mathlib.Tactic.Ring
import Mathlib.Tactic.FieldSimp
/-!
# Properties C34, C35, C62, C63 : weighted maps
-/
set_option linter.unusedSectionVars false
namespace Verif.Sky
open Verif.Img

variable {F : Type} [Field F] [LinearOrder F]

/-! ## Specification -/

/-- a sample: pixel, weight, flux -/
abbrev Sample (F : Type) := Int × F × F

open Classical in
/-- total weight of the samples for pixel `i` of `n` -/
noncomputable def totalWgt (n : Nat) (l : List (Sample F)) (i : Nat) : F :=
  ((l.filter (fun s => decide (Idx n s.1 i))).map (fun s => s.2.1)).sum

open Classical in
/-- total of weight times flux -/
noncomputable def totalFlux (n : Nat) (l : List (Sample F)) (i : Nat) : F :=
  ((l.filter (fun s => decide (Idx n s.1 i))).map (fun s => s.2.1 * s.2.2)).sum

/-- no pixel is named twice in one call -/
def Distinct (n : Nat) (px : List Int) : Prop :=
  px.Pairwise (fun p q => ∀ i, ¬ (Idx n p i ∧ Idx n q i))

/-- the samples of a call, of a list of calls -/
def samplesOf (c : List Int × List F × List F × List (List F)) : List (Sample F) := c.1.zip (c.2.1.zip c.2.2.1)

/-- a well-formed map -/
structure WMap.Ok (m : WMap F) : Prop where
  wgt : m.wgt.length = m.map.length
  small : m.map.length < 2147483648

/-! ## Lemmas -/

theorem getPx_some {V : Type} (l : List V) (px : List Int) (h : ∀ p ∈ px, ∃ i, Idx l.length p i) :
    ∃ old, getPx l px = some old ∧ old.length = px.length ∧
      ∀ (k : Nat) (p : Int), px[k]? = some p → ∀ i, Idx l.length p i → old[k]? = l[i]? := by
  unfold getPx
  induction px with
  | nil => exact ⟨[], rfl, rfl, fun k p hk => by simp at hk⟩
  | cons p px ih =>
    obtain ⟨old, e1, e2, e3⟩ := ih (fun q hq => h q (by simp [hq]))
    obtain ⟨i, hi⟩ := h p (by simp)
    refine ⟨l[i]'hi.1 :: old, ?_, by simp [e2], ?_⟩
    · rw [List.mapM_cons, (npIndex_iff _ _ _).2 hi, Option.bind_some, List.getElem?_eq_getElem hi.1, e1]
      rfl
    · intro k q hk j hj
      cases k with
      | zero =>
        simp only [List.getElem?_cons_zero, Option.some.injEq] at hk
        subst hk
        have : i = j := by unfold Idx at hi hj; omega
        subst this
        simp [hi.1]
      | succ k =>
        simp only [List.getElem?_cons_succ] at hk ⊢
        exact e3 k q hk j hj

theorem getPx_range {V : Type} (l : List V) (px : List Int) (old : List V) (h : getPx l px = some old) :
    ∀ p ∈ px, ∃ i, Idx l.length p i := by
  unfold getPx at h
  induction px generalizing old with
  | nil => simp
  | cons p px ih =>
    rw [List.mapM_cons] at h
    cases hx : npIndex l.length p with
    | none => rw [hx] at h; cases h
    | some i =>
      rw [hx, Option.bind_some] at h
      cases hy : l[i]? with
      | none => rw [hy] at h; cases h
      | some v =>
        rw [hy, Option.bind_eq_bind, Option.bind_some, Option.bind_eq_bind] at h
        cases hz : px.mapM (fun p => (npIndex l.length p).bind (fun i => l[i]?)) with
        | none => rw [hz] at h; cases h
        | some r =>
          intro q hq
          rw [List.mem_cons] at hq
          rcases hq with rfl | hq
          · exact ⟨i, (npIndex_iff _ _ _).1 hx⟩
          · exact ih r hz q hq

open Classical in
theorem sumFor_zipWith (n : Nat) (i : Nat) (v : F) : ∀ (px : List Int) (old vals : List F), old.length = px.length →
    vals.length = px.length → (∀ (k : Nat) (p : Int), px[k]? = some p → Idx n p i → old[k]? = some v) →
    sumFor n px (List.zipWith (· + ·) old vals) i = ((px.filter (fun p => decide (Idx n p i))).length : F) * v + sumFor n px vals i := by
  intro px
  induction px with
  | nil => intro old vals _ _ _; simp [sumFor]
  | cons p px ih =>
    intro old vals ho hv hk
    cases old with
    | nil => simp at ho
    | cons o old =>
      cases vals with
      | nil => simp at hv
      | cons w vals =>
        have hrec := ih old vals (by simpa using ho) (by simpa using hv) (fun k q hq hi => by
          have := hk (k + 1) q (by simpa using hq) hi
          simpa using this)
        unfold sumFor at hrec ⊢
        rw [List.zipWith_cons_cons, List.zip_cons_cons, List.zip_cons_cons, List.filter_cons, List.filter_cons, List.filter_cons]
        by_cases hp : Idx n p i
        · have ho' : o = v := by
            have := hk 0 p (by simp) hp
            simpa using this
          simp only [hp, decide_true, if_true, List.map_cons, List.sum_cons, List.length_cons]
          rw [hrec, ho']
          push_cast
          ring
        · simp only [hp, decide_false, Bool.false_eq_true, if_false]
          exact hrec

open Classical in
/-- the effect of `hpm[px] += vals` on a pixel -/
theorem incr_spec (l l' : List F) (px : List Int) (vals : List F) (hs : Small l.length px) (h : incr l px vals = some l') :
    l'.length = l.length ∧ px.length = vals.length ∧ (∀ p ∈ px, ∃ i, Idx l.length p i) ∧
    ∀ i v, l[i]? = some v → l'[i]? = some (if ∃ p ∈ px, Idx l.length p i then
      ((px.filter (fun p => decide (Idx l.length p i))).length : F) * v + sumFor l.length px vals i else v) := by
  unfold incr at h
  rw [Option.bind_eq_bind, Option.bind_eq_some_iff] at h
  obtain ⟨old, h1, h2⟩ := h
  rw [Option.bind_eq_some_iff] at h2
  obtain ⟨new, h2, h3⟩ := h2
  unfold zipArr at h2
  split at h2
  case isFalse => cases h2
  rename_i hlen
  rw [Option.some.injEq] at h2
  subst h2
  have hr := getPx_range l px old h1
  obtain ⟨old', e1, e2, e3⟩ := getPx_some l px hr
  rw [h1, Option.some.injEq] at e1
  subst e1
  obtain ⟨a1, a2, a3⟩ := c30_assign l l' px _ hs h3
  refine ⟨a1, by omega, hr, ?_⟩
  intro i v hv
  have hi : i < l.length := by
    rw [List.getElem?_eq_some_iff] at hv
    exact hv.1
  rw [a3 i hi]
  by_cases hc : ∃ p ∈ px, Idx l.length p i
  · rw [if_pos hc, if_pos hc]
    congr 1
    apply sumFor_zipWith _ _ v px old vals e2 (by omega)
    intro k p hk hp
    rw [e3 k p hk i hp, hv]
  · rw [if_neg hc, if_neg hc, hv]

theorem incr_total (l : List F) (px : List Int) (vals : List F) (hs : Small l.length px) (hl : px.length = vals.length)
    (hr : ∀ p ∈ px, ∃ i, Idx l.length p i) : ∃ l', incr l px vals = some l' := by
  obtain ⟨old, e1, e2, _⟩ := getPx_some l px hr
  unfold incr zipArr
  rw [e1, Option.bind_eq_bind, Option.bind_some, if_pos (by omega), Option.bind_some]
  cases h : setPx l px (Val.arr (List.zipWith (· + ·) old vals)) with
  | some l' => exact ⟨l', rfl⟩
  | none =>
    rcases (c30_raises_iff l px _ hs).1 h with h | ⟨p, hp, h⟩
    · simp [Val.toList] at h; omega
    · obtain ⟨i, hi⟩ := hr p hp
      exact absurd hi (h i)

open Classical in
theorem count_distinct (n : Nat) (px : List Int) (i : Nat) (hd : Distinct n px) (h : ∃ p ∈ px, Idx n p i) :
    (px.filter (fun p => decide (Idx n p i))).length = 1 := by
  induction px with
  | nil => simp at h
  | cons p px ih =>
    unfold Distinct at hd
    rw [List.pairwise_cons] at hd
    rw [List.filter_cons]
    by_cases hp : Idx n p i
    · have : px.filter (fun p => decide (Idx n p i)) = [] := by
        rw [List.filter_eq_nil_iff]
        intro q hq hc
        exact hd.1 q hq i ⟨hp, by simpa using hc⟩
      simp [hp, this]
    · simp only [hp, decide_false, Bool.false_eq_true, if_false]
      apply ih hd.2
      obtain ⟨q, hq, hi⟩ := h
      rw [List.mem_cons] at hq
      rcases hq with rfl | hq
      · exact absurd hi hp
      · exact ⟨q, hq, hi⟩

theorem sumFor_none (n : Nat) (px : List Int) (vals : List F) (i : Nat) (h : ¬ ∃ p ∈ px, Idx n p i) : sumFor n px vals i = 0 := by
  classical
  unfold sumFor
  have : (px.zip vals).filter (fun e => decide (Idx n e.1 i)) = [] := by
    rw [List.filter_eq_nil_iff]
    intro e he hc
    exact h ⟨e.1, (List.of_mem_zip he).1, by simpa using hc⟩
  rw [this]
  rfl

/-- `hpm[px] += vals` with every pixel named once adds to each pixel what was given for it -/
theorem incr_distinct (l l' : List F) (px : List Int) (vals : List F) (hs : Small l.length px) (hd : Distinct l.length px)
    (h : incr l px vals = some l') : l'.length = l.length ∧ px.length = vals.length ∧
    ∀ i v, l[i]? = some v → l'[i]? = some (v + sumFor l.length px vals i) := by
  classical
  obtain ⟨h1, h2, _, h4⟩ := incr_spec l l' px vals hs h
  refine ⟨h1, h2, ?_⟩
  intro i v hv
  rw [h4 i v hv]
  by_cases hc : ∃ p ∈ px, Idx l.length p i
  · rw [if_pos hc, count_distinct _ _ _ hd hc]
    push_cast
    rw [one_mul]
  · rw [if_neg hc, sumFor_none _ _ _ _ hc, add_zero]

theorem sumFor_wgt (n : Nat) (i : Nat) : ∀ (px : List Int) (w f : List F), px.length = w.length → w.length = f.length →
    sumFor n px w i = totalWgt n (px.zip (w.zip f)) i ∧
    sumFor n px (List.zipWith (· * ·) f w) i = totalFlux n (px.zip (w.zip f)) i := by
  classical
  intro px
  induction px with
  | nil => intro w f _ _; simp [sumFor, totalWgt, totalFlux]
  | cons p px ih =>
    intro w f h1 h2
    cases w with
    | nil => simp at h1
    | cons a w =>
      cases f with
      | nil => simp at h2
      | cons b f =>
        obtain ⟨i1, i2⟩ := ih w f (by simpa using h1) (by simpa using h2)
        unfold sumFor totalWgt at i1 ⊢
        unfold sumFor at i2
        unfold totalFlux at i2 ⊢
        simp only [List.zip_cons_cons, List.zipWith_cons_cons, List.filter_cons]
        by_cases hp : Idx n p i
        · simp only [hp, decide_true, if_true, List.map_cons, List.sum_cons]
          rw [i1, i2, mul_comm b a]
          exact ⟨rfl, rfl⟩
        · simp only [hp, decide_false, Bool.false_eq_true, if_false]
          exact ⟨i1, i2⟩

theorem totalWgt_append (n : Nat) (a b : List (Sample F)) (i : Nat) :
    totalWgt n (a ++ b) i = totalWgt n a i + totalWgt n b i ∧ totalFlux n (a ++ b) i = totalFlux n a i + totalFlux n b i := by
  unfold totalWgt totalFlux
  simp [List.filter_append]

variable [FloorRing F]

theorem add_parts (strict : Bool) (m m' : WMap F) (px : List Int) (w f : List F) (d : List (List F))
    (h : m.add strict px w f d = some m') : ∃ v, incr m.wgt px w = some m'.wgt ∧ zipArr (· * ·) f w = some v ∧
      incr m.map px v = some m'.map ∧ incrInds px w m.ind d = some m'.ind ∧ m'.wgtInt = m.wgtInt := by
  unfold WMap.add at h
  split at h
  · cases h
  · simp only [Option.bind_eq_bind, Option.bind_eq_some_iff, Option.some.injEq] at h
    obtain ⟨wgt, h1, v, h2, map, h3, ind, h4, rfl⟩ := h
    exact ⟨v, h1, h2, h3, h4, rfl⟩

/-! ## C34 -/

/-- the requirements on a sequence of calls: pixel numbers are C ints and no call names a pixel twice -/
def CallsOk (n : Nat) (calls : List (List Int × List F × List F × List (List F))) : Prop :=
  ∀ c ∈ calls, Small n c.1 ∧ Distinct n c.1

/-- C34, provided no call names a pixel twice: after any sequence of `add` calls the weight of a pixel is its old weight plus
all weights given for it, and likewise the stored weight times flux. -/
theorem c34_add_partial (strict : Bool) (m m' : WMap F) (calls : List (List Int × List F × List F × List (List F))) (hm : m.Ok)
    (hc : CallsOk m.map.length calls) (h : m.addAll strict calls = some m') :
    m'.Ok ∧ m'.map.length = m.map.length ∧ ∀ i w x, m.wgt[i]? = some w → m.map[i]? = some x →
      m'.wgt[i]? = some (w + totalWgt m.map.length (calls.flatMap samplesOf) i) ∧
      m'.map[i]? = some (x + totalFlux m.map.length (calls.flatMap samplesOf) i) := by
  induction calls generalizing m with
  | nil =>
    unfold WMap.addAll at h
    cases h
    refine ⟨hm, rfl, ?_⟩
    intro i w x h1 h2
    simp [totalWgt, totalFlux, h1, h2]
  | cons c calls ih =>
    obtain ⟨px, w, f, d⟩ := c
    unfold WMap.addAll at h
    rw [Option.bind_eq_some_iff] at h
    obtain ⟨m1, h1, h2⟩ := h
    obtain ⟨v, p1, p2, p3, _, _⟩ := add_parts strict m m1 px w f d h1
    obtain ⟨hs, hd⟩ := hc _ (by simp : (px, w, f, d) ∈ (px, w, f, d) :: calls)
    simp only at hs hd
    have hsw : Small m.wgt.length px := by rw [hm.wgt]; exact hs
    obtain ⟨a1, a2, a3⟩ := incr_distinct m.wgt m1.wgt px w hsw (by rw [hm.wgt]; exact hd) p1
    obtain ⟨b1, b2, b3⟩ := incr_distinct m.map m1.map px v hs hd p3
    unfold zipArr at p2
    split at p2
    case isFalse => cases p2
    rename_i hfw
    rw [Option.some.injEq] at p2
    subst p2
    have hm1 : m1.Ok := ⟨by rw [a1, b1, hm.wgt], by rw [b1]; exact hm.small⟩
    have hc1 : CallsOk m1.map.length calls := by
      intro c hcm
      rw [b1]
      exact hc c (by simp [hcm])
    obtain ⟨r1, r2, r3⟩ := ih m1 hm1 hc1 h2
    refine ⟨r1, by rw [r2, b1], ?_⟩
    intro i wi xi hwi hxi
    obtain ⟨s1, s2⟩ := r3 i _ _ (a3 i wi hwi) (b3 i xi hxi)
    obtain ⟨t1, t2⟩ := sumFor_wgt m.map.length i px w f a2 hfw.symm
    obtain ⟨u1, u2⟩ := totalWgt_append m.map.length (samplesOf (px, w, f, d)) (calls.flatMap samplesOf) i
    rw [List.flatMap_cons, u1, u2, s1, s2, b1, hm.wgt, t1, t2]
    unfold samplesOf
    simp only
    rw [add_assoc, add_assoc]
    exact ⟨rfl, rfl⟩

/-- C34, provided no call names a pixel twice: starting from an empty map, the value reported for a pixel with positive total
weight is the weighted mean of all fluxes given for it. -/
theorem c34_weighted_mean_partial (strict : Bool) (m m' : WMap F) (calls : List (List Int × List F × List F × List (List F)))
    (hm : m.Ok) (hw0 : ∀ w ∈ m.wgt, w = 0) (hx0 : ∀ x ∈ m.map, x = 0)
    (hc : CallsOk m.map.length calls) (h : m.addAll strict calls = some m') (hi0 : m'.ind = []) (i : Nat) (hi : i < m.map.length)
    (hpos : 0 < totalWgt m.map.length (calls.flatMap samplesOf) i) :
    m'.get [(i : Int)] = some ([totalFlux m.map.length (calls.flatMap samplesOf) i /
      totalWgt m.map.length (calls.flatMap samplesOf) i], []) := by
  obtain ⟨o1, o2, o3⟩ := c34_add_partial strict m m' calls hm hc h
  have hiw : i < m.wgt.length := by rw [hm.wgt]; exact hi
  obtain ⟨e1, e2⟩ := o3 i 0 0 (by rw [List.getElem?_eq_getElem hiw, hw0 _ (List.getElem_mem hiw)])
    (by rw [List.getElem?_eq_getElem hi, hx0 _ (List.getElem_mem hi)])
  have g1 := getPx_eq m'.wgt [(i : Int)] (fun _ => 0 + totalWgt m.map.length (calls.flatMap samplesOf) i) (by
    intro p hp
    rw [List.mem_singleton] at hp
    subst hp
    exact ⟨i, (idx_nat _ _ _).2 ⟨by rw [o1.wgt, o2]; exact hi, rfl⟩, e1⟩)
  have g2 := getPx_eq m'.map [(i : Int)] (fun _ => 0 + totalFlux m.map.length (calls.flatMap samplesOf) i) (by
    intro p hp
    rw [List.mem_singleton] at hp
    subst hp
    exact ⟨i, (idx_nat _ _ _).2 ⟨by rw [o2]; exact hi, rfl⟩, e2⟩)
  unfold WMap.get
  rw [g1, g2, hi0]
  simp only [List.map_cons, List.map_nil, List.mapM_nil, zero_add, Option.bind_eq_bind, Option.bind_some, pure,
    List.zipWith_cons_cons, List.zipWith_nil_left]
  unfold posOr1
  rw [if_pos hpos]

/-- C34, provided no call names a pixel twice: neither the order of the samples nor their distribution over calls matters. -/
theorem c34_order_partial (strict : Bool) (m m1 m2 : WMap F) (c1 c2 : List (List Int × List F × List F × List (List F)))
    (hm : m.Ok) (h1 : CallsOk m.map.length c1) (h2 : CallsOk m.map.length c2)
    (hp : (c1.flatMap samplesOf).Perm (c2.flatMap samplesOf)) (e1 : m.addAll strict c1 = some m1) (e2 : m.addAll strict c2 = some m2) :
    m1.wgt = m2.wgt ∧ m1.map = m2.map := by
  obtain ⟨o1, p1, q1⟩ := c34_add_partial strict m m1 c1 hm h1 e1
  obtain ⟨o2, p2, q2⟩ := c34_add_partial strict m m2 c2 hm h2 e2
  have t1 : ∀ i, totalWgt m.map.length (c1.flatMap samplesOf) i = totalWgt m.map.length (c2.flatMap samplesOf) i :=
    fun i => ((hp.filter _).map _).sum_eq
  have t2 : ∀ i, totalFlux m.map.length (c1.flatMap samplesOf) i = totalFlux m.map.length (c2.flatMap samplesOf) i :=
    fun i => ((hp.filter _).map _).sum_eq
  have w1 := o1.wgt
  have w2 := o2.wgt
  have w0 := hm.wgt
  constructor
  · apply List.ext_getElem?
    intro i
    by_cases hi : i < m.map.length
    · obtain ⟨a, _⟩ := q1 i _ _ (List.getElem?_eq_getElem (by omega)) (List.getElem?_eq_getElem hi)
      obtain ⟨b, _⟩ := q2 i _ _ (List.getElem?_eq_getElem (by omega)) (List.getElem?_eq_getElem hi)
      rw [a, b, t1]
    · rw [List.getElem?_eq_none (by omega), List.getElem?_eq_none (by omega)]
  · apply List.ext_getElem?
    intro i
    by_cases hi : i < m.map.length
    · obtain ⟨_, a⟩ := q1 i _ _ (List.getElem?_eq_getElem (by omega)) (List.getElem?_eq_getElem hi)
      obtain ⟨_, b⟩ := q2 i _ _ (List.getElem?_eq_getElem (by omega)) (List.getElem?_eq_getElem hi)
      rw [a, b, t2]
    · rw [List.getElem?_eq_none (by omega), List.getElem?_eq_none (by omega)]

/-- C34: a call is refused exactly when the arrays do not fit, a pixel does not exist, or there are more index arrays than
index maps (here without index arrays). -/
theorem c34_add_accepts (m : WMap F) (px : List Int) (w f : List F) (hm : m.Ok) (hs : Small m.map.length px) :
    (∃ m', m.add false px w f [] = some m') ↔ px.length = w.length ∧ f.length = w.length ∧ ∀ p ∈ px, ∃ i, Idx m.map.length p i := by
  constructor
  · rintro ⟨m', h⟩
    obtain ⟨v, p1, p2, p3, _, _⟩ := add_parts false m m' px w f [] h
    obtain ⟨_, a2, a3, _⟩ := incr_spec m.wgt m'.wgt px w (by rw [hm.wgt]; exact hs) p1
    unfold zipArr at p2
    split at p2
    · rename_i hl
      exact ⟨a2, hl, by rw [← hm.wgt]; exact a3⟩
    · cases p2
  · rintro ⟨h1, h2, h3⟩
    obtain ⟨l1, e1⟩ := incr_total m.wgt px w (by rw [hm.wgt]; exact hs) h1 (by rw [hm.wgt]; exact h3)
    obtain ⟨l2, e2⟩ := incr_total m.map px (List.zipWith (· * ·) f w) hs (by simp; omega) h3
    refine ⟨{ m with wgt := l1, map := l2 }, ?_⟩
    unfold WMap.add zipArr
    rw [e1, if_pos h2]
    simp only [Bool.false_and, Bool.false_eq_true, if_false, Option.bind_eq_bind, Option.bind_some]
    rw [e2]
    cases m.ind <;> rfl

/-- the new contents of an index map after a call that names no pixel twice -/
theorem incrInds_spec (px : List Int) (w : List F) (n : Nat) (hs : Small n px) (hd : Distinct n px) :
    ∀ (ind inds ind' : List (List F)), (∀ d ∈ ind, d.length = n) → incrInds px w ind inds = some ind' →
      ind'.length = ind.length ∧ inds.length ≤ ind.length ∧ ∀ (k : Nat) (d : List F), ind[k]? = some d →
        ∃ d', ind'[k]? = some d' ∧ d'.length = n ∧ ∀ i v, d[i]? = some v →
          d'[i]? = some (match inds[k]? with
            | none => v
            | some a => v + totalFlux n (px.zip (w.zip a)) i) := by
  intro ind
  induction ind with
  | nil =>
    intro inds ind' _ h
    cases inds with
    | nil =>
      unfold incrInds at h
      cases h
      exact ⟨rfl, le_rfl, fun k d hk => by simp at hk⟩
    | cons a inds => unfold incrInds at h; cases h
  | cons d ind ih =>
    intro inds ind' hl h
    cases inds with
    | nil =>
      unfold incrInds at h
      cases h
      refine ⟨rfl, by simp, ?_⟩
      intro k d' hk
      refine ⟨d', hk, hl d' (List.mem_of_getElem? hk), ?_⟩
      intro i v hv
      simp [hv]
    | cons a inds =>
      unfold incrInds at h
      simp only [Option.bind_eq_bind, Option.bind_eq_some_iff, Option.some.injEq] at h
      obtain ⟨v, h1, d', h2, r, h3, rfl⟩ := h
      obtain ⟨i1, i2, i3⟩ := ih inds r (fun d hd => hl d (by simp [hd])) h3
      have hdl := hl d (by simp)
      obtain ⟨b1, b2, b3⟩ := incr_distinct d d' px v (by rw [hdl]; exact hs) (by rw [hdl]; exact hd) h2
      unfold zipArr at h1
      split at h1
      case isFalse => cases h1
      rename_i haw
      rw [Option.some.injEq] at h1
      subst h1
      refine ⟨by simp [i1], by simpa using i2, ?_⟩
      intro k e hk
      cases k with
      | zero =>
        simp only [List.getElem?_cons_zero, Option.some.injEq] at hk ⊢
        subst hk
        refine ⟨d', rfl, by omega, ?_⟩
        intro i x hx
        have hpw : px.length = w.length := by simp at b2; omega
        rw [b3 i x hx, hdl, (sumFor_wgt n i px w a hpw haw.symm).2]
      | succ k =>
        simp only [List.getElem?_cons_succ] at hk ⊢
        exact i3 k e hk

/-- C34, provided the call names no pixel twice: spectral-index maps accumulate weight times index in the same way; index maps
for which nothing is given stay as they are. -/
theorem c34_indices_partial (strict : Bool) (m m' : WMap F) (px : List Int) (w f : List F) (inds : List (List F))
    (hl : ∀ d ∈ m.ind, d.length = m.map.length) (hs : Small m.map.length px) (hd : Distinct m.map.length px)
    (h : m.add strict px w f inds = some m') :
    m'.ind.length = m.ind.length ∧ ∀ (k : Nat) (d : List F), m.ind[k]? = some d → ∃ d', m'.ind[k]? = some d' ∧ d'.length = m.map.length ∧
      ∀ i v, d[i]? = some v → d'[i]? = some (match inds[k]? with
        | none => v
        | some a => v + totalFlux m.map.length (px.zip (w.zip a)) i) := by
  obtain ⟨_, _, _, _, p4, _⟩ := add_parts strict m m' px w f inds h
  obtain ⟨a, _, b⟩ := incrInds_spec px w m.map.length hs hd m.ind inds m'.ind hl p4
  exact ⟨a, b⟩

/-- C34 fails when one call names a pixel twice: what the pixel held before is counted twice.  Weight 2 and flux 9/2, then two
samples of weight 1 and flux 3: one call reports 4, two calls report the weighted mean 15/4. -/
theorem c34_duplicates_violated : ∃ m m' m'' : WMap ℚ, m.Ok ∧
    m.addAll true [([0, 0], [1, 1], [3, 3], [])] = some m' ∧
    m.addAll true [([0], [1], [3], []), ([0], [1], [3], [])] = some m'' ∧
    m'.get [0] = some ([4], []) ∧ m''.get [0] = some ([15/4], []) := by
  refine ⟨⟨[2, 0], [9, 0], [], false⟩, ⟨[6, 0], [24, 0], [], false⟩, ⟨[4, 0], [15, 0], [], false⟩, ⟨rfl, by decide⟩, ?_, ?_, ?_, ?_⟩
  all_goals decide +kernel

/-- two calls with overlapping pixels, one named from the end -/
example : CallsOk 3 [([0, -1], [1, 2], [5, 7], []), ([2], [(2 : ℚ)], [1], [])] ∧
    ((⟨[0, 0, 0], [0, 0, 0], [], false⟩ : WMap ℚ).addAll true [([0, -1], [1, 2], [5, 7], []), ([2], [2], [1], [])]).bind
      (fun m => m.get [0, 1, 2]) = some ([5, 0, 4], []) := by
  refine ⟨?_, by decide +kernel⟩
  intro c hc
  simp only [List.mem_cons, List.not_mem_nil, or_false] at hc
  rcases hc with rfl | rfl
  · refine ⟨⟨by decide, by decide⟩, ?_⟩
    unfold Distinct
    simp only [List.pairwise_cons, List.mem_singleton, forall_eq, List.not_mem_nil, false_implies, implies_true, List.Pairwise.nil,
      and_true]
    intro i
    unfold Idx
    omega
  · exact ⟨⟨by decide, by decide⟩, by unfold Distinct; simp⟩

/-! ## C35 -/

/-- value reported for a pixel with stored `x` and weight `w` -/
theorem posOr1_one [IsStrictOrderedRing F] : posOr1 (1 : F) = 1 ∧ posOr1 (0 : F) = 1 := by
  unfold posOr1
  constructor
  · rw [if_pos zero_lt_one]
  · rw [if_neg (lt_irrefl _)]

/-- what the map reports for pixel number `i` -/
def valueAt (m : WMap F) (i : Nat) : Option F := do
  let x ← m.map[i]?
  let w ← m.wgt[i]?
  some (x / posOr1 w)

/-- what the map reports for pixel number `i` of index map `k` -/
def indexAt (m : WMap F) (k i : Nat) : Option F := do
  let d ← m.ind[k]?
  let x ← d[i]?
  let w ← m.wgt[i]?
  some (x / posOr1 w)

/-- `valueAt` is what `Map.__getitem__` returns -/
theorem get_one (m : WMap F) (hm : m.Ok) (hi0 : m.ind = []) (i : Nat) (v : F) (h : valueAt m i = some v) :
    m.get [(i : Int)] = some ([v], []) := by
  unfold valueAt at h
  simp only [Option.bind_eq_bind, Option.bind_eq_some_iff, Option.some.injEq] at h
  obtain ⟨x, hx, w, hw, rfl⟩ := h
  have hi : i < m.map.length := by rw [List.getElem?_eq_some_iff] at hx; exact hx.1
  have g1 := getPx_eq m.wgt [(i : Int)] (fun _ => w) (by
    intro p hp
    rw [List.mem_singleton] at hp
    subst hp
    exact ⟨i, (idx_nat _ _ _).2 ⟨by rw [hm.wgt]; exact hi, rfl⟩, hw⟩)
  have g2 := getPx_eq m.map [(i : Int)] (fun _ => x) (by
    intro p hp
    rw [List.mem_singleton] at hp
    subst hp
    exact ⟨i, (idx_nat _ _ _).2 ⟨hi, rfl⟩, hx⟩)
  unfold WMap.get
  rw [g1, g2, hi0]
  rfl

/-- C35 for the default weight 1: no reported value, of the flux or of an index, changes; observed pixels get weight 1, others 0. -/
theorem c35_reset_partial [IsStrictOrderedRing F] (m : WMap F) (b : Bool) (i k : Nat) :
    valueAt (m.resetWgt 1 b) i = valueAt m i ∧ indexAt (m.resetWgt 1 b) k i = indexAt m k i ∧
    (m.resetWgt 1 b).wgt[i]? = (m.wgt[i]?).map (fun w => if 0 < w then 1 else 0) := by
  have hp : ∀ w : F, posOr1 (if 0 < w then (1 : F) else 0) = 1 := by
    intro w
    split
    · exact posOr1_one.1
    · exact posOr1_one.2
  refine ⟨?_, ?_, ?_⟩
  · unfold valueAt WMap.resetWgt
    simp only [List.getElem?_zipWith, List.getElem?_map]
    cases m.map[i]? <;> cases m.wgt[i]? <;> simp [hp]
  · unfold indexAt WMap.resetWgt
    simp only [List.getElem?_map]
    cases m.ind[k]? with
    | none => rfl
    | some d =>
      simp only [Option.map_some, Option.bind_eq_bind, Option.bind_some, List.getElem?_zipWith]
      cases d[i]? <;> cases m.wgt[i]? <;> simp [hp]
  · unfold WMap.resetWgt
    simp

/-- C35 fails for other weights: with a weight c > 0 the reported values are divided by c. -/
theorem c35_other_weight [IsStrictOrderedRing F] (m : WMap F) (c : F) (b : Bool) (hc : 0 < c) (i : Nat) (x w : F)
    (hx : m.map[i]? = some x) (hw : m.wgt[i]? = some w) (hpos : 0 < w) :
    valueAt m i = some (x / w) ∧ valueAt (m.resetWgt c b) i = some (x / w / c) := by
  unfold valueAt WMap.resetWgt posOr1
  simp [List.getElem?_zipWith, hx, hw, hpos, hc]

theorem c35_violated : ∃ m : WMap ℚ, m.Ok ∧ valueAt m 0 = some 3 ∧ valueAt (m.resetWgt 2 true) 0 = some (3/2) :=
  ⟨⟨[4], [12], [], false⟩, ⟨rfl, by decide⟩, by decide +kernel, by decide +kernel⟩

/-- a map with an observed and an unobserved pixel -/
example : (⟨[4, 0], [12, 0], [[8, 0]], false⟩ : WMap ℚ).resetWgt 1 true = ⟨[1, 0], [3, 0], [[2, 0]], true⟩ := by decide +kernel

/-! ## C62 -/

/-- C62: until `reset_wgt` is called the weight map keeps its float type, and `add` keeps working. -/
theorem c62_float_partial (strict : Bool) (m m' : WMap F) (calls : List (List Int × List F × List F × List (List F)))
    (h : m.addAll strict calls = some m') : m'.wgtInt = m.wgtInt := by
  induction calls generalizing m with
  | nil => unfold WMap.addAll at h; cases h; rfl
  | cons c calls ih =>
    obtain ⟨px, w, f, d⟩ := c
    unfold WMap.addAll at h
    rw [Option.bind_eq_some_iff] at h
    obtain ⟨m1, h1, h2⟩ := h
    obtain ⟨_, _, _, _, _, p⟩ := add_parts strict m m1 px w f d h1
    rw [ih m1 h2, p]

/-- C62 fails: after `reset_wgt()` every `add` with float weights raises, whatever it is given. -/
theorem c62_add_after_reset_violated (m : WMap F) (px : List Int) (w f : List F) (d : List (List F)) :
    (m.resetWgt 1 true).add true px w f d = none := by
  unfold WMap.add WMap.resetWgt
  simp

/-- C62 fails: after `reset_wgt()` a `put` truncates the weight towards zero: weight 3/2 and flux 2 are stored as weight
1 and product 3, weight 1/2 as weight 0, and weight -3/2 as weight -1. -/
theorem c62_put_after_reset_violated : ∃ m m' : WMap ℚ, m.Ok ∧ ((m.resetWgt 1 true).put [0, 1, 2] [3/2, 1/2, -3/2] [2, 8, 2] []) = some m' ∧
    m'.get [0, 1, 2] = some ([3, 4, -3], []) ∧ m'.wgt = [1, 0, -1] :=
  ⟨⟨[4, 0, 1], [12, 0, 1], [], false⟩, ⟨[1, 0, -1], [3, 4, -3], [], true⟩, ⟨rfl, by decide⟩, by decide +kernel, by decide +kernel, rfl⟩

/-! ## C63 -/

theorem put_parts (m m' : WMap F) (px : List Int) (w f : List F) (d : List (List F)) (h : m.put px w f d = some m') :
    ∃ v, setPx m.wgt px (.arr (w.map (truncTo m.wgtInt))) = some m'.wgt ∧ zipArr (· * ·) f w = some v ∧
      setPx m.map px (.arr v) = some m'.map ∧ putInds px w m.ind d = some m'.ind := by
  unfold WMap.put at h
  simp only [Option.bind_eq_bind, Option.bind_eq_some_iff, Option.some.injEq] at h
  obtain ⟨wgt, h1, v, h2, map, h3, ind, h4, rfl⟩ := h
  exact ⟨v, h1, h2, h3, h4⟩

/-- C63: after `put` (float weight map) an addressed pixel reports the weighted mean of what was given for it in this call,
every other pixel what it reported before. -/
theorem c63_put (m m' : WMap F) (px : List Int) (w f : List F) (d : List (List F)) (hm : m.Ok) (hf : m.wgtInt = false)
    (hs : Small m.map.length px) (h : m.put px w f d = some m') :
    m'.Ok ∧ ∀ i, i < m.map.length →
      ((∃ p ∈ px, Idx m.map.length p i) → 0 < totalWgt m.map.length (px.zip (w.zip f)) i →
        valueAt m' i = some (totalFlux m.map.length (px.zip (w.zip f)) i / totalWgt m.map.length (px.zip (w.zip f)) i)) ∧
      ((¬ ∃ p ∈ px, Idx m.map.length p i) → valueAt m' i = valueAt m i) := by
  classical
  obtain ⟨v, p1, p2, p3, _⟩ := put_parts m m' px w f d h
  have htr : w.map (truncTo m.wgtInt) = w := by
    rw [hf]
    have : (truncTo false : F → F) = id := by funext x; simp [truncTo]
    rw [this, List.map_id]
  rw [htr] at p1
  obtain ⟨a1, a2, a3⟩ := c30_assign m.wgt m'.wgt px _ (by rw [hm.wgt]; exact hs) p1
  obtain ⟨b1, b2, b3⟩ := c30_assign m.map m'.map px _ hs p3
  unfold zipArr at p2
  split at p2
  case isFalse => cases p2
  rename_i hfw
  rw [Option.some.injEq] at p2
  subst p2
  have hw0 := hm.wgt
  refine ⟨⟨by omega, by rw [b1]; exact hm.small⟩, ?_⟩
  intro i hi
  obtain ⟨t1, t2⟩ := sumFor_wgt m.map.length i px w f a2 hfw.symm
  constructor
  · intro he hpos
    have e1 := a3 i (by omega)
    have e2 := b3 i hi
    rw [if_pos (by rw [hw0]; exact he)] at e1
    rw [if_pos he] at e2
    unfold valueAt
    rw [e1, e2]
    simp only [Option.bind_eq_bind, Option.bind_some, Val.toList]
    rw [hw0, t1, t2]
    unfold posOr1
    rw [if_pos hpos]
  · intro he
    have e1 := a3 i (by omega)
    have e2 := b3 i hi
    rw [if_neg (by rw [hw0]; exact he)] at e1
    rw [if_neg he] at e2
    unfold valueAt
    rw [e1, e2]

/-- C63: with every pixel named once and a positive weight, reading the pixel gives the flux that was put. -/
theorem c63_put_get (m m' : WMap F) (px : List Int) (w f : List F) (d : List (List F)) (hm : m.Ok) (hf : m.wgtInt = false)
    (hs : Small m.map.length px) (hd : Distinct m.map.length px) (h : m.put px w f d = some m') (k : Nat) (p : Int) (wk fk : F)
    (hp : px[k]? = some p) (hw : w[k]? = some wk) (hfk : f[k]? = some fk) (hpos : 0 < wk) (i : Nat) (hi : Idx m.map.length p i) :
    valueAt m' i = some fk := by
  classical
  have hone : ∀ (px : List Int) (w f : List F) (k : Nat), Distinct m.map.length px → px[k]? = some p → w[k]? = some wk → f[k]? = some fk →
      (px.zip (w.zip f)).filter (fun s => decide (Idx m.map.length s.1 i)) = [(p, wk, fk)] := by
    intro px
    induction px with
    | nil => intro w f k _ hp; simp at hp
    | cons q px ih =>
      intro w f k hd hp hw hf
      cases w with
      | nil => simp at hw
      | cons a w =>
        cases f with
        | nil => simp at hf
        | cons b f =>
          unfold Distinct at hd
          rw [List.pairwise_cons] at hd
          rw [List.zip_cons_cons, List.zip_cons_cons, List.filter_cons]
          cases k with
          | zero =>
            simp only [List.getElem?_cons_zero, Option.some.injEq] at hp hw hf
            subst hp hw hf
            rw [if_pos (by simpa using hi)]
            congr 1
            rw [List.filter_eq_nil_iff]
            intro s hs hc
            exact hd.1 s.1 (List.of_mem_zip hs).1 i ⟨hi, by simpa using hc⟩
          | succ k =>
            simp only [List.getElem?_cons_succ] at hp hw hf
            have hq : ¬ Idx m.map.length q i := fun hc => hd.1 p (List.mem_of_getElem? hp) i ⟨hc, hi⟩
            rw [if_neg (by simpa using hq)]
            exact ih w f k hd.2 hp hw hf
  have hz := hone px w f k hd hp hw hfk
  have ht1 : totalWgt m.map.length (px.zip (w.zip f)) i = wk := by
    unfold totalWgt; rw [hz]; simp
  have ht2 : totalFlux m.map.length (px.zip (w.zip f)) i = wk * fk := by
    unfold totalFlux; rw [hz]; simp
  have := ((c63_put m m' px w f d hm hf hs h).2 i hi.1).1 ⟨p, List.mem_of_getElem? hp, hi⟩ (by rw [ht1]; exact hpos)
  rw [this, ht1, ht2, mul_div_cancel_left₀ _ (ne_of_gt hpos)]

example : ((⟨[4, 0, 0], [12, 0, 0], [], false⟩ : WMap ℚ).put [1, 0] [2, 1/2] [5, 7] []).bind (fun m => m.get [0, 1, 2]) =
    some ([7, 5, 0], []) := by decide +kernel

end Verif.Sky
