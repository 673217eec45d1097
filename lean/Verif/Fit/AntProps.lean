import Verif.Fit.ParamsProps
/-!
# Properties C11, C12 : antennas after set_params, and isolation between antennas
-/
namespace Verif.Fit
open Verif.Util
variable {V : Type}

/-- what can be observed of an antenna: the values of all its parameters -/
structure AntView (V : Type) where
  x : V
  y : V
  z : V
  phs : List V
  bpr : List V
  bpi : List V
  amp : V
  beam : Beam V

def Ant.view (h : Heap V) (a : Ant V) : AntView V :=
  ⟨a.x, a.y, a.z, h.phs a.phs, a.bpr, a.bpi, a.amp, h.beams a.beam⟩

/-- the steps of `set_params` -/
theorem setParams_split {h h' : Heap V} {a a' : Ant V} {p : PrmDict V}
    (e : a.setParams h p = some (h', a')) :
    ∃ h1 h2, setBeam h a.beam p = some h1 ∧ setPhsElem h1 a.phs 2 "dly".toList p = some h2 ∧
      setPhsElem h2 a.phs 1 "off".toList p = some h' ∧ setPhsRef a p = some a'.phs ∧
      updNum "x".toList p a.x = some a'.x ∧ updNum "y".toList p a.y = some a'.y ∧
      updNum "z".toList p a.z = some a'.z ∧ updVec "bp_r".toList p a.bpr = some a'.bpr ∧
      updVec "bp_i".toList p a.bpi = some a'.bpi ∧ updNum "amp".toList p a.amp = some a'.amp ∧
      a'.beam = a.beam := by
  unfold Ant.setParams at e
  simp only [Option.bind_eq_bind, Option.bind_eq_some_iff, Option.some.injEq, Prod.mk.injEq] at e
  obtain ⟨h1, e1, x, ex, y, ey, z, ez, h2, e2, h3, e3, r, er, br, ebr, bi, ebi, am, eam, rfl, rfl⟩ := e
  exact ⟨h1, h2, e1, e2, e3, er, ex, ey, ez, ebr, ebi, eam, rfl⟩

/-- C11: after `set_params(p)` the position, passband and amplitude have the values in `p`, or the old ones if
`p` does not mention them. -/
theorem c11_antenna_get_set {h h' : Heap V} {a a' : Ant V} {p : PrmDict V}
    (e : a.setParams h p = some (h', a')) :
    some (PV.num a'.x) = (dget "x".toList p).or (some (.num a.x)) ∧
    some (PV.num a'.y) = (dget "y".toList p).or (some (.num a.y)) ∧
    some (PV.num a'.z) = (dget "z".toList p).or (some (.num a.z)) ∧
    some (PV.vec a'.bpr) = (dget "bp_r".toList p).or (some (.vec a.bpr)) ∧
    some (PV.vec a'.bpi) = (dget "bp_i".toList p).or (some (.vec a.bpi)) ∧
    some (PV.num a'.amp) = (dget "amp".toList p).or (some (.num a.amp)) := by
  obtain ⟨h1, h2, _, _, _, _, ex, ey, ez, ebr, ebi, eam, _⟩ := setParams_split e
  exact ⟨updNum_some ex, updNum_some ey, updNum_some ez, updVec_some ebr, updVec_some ebi, updNum_some eam⟩

theorem setBeam_phs {h h' : Heap V} {b : Nat} {p : PrmDict V} (e : setBeam h b p = some h') :
    h'.phs = h.phs ∧ ∀ q, q ≠ b → h'.beams q = h.beams q := by
  unfold setBeam at e
  rw [Option.map_eq_some_iff] at e
  obtain ⟨bm, _, rfl⟩ := e
  exact ⟨rfl, fun q hq => by simp [hq]⟩

theorem setPhsElem_frame {h h' : Heap V} {r k : Nat} {name : Key} {p : PrmDict V}
    (e : setPhsElem h r k name p = some h') :
    h'.beams = h.beams ∧ ∀ q, q ≠ r → h'.phs q = h.phs q := by
  unfold setPhsElem at e
  split at e
  · cases e; exact ⟨rfl, fun _ _ => rfl⟩
  · rw [Option.map_eq_some_iff] at e
    obtain ⟨l, _, rfl⟩ := e
    exact ⟨rfl, fun q hq => by simp [hq]⟩
  · cases e

/-- C11: with a delay (or offset) in `p` and no new phase polynomial, the delay read back is the one set. -/
theorem c11_delay_get_set {h h' : Heap V} {a a' : Ant V} {p : PrmDict V}
    (e : a.setParams h p = some (h', a')) (hp : dget "phsoff".toList p = none) :
    (∀ v, dget "dly".toList p = some (.num v) → fromEnd (h'.phs a'.phs) 2 = some v) ∧
    (∀ v, dget "off".toList p = some (.num v) → fromEnd (h'.phs a'.phs) 1 = some v) ∧
    (dget "dly".toList p = none → fromEnd (h'.phs a'.phs) 2 = fromEnd (h.phs a.phs) 2) ∧
    (dget "off".toList p = none → fromEnd (h'.phs a'.phs) 1 = fromEnd (h.phs a.phs) 1) := by
  obtain ⟨h1, h2, eb, e2, e3, er, _⟩ := setParams_split e
  have ea : a'.phs = a.phs := by
    unfold setPhsRef at er; rw [hp] at er; exact (Option.some.inj er).symm
  have hb := (setBeam_phs eb).1
  rw [ea]
  -- the list before, between and after
  have key : ∀ {g g' : Heap V} {k : Nat} {name : Key}, 1 ≤ k → setPhsElem g a.phs k name p = some g' →
      (∀ v, dget name p = some (.num v) → fromEnd (g'.phs a.phs) k = some v) ∧
      (dget name p = none → g' = g) ∧
      (∀ j, j ≠ k → 1 ≤ j → fromEnd (g'.phs a.phs) j = fromEnd (g.phs a.phs) j) := by
    intro g g' k name hk1 eg
    unfold setPhsElem at eg
    cases hd : dget name p with
    | none =>
      rw [hd] at eg; cases eg
      exact ⟨fun v hv => (by cases hv), fun _ => rfl, fun _ _ _ => rfl⟩
    | some w =>
      rw [hd] at eg
      cases w with
      | vec _ => cases eg
      | ref _ => cases eg
      | num u =>
        simp only at eg
        rw [Option.map_eq_some_iff] at eg
        obtain ⟨l, hl, rfl⟩ := eg
        unfold setFromEnd at hl
        split at hl
        · rename_i hk
          cases hl
          refine ⟨?_, fun h => (by cases h), ?_⟩
          · intro v hv; cases hv
            unfold fromEnd
            simp only [if_true, List.length_set]
            rw [if_pos hk, List.getElem?_set_self (by omega)]
          · intro j hj hj1
            unfold fromEnd
            simp only [if_true, List.length_set]
            split
            · rw [List.getElem?_set_ne (by omega)]
            · rfl
        · cases hl
  obtain ⟨k2a, k2b, k2c⟩ := key (by decide) e2
  obtain ⟨k3a, k3b, k3c⟩ := key (by decide) e3
  refine ⟨?_, k3a, ?_, ?_⟩
  · intro v hv; rw [k3c 2 (by decide) (by decide)]; exact k2a v hv
  · intro hn; rw [k3c 2 (by decide) (by decide), k2b hn, hb]
  · intro hn; rw [k3b hn, k2c 1 (by decide) (by decide), hb]

/-- an antenna meeting the hypotheses of the theorems above -/
example : let h : Heap Nat := ⟨fun _ => [0, 0], fun _ => .gauss 1 2⟩
    let a : Ant Nat := mkDefaultAnt 0 1 10 20 30 0
    (a.getParams h ["*".toList]).isSome ∧ (h.beams a.beam).Ok ∧
    ((a.setParams h [("dly".toList, .num 5)]).map (fun r => r.1.phs 0)) = some [5, 0] :=
  ⟨rfl, trivial, rfl⟩

/-- C11 is false when the dictionary holds both a delay and an independent copy of the phase polynomial, which
is what `flatten_prms`/`reconstruct_prms` produce from `get_params`: the new delay is lost. -/
theorem c11_delay_overridden_violated :
    let h : Heap Nat := ⟨fun r => if r = 0 then [1, 2] else [1, 2], fun _ => .flat⟩
    let a : Ant Nat := mkDefaultAnt 0 1 0 0 0 0
    ∃ h' a', a.setParams h [("dly".toList, .num 7), ("phsoff".toList, .ref 1)] = some (h', a') ∧
      fromEnd (h'.phs a'.phs) 2 = some 1 := ⟨_, _, rfl, rfl⟩

/-! ## C12 -/

/-- the array with its shared objects -/
abbrev ArrState (V : Type) := Heap V × List (Ant V)

/-- antenna `i` shares neither its phase polynomial nor its beam with any other antenna -/
def Separate (ants : List (Ant V)) (i : Nat) : Prop :=
  ∀ a, ants[i]? = some a → ∀ j b, j ≠ i → ants[j]? = some b → b.phs ≠ a.phs ∧ b.beam ≠ a.beam

/-- the reference handed over for `phsoff`, if any -/
def handsOver (p : PrmDict V) (r : Nat) : Prop := dget "phsoff".toList p = some (.ref r)

theorem setParams_frame {h h' : Heap V} {a a' : Ant V} {p : PrmDict V}
    (e : a.setParams h p = some (h', a')) :
    (∀ q, q ≠ a.phs → h'.phs q = h.phs q) ∧ (∀ q, q ≠ a.beam → h'.beams q = h.beams q) ∧
    a'.beam = a.beam ∧ (a'.phs = a.phs ∨ handsOver p a'.phs) := by
  obtain ⟨h1, h2, eb, e2, e3, er, _, _, _, _, _, _, ebm⟩ := setParams_split e
  have f1 := setBeam_phs eb
  have f2 := setPhsElem_frame e2
  have f3 := setPhsElem_frame e3
  refine ⟨?_, ?_, ebm, ?_⟩
  · intro q hq; rw [f3.2 q hq, f2.2 q hq, f1.1]
  · intro q hq; rw [f3.1, f2.1, f1.2 q hq]
  · unfold setPhsRef at er
    split at er
    · left; exact (Option.some.inj er).symm
    · rename_i r hr; right; unfold handsOver; rw [hr, Option.some.inj er]
    · cases er

theorem arr_frame (prms : List (Key × PrmDict V)) (n : Nat) (h h' : Heap V) (as as' : List (Ant V))
    (e : arrSetParams prms n h as = some (h', as')) :
    as'.length = as.length ∧
    (∀ q, (∀ j b, as[j]? = some b → dget (printNat (n + j)) prms ≠ none → b.phs ≠ q) → h'.phs q = h.phs q) ∧
    (∀ q, (∀ j b, as[j]? = some b → dget (printNat (n + j)) prms ≠ none → b.beam ≠ q) → h'.beams q = h.beams q) ∧
    (∀ j b, as[j]? = some b → ∃ b', as'[j]? = some b' ∧ b'.beam = b.beam ∧
      (dget (printNat (n + j)) prms = none → b' = b) ∧
      (b'.phs = b.phs ∨ ∃ p, dget (printNat (n + j)) prms = some p ∧ handsOver p b'.phs)) := by
  induction as generalizing n h as' with
  | nil =>
    rw [arrSetParams] at e; cases e
    exact ⟨rfl, fun _ _ => rfl, fun _ _ => rfl, fun j b hb => by simp at hb⟩
  | cons a as ih =>
    rw [arrSetParams] at e
    simp only [Option.bind_eq_bind, Option.bind_eq_some_iff, Option.some.injEq] at e
    obtain ⟨⟨h1, a1⟩, e1, ⟨h2, as2⟩, e2, e3⟩ := e
    cases e3
    obtain ⟨i1, i2, i3, i4⟩ := ih (n + 1) h1 as2 e2
    have hshift : ∀ j, n + 1 + j = n + (j + 1) := by omega
    -- the first antenna
    have first : (∀ q, (dget (printNat n) prms ≠ none → a.phs ≠ q) → h1.phs q = h.phs q) ∧
        (∀ q, (dget (printNat n) prms ≠ none → a.beam ≠ q) → h1.beams q = h.beams q) ∧
        a1.beam = a.beam ∧ (dget (printNat n) prms = none → a1 = a) ∧
        (a1.phs = a.phs ∨ ∃ p, dget (printNat n) prms = some p ∧ handsOver p a1.phs) := by
      cases hd : dget (printNat n) prms with
      | none =>
        rw [hd] at e1; simp only [antStep, Option.some.injEq] at e1; cases e1
        exact ⟨fun _ _ => rfl, fun _ _ => rfl, rfl, fun _ => rfl, Or.inl rfl⟩
      | some p =>
        rw [hd] at e1
        simp only [antStep] at e1
        obtain ⟨f1, f2, f3, f4⟩ := setParams_frame e1
        refine ⟨fun q hq => f1 q (fun e => hq (by simp) e.symm), fun q hq => f2 q (fun e => hq (by simp) e.symm),
          f3, fun h => (by cases h), ?_⟩
        rcases f4 with f4 | f4
        · exact Or.inl f4
        · exact Or.inr ⟨p, rfl, f4⟩
    obtain ⟨g1, g2, g3, g4, g5⟩ := first
    refine ⟨by simp [i1], ?_, ?_, ?_⟩
    · intro q hq
      rw [i2 q, g1 q]
      · intro hn; exact hq 0 a rfl hn
      · intro j b hb hn; rw [hshift] at hn; exact hq (j + 1) b (by simpa using hb) hn
    · intro q hq
      rw [i3 q, g2 q]
      · intro hn; exact hq 0 a rfl hn
      · intro j b hb hn; rw [hshift] at hn; exact hq (j + 1) b (by simpa using hb) hn
    · intro j b hb
      cases j with
      | zero =>
        simp only [List.getElem?_cons_zero, Option.some.injEq] at hb
        subst hb
        exact ⟨a1, rfl, g3, g4, g5⟩
      | succ j =>
        simp only [List.getElem?_cons_succ] at hb
        obtain ⟨b', k1, k2, k3, k4⟩ := i4 j b hb
        rw [hshift] at k3 k4
        exact ⟨b', by simpa using k1, k2, k3, k4⟩

/-- C12 (for antennas that share no list and no beam): `set_params` with a dictionary that does not name
antenna `i` leaves every parameter of antenna `i` as it was.
Missing: arrays whose antennas share objects, where the claim is false (`c12_default_phsoff_violated`). -/
theorem c12_isolated_partial (prms : List (Key × PrmDict V)) (h h' : Heap V) (as as' : List (Ant V))
    (e : arrSetParams prms 0 h as = some (h', as')) (i : Nat) (hsep : Separate as i)
    (hi : printNat i ∉ prms.map Prod.fst) :
    as'[i]?.map (Ant.view h') = as[i]?.map (Ant.view h) := by
  obtain ⟨f1, f2, f3, f4⟩ := arr_frame prms 0 h h' as as' e
  have hd : dget (printNat (0 + i)) prms = none := by rw [Nat.zero_add, dget_none]; exact hi
  cases ha : as[i]? with
  | none =>
    have : as'[i]? = none := by
      rw [List.getElem?_eq_none_iff] at ha ⊢; omega
    rw [this]; rfl
  | some a =>
    obtain ⟨b', k1, k2, k3, k4⟩ := f4 i a ha
    have hb : b' = a := k3 hd
    rw [k1, hb]
    simp only [Option.map_some, Option.some.injEq]
    unfold Ant.view
    have hph : h'.phs a.phs = h.phs a.phs := by
      apply f2
      intro j b hj hn
      by_cases hji : j = i
      · subst hji; exact absurd hd hn
      · exact (hsep a ha j b hji hj).1
    have hbm : h'.beams a.beam = h.beams a.beam := by
      apply f3
      intro j b hj hn
      by_cases hji : j = i
      · subst hji; exact absurd hd hn
      · exact (hsep a ha j b hji hj).2
    rw [hph, hbm]

/-- a sequence of `set_params` calls -/
def runSets : List (List (Key × PrmDict V)) → ArrState V → Option (ArrState V)
  | [], s => some s
  | p :: ps, (h, as) => match arrSetParams p 0 h as with
    | none => none
    | some s => runSets ps s

/-- C12 over any history of calls: as long as antenna `i` is not named and nobody is handed antenna `i`'s own
phase list, antenna `i` never changes. -/
theorem c12_isolated_history_partial (calls : List (List (Key × PrmDict V))) (h h' : Heap V)
    (as as' : List (Ant V)) (e : runSets calls (h, as) = some (h', as')) (i : Nat) (hsep : Separate as i)
    (hi : ∀ c ∈ calls, printNat i ∉ c.map Prod.fst)
    (hown : ∀ c ∈ calls, ∀ a, as[i]? = some a → ∀ k p, dget k c = some p → ¬ handsOver p a.phs) :
    as'[i]?.map (Ant.view h') = as[i]?.map (Ant.view h) := by
  induction calls generalizing h as with
  | nil => cases e; rfl
  | cons c calls ih =>
    rw [runSets] at e
    cases hc : arrSetParams c 0 h as with
    | none => rw [hc] at e; cases e
    | some s =>
      obtain ⟨h1, as1⟩ := s
      rw [hc] at e
      simp only at e
      have step := c12_isolated_partial c h h1 as as1 hc i hsep (hi c (by simp))
      obtain ⟨f1, f2, f3, f4⟩ := arr_frame c 0 h h1 as as1 hc
      have hd : dget (printNat (0 + i)) c = none := by
        rw [Nat.zero_add, dget_none]; exact hi c (by simp)
      have hsame : as1[i]? = as[i]? := by
        cases ha : as[i]? with
        | none => rw [List.getElem?_eq_none_iff] at ha ⊢; omega
        | some a =>
          obtain ⟨b', k1, _, k3, _⟩ := f4 i a ha
          rw [k1, k3 hd]
      have hsep1 : Separate as1 i := by
        intro a ha j b hji hj
        rw [hsame] at ha
        have hjl : j < as.length := by
          have := (List.getElem?_eq_some_iff.1 hj).1; omega
        obtain ⟨b', k1, k2, _, k4⟩ := f4 j as[j] (List.getElem?_eq_getElem hjl)
        rw [hj] at k1; cases k1
        have hs := hsep a ha j as[j] hji (List.getElem?_eq_getElem hjl)
        refine ⟨?_, by rw [k2]; exact hs.2⟩
        rcases k4 with k4 | ⟨p, hp, ho⟩
        · rw [k4]; exact hs.1
        · intro e
          rw [e] at ho
          exact hown c (by simp) a ha _ p hp ho
      rw [← step]
      exact ih h1 as1 e hsep1 (fun x hx => hi x (List.mem_cons_of_mem _ hx))
        (fun x hx a ha => hown x (List.mem_cons_of_mem _ hx) a (by rw [← hsame]; exact ha))

/-- two antennas with their own lists and beams: a delay for antenna 0 leaves antenna 1 alone -/
example : let h : Heap Nat := ⟨fun _ => [0, 0], fun _ => .flat⟩
    let as : List (Ant Nat) := [⟨0, 0, 0, 0, 0, [1], [0], 1⟩, ⟨5, 5, 5, 1, 1, [1], [0], 1⟩]
    Separate as 1 ∧ (runSets [[("0".toList, [("dly".toList, .num 9)])]] (h, as)).isSome := by
  refine ⟨?_, by simp [runSets, arrSetParams, antStep, printNat, digitChar, dget, Ant.setParams, setBeam,
    Beam.setParams, setPhsElem, setFromEnd, setPhsRef, updNum, updVec]⟩
  intro a ha j b hj hb
  simp at ha; subst ha
  cases j with
  | zero => simp at hb; subst hb; decide
  | succ j => cases j with
    | zero => exact absurd rfl hj
    | succ j => simp at hb

/-- C12 is false for antennas built with the default phase polynomial: they all hold the same list object, so
setting the delay of antenna 0 changes the delay of antenna 1. -/
theorem c12_default_phsoff_violated :
    let h : Heap Nat := ⟨fun _ => [0, 0], fun _ => .flat⟩
    let as : List (Ant Nat) := [mkDefaultAnt 0 1 0 0 0 0, mkDefaultAnt 0 1 5 5 5 1]
    as[1]?.map (fun a => (a.view h).phs) = some [0, 0] ∧
    (arrSetParams [("0".toList, [("dly".toList, .num 9)])] 0 h as).map
      (fun s => s.2[1]?.map (fun a => (a.view s.1).phs)) = some (some [9, 0]) :=
  ⟨rfl, by simp [arrSetParams, antStep, printNat, digitChar, dget, Ant.setParams, setBeam, Beam.setParams,
    setPhsElem, setFromEnd, setPhsRef, updNum, updVec, mkDefaultAnt, Ant.view]⟩

/-! ## Dual polarisation antennas -/

/-- C11: a dual polarisation antenna is unchanged by writing back its own parameters. -/
theorem c11_pol_set_get (x y z : V) (sx sy : PolState V) (p : PrmDict V)
    (hg : (PolAnt.mk x y z [(['x'], sx), (['y'], sy)]).getAll = some p) :
    (PolAnt.mk x y z [(['x'], sx), (['y'], sy)]).setParams p = some ⟨x, y, z, [(['x'], sx), (['y'], sy)]⟩ := by
  unfold PolAnt.getAll at hg
  simp only [List.mapM_cons, List.mapM_nil, polEntries, Option.bind_eq_bind, Option.pure_def] at hg
  cases h1 : fromEnd sx.phs 2 with
  | none => rw [h1] at hg; cases hg
  | some d1 => cases h2 : fromEnd sx.phs 1 with
    | none => rw [h1, h2] at hg; cases hg
    | some o1 => cases h3 : fromEnd sy.phs 2 with
      | none => rw [h1, h2, h3] at hg; cases hg
      | some d2 => cases h4 : fromEnd sy.phs 1 with
        | none => rw [h1, h2, h3, h4] at hg; cases hg
        | some o2 =>
          rw [h1, h2, h3, h4] at hg
          simp only [Option.bind_some, Option.some.injEq] at hg
          subst hg
          have a1 := setFromEnd_self _ _ _ h1 (by decide)
          have a2 := setFromEnd_self _ _ _ h2 (by decide)
          have a3 := setFromEnd_self _ _ _ h3 (by decide)
          have a4 := setFromEnd_self _ _ _ h4 (by decide)
          unfold PolAnt.setParams
          simp only [List.mapM_cons, List.mapM_nil]
          have b1 : ∀ p : PrmDict V, dget "dly_x".toList p = some (.num d1) → dget "off_x".toList p = some (.num o1) →
              dget "phsoff_x".toList p = some (.vec sx.phs) → dget "bp_r_x".toList p = some (.vec sx.bpr) →
              dget "bp_ix".toList p = none → dget "amp_x".toList p = some (.num sx.amp) →
              polSet1 p (['x'], sx) = some (['x'], sx) := by
            intro p q1 q2 q3 q4 q5 q6
            show (do
              let l1 ← updElem 2 "dly_x".toList p sx.phs
              let l2 ← updElem 1 "off_x".toList p l1
              let l3 ← updVec "phsoff_x".toList p l2
              let bpr ← updVec "bp_r_x".toList p sx.bpr
              let bpi ← updVec "bp_ix".toList p sx.bpi
              let amp ← updNum "amp_x".toList p sx.amp
              some ((['x'] : Key), (⟨l3, bpr, bpi, amp⟩ : PolState V))) = _
            simp only [updElem, updVec, updNum, q1, q2, q3, q4, q5, q6, a1, a2, Option.bind_eq_bind, Option.bind_some]
          have b2 : ∀ p : PrmDict V, dget "dly_y".toList p = some (.num d2) → dget "off_y".toList p = some (.num o2) →
              dget "phsoff_y".toList p = some (.vec sy.phs) → dget "bp_r_y".toList p = some (.vec sy.bpr) →
              dget "bp_iy".toList p = none → dget "amp_y".toList p = some (.num sy.amp) →
              polSet1 p (['y'], sy) = some (['y'], sy) := by
            intro p q1 q2 q3 q4 q5 q6
            show (do
              let l1 ← updElem 2 "dly_y".toList p sy.phs
              let l2 ← updElem 1 "off_y".toList p l1
              let l3 ← updVec "phsoff_y".toList p l2
              let bpr ← updVec "bp_r_y".toList p sy.bpr
              let bpi ← updVec "bp_iy".toList p sy.bpi
              let amp ← updNum "amp_y".toList p sy.amp
              some ((['y'] : Key), (⟨l3, bpr, bpi, amp⟩ : PolState V))) = _
            simp only [updElem, updVec, updNum, q1, q2, q3, q4, q5, q6, a3, a4, Option.bind_eq_bind, Option.bind_some]
          have hn : (List.map Prod.fst ([("x".toList, PV.num x), ("y".toList, .num y), ("z".toList, .num z)] ++
              List.flatten [[("dly_".toList ++ ['x'], PV.num d1), ("off_".toList ++ ['x'], .num o1),
                ("phsoff_".toList ++ ['x'], .vec sx.phs), ("bp_r_".toList ++ ['x'], .vec sx.bpr),
                ("bp_i_".toList ++ ['x'], .vec sx.bpi), ("amp_".toList ++ ['x'], .num sx.amp)],
                [("dly_".toList ++ ['y'], PV.num d2), ("off_".toList ++ ['y'], .num o2),
                ("phsoff_".toList ++ ['y'], .vec sy.phs), ("bp_r_".toList ++ ['y'], .vec sy.bpr),
                ("bp_i_".toList ++ ['y'], .vec sy.bpi), ("amp_".toList ++ ['y'], .num sy.amp)]])).Nodup := by
            simp only [List.flatten_cons, List.flatten_nil, List.append_nil, List.cons_append, List.nil_append,
              List.map_cons, List.map_nil]
            decide
          rw [foldl_dset_append _ _ hn]
          have hx : updNum "x".toList _ x = some x := updNum_sub (fun _ _ h => h) (dget_of_mem hn (by simp))
          have hy : updNum "y".toList _ y = some y := updNum_sub (fun _ _ h => h) (dget_of_mem hn (by simp))
          have hz : updNum "z".toList _ z = some z := updNum_sub (fun _ _ h => h) (dget_of_mem hn (by simp))
          rw [hx, hy, hz]
          simp only [Option.bind_eq_bind, Option.bind_some]
          rw [b1 _ (dget_of_mem hn (by simp)) (dget_of_mem hn (by simp)) (dget_of_mem hn (by simp))
              (dget_of_mem hn (by simp)) ((dget_none _ _).2 (by simp)) (dget_of_mem hn (by simp)),
            b2 _ (dget_of_mem hn (by simp)) (dget_of_mem hn (by simp)) (dget_of_mem hn (by simp))
              (dget_of_mem hn (by simp)) ((dget_none _ _).2 (by simp)) (dget_of_mem hn (by simp))]
          rfl

/-- C11 fails for the imaginary passband of dual polarisation antennas: the value written under the name that
`get_params` reports is ignored (the code looks for `bp_ix` instead of `bp_i_x`). -/
theorem c11_pol_bp_i_violated (x y z : V) (sx sy : PolState V) (new : List V) :
    (PolAnt.mk x y z [(['x'], sx), (['y'], sy)]).setParams [("bp_i_x".toList, .vec new)] =
      some ⟨x, y, z, [(['x'], sx), (['y'], sy)]⟩ := rfl

end Verif.Fit
