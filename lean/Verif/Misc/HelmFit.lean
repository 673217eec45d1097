import Mathlib.Data.Char
import Mathlib.Data.List.Lex
import Verif.Fit.FlattenProps
import Verif.Fit.Params
import Verif.Misc.Helm
/-!
# Fitting the sources of the Helmboldt catalog (C154)

`/repo/aipy/_src/helm.py` 13-42 with `set_params` of `/repo/aipy/fit.py` 114-133 and the flat vector of fit.py 18-50.

Simplified: real numbers.  `float(...)` of the numbers is the identity.  A value of the wrong kind for a number is rejected (`none`); Python
stores it and fails later.  The flux is computed when the source is computed for an observer, not by `set_params`.
-/
namespace Verif.Misc.Helm.Fitting
open Verif.Util Verif.Fit

/-! ## Model -/

/-- the state of a `HelmboldtFixedBody`; `self.index` is a number or a list -/
structure HSrc where
  jys : ℝ
  index : Leaf ℝ
  ra : ℝ
  dec : ℝ
  a1 : ℝ
  a2 : ℝ
  th : ℝ
  dra : ℝ
  ddec : ℝ
  mfreq : ℝ

/-- `B,C,D`, helm.py 19-20 -/
def coeffs : Leaf ℝ → ℝ × ℝ × ℝ
  | .num b => (b, 0, 0)
  | .vec l =>
    let p := (l ++ [0, 0, 0]).take 3
    (p.getD 0 0, p.getD 1 0, p.getD 2 0)

open Classical in
/-- `update_jys` for one frequency, helm.py 17-22; logarithms of numbers that are not positive are left out (`none`) -/
noncomputable def fluxAt (s : HSrc) (f : ℝ) : Option ℝ :=
  if 0 < s.jys ∧ 0 < f / s.mfreq then
    let A := Real.logb 10 s.jys
    let X := Real.logb 10 (f / s.mfreq)
    let c := coeffs s.index
    some ((10 : ℝ) ^ (A + c.1 * X + c.2.1 * Real.exp (c.2.2 * X)))
  else none

/-- `aprms`, helm.py 25-36 -/
def aprms (s : HSrc) : List (List Char × Leaf ℝ) :=
  [("jys".toList, .num s.jys), ("ra".toList, .num s.ra), ("dec".toList, .num s.dec), ("a1".toList, .num s.a1),
    ("a2".toList, .num s.a2), ("th".toList, .num s.th), ("dra".toList, .num s.dra), ("ddec".toList, .num s.ddec),
    ("index".toList, s.index)]

/-- helm.py 37-42 -/
def select (a : List (List Char × Leaf ℝ)) : List (List Char) → List (List Char × Leaf ℝ) → List (List Char × Leaf ℝ)
  | [], prms => prms
  | p :: ps, prms =>
    if startsWith "*".toList p then a
    else match dget p a with
      | some v => select a ps (dset p v prms)
      | none => select a ps prms

/-- `get_params(prm_list)`, helm.py 23-42; the default is `None`, over which the loop cannot run: `none` is the TypeError -/
def getParams (s : HSrc) : Option (List (List Char)) → Option (List (List Char × Leaf ℝ))
  | none => none
  | some l => some (select (aprms s) l [])

/-- a dictionary without dictionaries in it as an argument of `flatten_prms` -/
def asP : List (List Char × Leaf ℝ) → PDict (List Char) ℝ
  | [] => .nil
  | (k, v) :: d => .leaf k v (asP d)

/-- `prms[k]` -/
def look (k : List Char) : PDict (List Char) ℝ → Option (Found ℝ)
  | .nil => none
  | .leaf k' v r => if k' = k then some (.val v) else look k r
  | .sub k' _ r => if k' = k then some .dict else look k r

/-- `try: field = prms[k] except(KeyError): pass` for a number -/
def updN (k : List Char) (d : PDict (List Char) ℝ) (cur : ℝ) : Option ℝ :=
  match look k d with
  | none => some cur
  | some (.val (.num v)) => some v
  | some _ => none

/-- the same for `self.index`, fit.py 118-119 -/
def updI (d : PDict (List Char) ℝ) (cur : Leaf ℝ) : Option (Leaf ℝ) :=
  match look "index".toList d with
  | none => some cur
  | some (.val v) => some v
  | some .dict => none

/-- `set_params`, inherited, fit.py 114-133 -/
def setParams (s : HSrc) (d : PDict (List Char) ℝ) : Option HSrc := do
  let jys ← updN "jys".toList d s.jys
  let index ← updI d s.index
  let ra ← updN "ra".toList d s.ra
  let dec ← updN "dec".toList d s.dec
  let a1 ← updN "a1".toList d s.a1
  let a2 ← updN "a2".toList d s.a2
  let th ← updN "th".toList d s.th
  let dra ← updN "dra".toList d s.dra
  let ddec ← updN "ddec".toList d s.ddec
  some ⟨jys, index, ra, dec, a1, a2, th, dra, ddec, s.mfreq⟩

/-- what a fit does with one source: `get_params(l)`, `flatten_prms`, other numbers `change`, `reconstruct_prms`, `set_params` -/
def fitStep (s : HSrc) (l : List (List Char)) (change : List ℝ → List ℝ) : Option HSrc :=
  match getParams s (some l) with
  | none => none
  | some d =>
    let fl := flattenPrms (asP d)
    match reconstructPrms (change fl.1) fl.2 with
    | none => none
    | some d' => setParams s d'

/-! ## Lemmas -/

theorem look_eq (k : List Char) (d : PDict (List Char) ℝ) : look k d = d.at [k] := by
  induction d with
  | nil => rfl
  | leaf k' v r ih => rw [look, PDict.at, ih]; simp
  | sub k' d r _ ih => rw [look, PDict.at, ih, at_nil]

/-- a list of one number comes back as a number -/
def norm : Leaf ℝ → Leaf ℝ
  | .vec [b] => .num b
  | v => v

theorem norm_elems (v : Leaf ℝ) : (norm v).elems = v.elems := by
  match v with
  | .num _ => rfl
  | .vec [] => rfl
  | .vec [_] => rfl
  | .vec (_ :: _ :: _) => rfl

theorem coeffs_norm (v : Leaf ℝ) : coeffs (norm v) = coeffs v := by
  match v with
  | .num _ => rfl
  | .vec [] => rfl
  | .vec [_] => rfl
  | .vec (_ :: _ :: _) => rfl

/-- the same for every entry -/
def normP : PDict (List Char) ℝ → PDict (List Char) ℝ
  | .nil => .nil
  | .leaf k v r => .leaf k (norm v) (normP r)
  | .sub k d r => .sub k (normP d) (normP r)

theorem normP_insLeaf (k : List Char) (v : Leaf ℝ) (d : PDict (List Char) ℝ) :
    normP (insLeaf k v d) = insLeaf k (norm v) (normP d) := by
  induction d with
  | nil => rfl
  | leaf k' v' r ih =>
    simp only [insLeaf, normP]
    split
    · rfl
    · rw [normP, ih]
  | sub k' d' r _ ih =>
    simp only [insLeaf, normP]
    split
    · rfl
    · rw [normP, ih]

theorem normP_insSub (k : List Char) (v : PDict (List Char) ℝ) (d : PDict (List Char) ℝ) :
    normP (insSub k v d) = insSub k (normP v) (normP d) := by
  induction d with
  | nil => rfl
  | leaf k' v' r ih =>
    simp only [insSub, normP]
    split
    · rfl
    · rw [normP, ih]
  | sub k' d' r _ ih =>
    simp only [insSub, normP]
    split
    · rfl
    · rw [normP, ih]

theorem normP_sortD (d : PDict (List Char) ℝ) : normP (sortD d) = sortD (normP d) := by
  induction d with
  | nil => rfl
  | leaf k v r ih => rw [sortD, normP_insLeaf, ih]; rfl
  | sub k d r ih1 ih2 => rw [sortD, normP_insSub, ih1, ih2]; rfl

theorem flatLoop_normP (d : PDict (List Char) ℝ) (acc : List ℝ) : flatLoop acc (normP d) = flatLoop acc d := by
  induction d generalizing acc with
  | nil => rfl
  | leaf k v r ih => simp only [normP, flatLoop, norm_elems, ih]
  | sub k d r ih1 ih2 => simp only [normP, flatLoop, ih1, ih2]

theorem flatten_normP (d : PDict (List Char) ℝ) : flattenPrms (normP d) = flattenPrms d := by
  rw [flattenPrms, flattenPrms, ← normP_sortD, flatLoop_normP]

theorem keys_asP (d : List (List Char × Leaf ℝ)) : (normP (asP d)).keys = d.map Prod.fst := by
  induction d with
  | nil => rfl
  | cons e d ih => simp only [asP, normP, PDict.keys, ih, List.map_cons]

theorem unique_asP (d : List (List Char × Leaf ℝ)) (h : (d.map Prod.fst).Nodup) : (normP (asP d)).Unique := by
  induction d with
  | nil => trivial
  | cons e d ih =>
    rw [List.map_cons, List.nodup_cons] at h
    exact ⟨by rw [keys_asP]; exact h.1, ih h.2⟩

theorem long_asP (d : List (List Char × Leaf ℝ)) (h : ∀ e ∈ d, e.2 ≠ .vec []) : (normP (asP d)).Long := by
  induction d with
  | nil => trivial
  | cons e d ih =>
    refine ⟨?_, ih fun x hx => h x (List.mem_cons_of_mem _ hx)⟩
    have h1 := h e List.mem_cons_self
    obtain ⟨k, v⟩ := e
    match v with
    | .num _ => trivial
    | .vec [] => exact absurd rfl h1
    | .vec [_] => trivial
    | .vec (a :: b :: l) => simp [norm]

theorem look_asP (k : List Char) (d : List (List Char × Leaf ℝ)) :
    look k (normP (asP d)) = (dget k d).map fun v => .val (norm v) := by
  induction d with
  | nil => rfl
  | cons e d ih =>
    obtain ⟨k', v⟩ := e
    simp only [asP, normP, look, dget, ih]
    split <;> rfl

theorem select_sub (a : List (List Char × Leaf ℝ)) (ha : (a.map Prod.fst).Nodup) (l : List (List Char)) (acc : List (List Char × Leaf ℝ))
    (hn : (acc.map Prod.fst).Nodup) (h : ∀ k v, dget k acc = some v → dget k a = some v) :
    ((select a l acc).map Prod.fst).Nodup ∧ ∀ k v, dget k (select a l acc) = some v → dget k a = some v := by
  induction l generalizing acc with
  | nil => exact ⟨hn, h⟩
  | cons p ps ih =>
    rw [select]
    split
    · exact ⟨ha, fun _ _ h => h⟩
    · cases hp : dget p a with
      | none => exact ih acc hn h
      | some v =>
        refine ih _ (nodup_dset _ _ _ hn) fun k w hk => ?_
        rw [dget_dset] at hk
        split at hk
        · rename_i he
          cases hk
          rw [← hp]; congr 1
          first | exact he | exact he.symm
        · exact h k w hk

theorem aprms_nodup (s : HSrc) : ((aprms s).map Prod.fst).Nodup := by
  show (["jys".toList, "ra".toList, "dec".toList, "a1".toList, "a2".toList, "th".toList, "dra".toList, "ddec".toList,
    "index".toList]).Nodup
  decide +kernel

theorem updN_same {k : List Char} {d : PDict (List Char) ℝ} {cur : ℝ}
    (h : look k d = none ∨ look k d = some (.val (.num cur))) : updN k d cur = some cur := by
  rcases h with h | h <;> rw [updN, h]

/-! ## Theorems -/

/-- **C154** (nothing changed): a fit that leaves its numbers alone leaves the flux at every frequency and everything else alone, whatever
parameters are fitted; only a list of one index comes back as a number -/
theorem c154_identity (s : HSrc) (l : List (List Char)) (hi : s.index ≠ .vec []) :
    ∃ s', fitStep s l id = some s' ∧ (∀ f, fluxAt s' f = fluxAt s f) ∧ (s'.index = s.index ∨ ∃ b, s.index = .vec [b] ∧ s'.index = .num b) ∧
      s' = { s with index := s'.index } := by
  obtain ⟨hn, hs⟩ := select_sub (aprms s) (aprms_nodup s) l [] List.nodup_nil (fun _ _ h => by cases h)
  generalize hd : select (aprms s) l [] = d at hn hs
  have hl : ∀ e ∈ d, e.2 ≠ .vec [] := by
    intro e he hv
    have := dget_mem (hs _ _ (dget_of_mem hn he))
    rw [hv] at this
    simp only [aprms, List.mem_cons, Prod.mk.injEq, reduceCtorEq, and_false, false_or, List.not_mem_nil, or_false] at this
    exact hi this.2.symm
  obtain ⟨d', h1, h2⟩ := c09_roundtrip_partial (normP (asP d)) (unique_asP d hn) (long_asP d hl)
  rw [flatten_normP] at h1
  have hk : ∀ k v, dget k (aprms s) = some v → look k d' = none ∨ look k d' = some (.val (norm v)) := by
    intro k v hv
    have h3 : d'.at [k] = (normP (asP d)).at [k] := by convert h2 [k]
    rw [look_eq, h3, ← look_eq, look_asP]
    cases hg : dget k d with
    | none => exact .inl rfl
    | some w => rw [hs _ _ hg] at hv; cases hv; exact .inr rfl
  have n1 := updN_same (hk "jys".toList (.num s.jys) (by simp [aprms, dget]))
  have n2 := updN_same (hk "ra".toList (.num s.ra) (by simp [aprms, dget]))
  have n3 := updN_same (hk "dec".toList (.num s.dec) (by simp [aprms, dget]))
  have n4 := updN_same (hk "a1".toList (.num s.a1) (by simp [aprms, dget]))
  have n5 := updN_same (hk "a2".toList (.num s.a2) (by simp [aprms, dget]))
  have n6 := updN_same (hk "th".toList (.num s.th) (by simp [aprms, dget]))
  have n7 := updN_same (hk "dra".toList (.num s.dra) (by simp [aprms, dget]))
  have n8 := updN_same (hk "ddec".toList (.num s.ddec) (by simp [aprms, dget]))
  have n9 : updI d' s.index = some s.index ∨ updI d' s.index = some (norm s.index) := by
    rcases hk "index".toList s.index (by simp [aprms, dget]) with h | h
    · left; rw [updI, h]
    · right; rw [updI, h]
  have hstep : fitStep s l id = setParams s d' := by
    simp only [fitStep, getParams, hd, id, h1]
  rw [hstep]
  rcases n9 with n9 | n9
  · refine ⟨s, ?_, fun _ => rfl, .inl rfl, rfl⟩
    simp only [setParams, n1, n2, n3, n4, n5, n6, n7, n8, n9, Option.bind_eq_bind, Option.bind_some]
  · refine ⟨{ s with index := norm s.index }, ?_, fun f => ?_, ?_, rfl⟩
    · simp only [setParams, n1, n2, n3, n4, n5, n6, n7, n8, n9, Option.bind_eq_bind, Option.bind_some]
    · simp only [fluxAt, coeffs_norm]
    · show norm s.index = s.index ∨ ∃ b, s.index = .vec [b] ∧ norm s.index = .num b
      match s.index with
      | .num _ => exact .inl rfl
      | .vec [] => exact .inl rfl
      | .vec [b] => exact .inr ⟨b, rfl, rfl⟩
      | .vec (_ :: _ :: _) => exact .inl rfl

/-- a source with three indices, one with one, and one with a number -/
example : let s : HSrc := ⟨2, .vec [-1, 3, 4], 0, 0, 0, 0, 0, 0, 0, 1⟩
    s.index ≠ .vec [] ∧ ({ s with index := .vec [5] } : HSrc).index ≠ .vec [] ∧ ({ s with index := .num 5 } : HSrc).index ≠ .vec [] := by
  simp

/-- **C154** (the fitted numbers): fitting `jys` and `index` gives the fitter the indices followed by the flux, and after the fit the source
has the spectrum `10^(log jys + B X + C exp(D X))` of the first three fitted numbers, missing ones being zero, and is otherwise as it was -/
theorem c154_step (s : HSrc) (b : List ℝ) (hi : s.index = .vec b) (hb : b ≠ []) (xs : List ℝ) (hx : xs.length = b.length) (j : ℝ) :
    (∃ d, getParams s (some ["jys".toList, "index".toList]) = some d ∧ (flattenPrms (asP d)).1 = b ++ [s.jys]) ∧
    ∃ s', fitStep s ["jys".toList, "index".toList] (fun _ => xs ++ [j]) = some s' ∧
      s' = { s with jys := j, index := s'.index } ∧
      ∀ f, 0 < j → 0 < f / s.mfreq →
        fluxAt s' f = some ((10 : ℝ) ^ (Real.logb 10 j + xs.getD 0 0 * Real.logb 10 (f / s.mfreq) +
          xs.getD 1 0 * Real.exp (xs.getD 2 0 * Real.logb 10 (f / s.mfreq)))) := by
  have hsel : select (aprms s) ["jys".toList, "index".toList] [] = [("jys".toList, .num s.jys), ("index".toList, .vec b)] := by
    have e1 : startsWith "*".toList "jys".toList = false := by decide +kernel
    have e2 : startsWith "*".toList "index".toList = false := by decide +kernel
    have g1 : dget "jys".toList (aprms s) = some (.num s.jys) := by simp [aprms, dget]
    have g2 : dget "index".toList (aprms s) = some (.vec b) := by simp [aprms, dget, hi]
    simp only [select, e1, e2, g1, g2, Bool.false_eq_true, if_false]
    simp [dset]
  have hlt : ¬ ("jys".toList : List Char) ≤ "index".toList := by decide +kernel
  have hfl : flattenPrms (asP [("jys".toList, .num s.jys), ("index".toList, .vec b)]) =
      (b ++ [s.jys], .leaf "index".toList 0 b.length (.leaf "jys".toList b.length 1 .nil)) := by
    simp only [asP, flattenPrms, sortD, insLeaf, if_neg hlt, flatLoop, Leaf.elems, List.nil_append, List.length_nil, List.length_singleton]
  have hne : ("index".toList : List Char) ≠ "jys".toList := by decide +kernel
  refine ⟨⟨_, by rw [getParams, hsel], by rw [hfl]⟩, ?_⟩
  have hj : (xs ++ [j])[b.length]? = some j := by rw [← hx]; simp
  -- the index that is read back
  obtain ⟨v, hv, hc⟩ : ∃ v, readLeaf (xs ++ [j]) 0 b.length = some v ∧ coeffs v = (xs.getD 0 0, xs.getD 1 0, xs.getD 2 0) := by
    rw [← hx]
    match xs, hx with
    | [], h => exact absurd (List.length_eq_zero_iff.1 h.symm) hb
    | [x], _ => exact ⟨.num x, by simp [readLeaf], rfl⟩
    | [x, y], _ => exact ⟨.vec [x, y], by simp [readLeaf], rfl⟩
    | x :: y :: z :: l, _ =>
      refine ⟨.vec (x :: y :: z :: l), ?_, rfl⟩
      rw [readLeaf, if_pos (by simp), List.drop_zero, List.take_left]
  have hr : reconstructPrms (xs ++ [j]) (.leaf "index".toList 0 b.length (.leaf "jys".toList b.length 1 .nil)) =
      some (.leaf "index".toList v (.leaf "jys".toList (.num j) .nil)) := by
    have : readLeaf (xs ++ [j]) b.length 1 = some (.num j) := by rw [readLeaf, if_neg (by decide), hj]; rfl
    simp only [reconstructPrms, hv, this, Option.bind_eq_bind, Option.bind_some]
  refine ⟨{ s with jys := j, index := v }, ?_, rfl, fun f h1 h2 => ?_⟩
  · simp only [fitStep, getParams, hsel, hfl, hr]
    simp [setParams, updN, updI, look]
  · simp only [fluxAt, hc, if_pos (And.intro h1 h2)]

/-- two indices, other numbers for them -/
example : let s : HSrc := ⟨2, .vec [-1, 3], 0, 0, 0, 0, 0, 0, 0, 1⟩
    s.index = .vec [-1, 3] ∧ ([-1, 3] : List ℝ) ≠ [] ∧ ([7, 8] : List ℝ).length = ([-1, 3] : List ℝ).length ∧ (0 : ℝ) < 5 ∧ 0 < 10 / s.mfreq := by
  simp

/-- **C154** (which parameters): with a name beginning with a star there are nine, and `mfreq` is not among them; without one those that were
named -/
theorem c154_names (s : HSrc) (l : List (List Char)) :
    ∃ d, getParams s (some l) = some d ∧
      ((∃ p ∈ l, startsWith "*".toList p = true) →
        d.map Prod.fst = ["jys".toList, "ra".toList, "dec".toList, "a1".toList, "a2".toList, "th".toList, "dra".toList, "ddec".toList,
          "index".toList]) ∧
      ((∀ p ∈ l, startsWith "*".toList p = false) → ∀ k, k ∈ d.map Prod.fst ↔ k ∈ l ∧ k ∈ ["jys".toList, "ra".toList, "dec".toList,
        "a1".toList, "a2".toList, "th".toList, "dra".toList, "ddec".toList, "index".toList]) := by
  refine ⟨_, rfl, fun h => ?_, fun h k => ?_⟩
  · have : ∀ acc, select (aprms s) l acc = aprms s := by
      induction l with
      | nil => obtain ⟨p, hp, _⟩ := h; cases hp
      | cons p ps ih =>
        intro acc
        rw [select]
        split
        · rfl
        · rename_i hp
          have h' : ∃ q ∈ ps, startsWith "*".toList q = true := by
            obtain ⟨q, hq, hs⟩ := h
            rcases List.mem_cons.1 hq with rfl | hq
            · exact absurd hs hp
            · exact ⟨q, hq, hs⟩
          split <;> exact ih h' _
    rw [this]; rfl
  · have hk : ∀ k, k ∈ ["jys".toList, "ra".toList, "dec".toList, "a1".toList, "a2".toList, "th".toList, "dra".toList, "ddec".toList,
        "index".toList] ↔ (dget k (aprms s)).isSome = true := fun k => by rw [dget_isSome]; rfl
    rw [hk]
    suffices ∀ acc, k ∈ (select (aprms s) l acc).map Prod.fst ↔ k ∈ acc.map Prod.fst ∨ (k ∈ l ∧ (dget k (aprms s)).isSome = true) by
      rw [this]; simp
    induction l with
    | nil => intro acc; simp [select]
    | cons p ps ih =>
      intro acc
      have ih := ih fun q hq => h q (List.mem_cons_of_mem _ hq)
      rw [select, h p List.mem_cons_self, if_neg Bool.false_ne_true]
      cases hp : dget p (aprms s) with
      | none =>
        simp only []
        rw [ih, List.mem_cons]
        constructor
        · rintro (h | ⟨h, h'⟩)
          · exact .inl h
          · exact .inr ⟨.inr h, h'⟩
        · rintro (h | ⟨rfl | h, h'⟩)
          · exact .inl h
          · rw [hp] at h'; cases h'
          · exact .inr ⟨h, h'⟩
      | some v =>
        simp only []
        rw [ih, ← dget_isSome, dget_dset, List.mem_cons, ← dget_isSome]
        by_cases hpk : p = k
        · subst hpk; simp [hp]
        · have hkp : ¬ k = p := fun e => hpk e.symm
          simp [hpk, hkp]

/-- a name with a star and one without -/
example : (∃ p ∈ ["jys".toList, "*".toList], startsWith "*".toList p = true) ∧ (∀ p ∈ ["jys".toList, "mfreq".toList], startsWith "*".toList p = false) := by
  constructor <;> decide +kernel

/-- **C154** (the catalog): a source that the catalog makes with a fitted spectrum has at least one index, as `c154_identity` and `c154_step`
ask for -/
theorem c154_catalog (ra dec : List Char) (spec : List ℝ) (r d : List Char) (j : ℝ) (ix : List ℝ) (m : ℝ)
    (h : specBody ra dec spec = some (.curved r d j ix m)) : ix ≠ [] := by
  unfold specBody at h
  cases hs : spec.head? with
  | none => rw [hs] at h; cases h
  | some s0 =>
    rw [hs] at h
    simp only at h
    split at h
    · cases h
    · rename_i hn
      injection h with h
      injection h with _ _ _ h _
      rw [not_or] at hn
      intro he
      rw [← h] at he
      have := congrArg List.length he
      rw [List.length_drop, List.length_nil] at this
      omega

/-- a line with a fit -/
example : ∃ ix, specBody [] [] [1, 2, 3, 4, 5] = some (.curved [] [] ((10 : ℝ) ^ (4 : ℝ)) ix (74 / 1000)) ∧ ix ≠ [] := by
  refine ⟨[5], ?_, by simp⟩
  unfold specBody
  norm_num

/-- **C154** (violated): `get_params()` of these sources raises, the default being `None`; a `RadioFixedBody`, whose default is a star,
answers with all parameters -/
theorem c154_default_violated (s : HSrc) (t : Verif.Fit.Src ℝ) :
    getParams s none = none ∧ (t.getParams ["*".toList]).map Prod.fst = ["jys".toList, "index".toList, "ra".toList, "dec".toList, "a1".toList,
      "a2".toList, "th".toList, "dra".toList, "ddec".toList, "mfreq".toList] := by
  refine ⟨rfl, ?_⟩
  have : startsWith "*".toList "*".toList = true := by decide +kernel
  rw [Verif.Fit.Src.getParams, selectPrms, if_pos this]; rfl

/-- **C154** (violated): without any index the fit takes the flux for the index: a flat source of 2 Jy has 200 Jy a decade up, although no
number was changed -/
theorem c154_empty_violated : ∃ s s' : HSrc, s.index = .vec [] ∧ fitStep s ["jys".toList, "index".toList] id = some s' ∧
    fluxAt s 10 = some 2 ∧ fluxAt s' 10 = some 200 := by
  let s : HSrc := ⟨2, .vec [], 0, 0, 0, 0, 0, 0, 0, 1⟩
  refine ⟨s, { s with index := .num 2 }, rfl, ?_, ?_, ?_⟩
  · have hsel : select (aprms s) ["jys".toList, "index".toList] [] = [("jys".toList, .num 2), ("index".toList, .vec [])] := by
      have e1 : startsWith "*".toList "jys".toList = false := by decide +kernel
      have e2 : startsWith "*".toList "index".toList = false := by decide +kernel
      have g1 : dget "jys".toList (aprms s) = some (.num 2) := by simp [aprms, dget, s]
      have g2 : dget "index".toList (aprms s) = some (.vec []) := by simp [aprms, dget, s]
      simp only [select, e1, e2, g1, g2, Bool.false_eq_true, if_false]
      simp [dset]
    have hlt : ¬ ("jys".toList : List Char) ≤ "index".toList := by decide +kernel
    simp only [fitStep, getParams, hsel, asP, flattenPrms, sortD, insLeaf, if_neg hlt, flatLoop, Leaf.elems]
    simp [reconstructPrms, readLeaf, setParams, updN, updI, look, s]
  · simp only [fluxAt, coeffs, s]
    norm_num [Real.rpow_logb]
  · simp only [fluxAt, coeffs, s]
    norm_num [Real.rpow_add, Real.rpow_logb]

end Verif.Misc.Helm.Fitting
