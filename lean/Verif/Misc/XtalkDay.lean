import Mathlib.Data.List.Basic
import Mathlib.Algebra.BigOperators.Intervals
import Mathlib.Algebra.Order.Ring.Rat
import Mathlib.Algebra.Order.Ring.Abs
import Verif.Misc.Xtalk
/-!
# Crosstalk over a day (C110)

`/repo/scripts/xtalk3.py` 36-108 with `-o`, `-r` and `-i`; see `Xtalk` for what is modelled.
-/
namespace Verif.Misc.Xtalk
open Verif.Util Verif.Codes

section
variable {T F : Type} [Field F] [DecidableEq F]

/-! ## Specification -/

/-- the channels of the range where an array is not zero -/
def usable (c0 c1 : Nat) (x : Nat → F) : Finset Nat := (Finset.Ico c0 c1).filter fun c => x c ≠ 0

/-- the mean size of an array over them -/
def level (ab : F → F) (c0 c1 : Nat) (x : Nat → F) : F := (∑ c ∈ usable c0 c1 x, ab (x c)) / ((usable c0 c1 x).card : F)

/-- the mean shape of some arrays: each divided by its level, over the arrays that are not zero there -/
def shape (ab : F → F) (c0 c1 : Nat) (xs : List (Nat → F)) (c : Nat) : F :=
  (xs.map fun x => x c / level ab c0 c1 x).sum / ((xs.filter fun x => x c ≠ 0).length : F)

/-- an array as a function of the channel -/
def arr (l : List F) : Nat → F := fun c => l.getD c 0

/-! ## Lemmas -/

set_option linter.unusedSectionVars false

theorem slice_sum (p : F → F) (hp : p 0 = 0) : ∀ (m c0 : Nat) (l : List F),
    (((l.map p).drop c0).take m |>.filter fun a => a ≠ 0).sum = ∑ c ∈ Finset.range m, p (arr l (c0 + c)) := by
  intro m c0 l
  have key : ∀ (m : Nat) (l : List F), ((l.map p).take m |>.filter fun a => a ≠ 0).sum = ∑ c ∈ Finset.range m, p (arr l c) := by
    intro m
    induction m with
    | zero => intro l; simp
    | succ m ih =>
      intro l
      cases l with
      | nil => simp [arr, hp]
      | cons a l =>
        have ih' := ih l
        rw [Finset.sum_range_succ']
        simp only [List.map_cons, List.take_succ_cons]
        by_cases h : p a = 0
        · rw [List.filter_cons_of_neg (by simpa using h), ih']; simp [arr, h]
        · rw [List.filter_cons_of_pos (by simpa using h), List.sum_cons, ih']; simp [arr, add_comm]
  rw [← List.map_drop, key]
  apply Finset.sum_congr rfl
  intro c _
  simp [arr, List.getD_eq_getElem?_getD, List.getElem?_drop]

theorem slice_len (p : F → F) (hp : p 0 = 0) : ∀ (m c0 : Nat) (l : List F),
    (((l.map p).drop c0).take m |>.filter fun a => a ≠ 0).length = ∑ c ∈ Finset.range m, if p (arr l (c0 + c)) = 0 then 0 else 1 := by
  intro m c0 l
  have key : ∀ (m : Nat) (l : List F), ((l.map p).take m |>.filter fun a => a ≠ 0).length =
      ∑ c ∈ Finset.range m, if p (arr l c) = 0 then 0 else 1 := by
    intro m
    induction m with
    | zero => intro l; simp
    | succ m ih =>
      intro l
      cases l with
      | nil => simp [arr, hp]
      | cons a l =>
        have ih' := ih l
        rw [Finset.sum_range_succ']
        simp only [List.map_cons, List.take_succ_cons]
        by_cases h : p a = 0
        · rw [List.filter_cons_of_neg (by simpa using h), ih']; simp [arr, h]
        · rw [List.filter_cons_of_pos (by simpa using h), List.length_cons, ih']; simp [arr, h]
  rw [← List.map_drop, key]
  apply Finset.sum_congr rfl
  intro c _
  simp [arr, List.getD_eq_getElem?_getD, List.getElem?_drop]

/-- `np.abs` is zero at zero only -/
def AbsOk (ab : F → F) : Prop := ∀ x, ab x = 0 ↔ x = 0

theorem gainOf_spec {ab : F → F} (hab : AbsOk ab) (c0 c1 : Nat) (l : List F) (h : (usable c0 c1 (arr l)).Nonempty) :
    gainOf ab c0 c1 l = some (level ab c0 c1 (arr l)) := by
  have h0 : ab 0 = 0 := (hab 0).2 rfl
  have e1 := slice_sum ab h0 (c1 - c0) c0 l
  have e2 := slice_len ab h0 (c1 - c0) c0 l
  have s1 : ∑ c ∈ Finset.range (c1 - c0), ab (arr l (c0 + c)) = ∑ c ∈ usable c0 c1 (arr l), ab (arr l c) := by
    rw [← Finset.sum_Ico_eq_sum_range (fun c => ab (arr l c))]
    unfold usable
    rw [Finset.sum_filter]
    apply Finset.sum_congr rfl
    intro c _
    by_cases hc : arr l c = 0
    · simp [hc, h0]
    · simp [hc]
  have s2 : (∑ c ∈ Finset.range (c1 - c0), if ab (arr l (c0 + c)) = 0 then 0 else 1) = (usable c0 c1 (arr l)).card := by
    rw [← Finset.sum_Ico_eq_sum_range (fun c => if ab (arr l c) = 0 then 0 else 1)]
    unfold usable
    rw [Finset.card_filter]
    apply Finset.sum_congr rfl
    intro c _
    by_cases hc : arr l c = 0
    · simp [hc, h0]
    · have : ab (arr l c) ≠ 0 := fun h => hc ((hab _).1 h)
      simp [hc, this]
  unfold gainOf level
  simp only
  rw [if_neg, e1, e2, s1, s2]
  intro hn
  rw [hn] at e2
  rw [s2] at e2
  have := Finset.card_pos.2 h
  simp at e2
  omega

/-- the arrays named `k` among the entries `E` -/
def named (E : List (Int × List F)) (k : Int) : List (List F) := (E.filter fun e => e.1 = k).map (·.2)

theorem named_append (E E' : List (Int × List F)) (k : Int) : named (E ++ E') k = named E k ++ named E' k := by
  simp [named]

/-- what was kept of the entries `E` -/
structure RInv (ab : F → F) (c0 c1 n : Nat) (E : List (Int × List F)) (s : Rep F) : Prop where
  gain : ∀ k, (dget k s.gain).getD [] = (named E k).map fun l => level ab c0 c1 (arr l)
  xnone : ∀ k, named E k = [] → dget k s.xsum = none ∧ dget k s.cnt = none
  xsome : ∀ k, named E k ≠ [] → ∃ x c, dget k s.xsum = some x ∧ dget k s.cnt = some c ∧ x.length = n ∧ c.length = n ∧
    ∀ ch < n, x.getD ch 0 = ((named E k).map fun l => arr l ch / level ab c0 c1 (arr l)).sum ∧
      c.getD ch 0 = ((named E k).filter fun l => arr l ch ≠ 0).length

/-- an array of a npz file that can be reprocessed -/
structure ArrOk (c0 c1 n : Nat) (l : List F) : Prop where
  len : l.length = n
  some : (usable c0 c1 (arr l)).Nonempty

theorem addAt_spec {A : Type} [Add A] {k : Int} {v : List A} {d : List (Int × List A)} {n : Nat} (hv : v.length = n)
    (hd : ∀ s, dget k d = some s → s.length = n) : ∃ u, addAt k v d = some (dset k u d) ∧ u.length = n ∧
      ((dget k d = none ∧ u = v) ∨ ∃ s, dget k d = some s ∧ u = List.zipWith (· + ·) s v) := by
  cases e : dget k d with
  | none => exact ⟨v, by unfold addAt; rw [e], hv, .inl ⟨rfl, rfl⟩⟩
  | some s =>
    have hs := hd s e
    refine ⟨List.zipWith (· + ·) s v, ?_, by simp [hs, hv], .inr ⟨s, rfl, rfl⟩⟩
    unfold addAt; rw [e]; simp only [addL_some hs hv, Option.map_some]

theorem rinv_step {ab : F → F} (hab : AbsOk ab) {c0 c1 n : Nat} {E : List (Int × List F)} {s : Rep F} (h : RInv ab c0 c1 n E s)
    {e : Int × List F} (he : ArrOk c0 c1 n e.2) : ∃ s', addArr ab c0 c1 s e = some s' ∧ RInv ab c0 c1 n (E ++ [e]) s' := by
  obtain ⟨k0, l⟩ := e
  simp only at he
  have hg := gainOf_spec hab c0 c1 l he.some
  have self : named (E ++ [(k0, l)]) k0 = named E k0 ++ [l] := by rw [named_append]; simp [named]
  have other : ∀ k, k0 ≠ k → named (E ++ [(k0, l)]) k = named E k := by
    intro k hk; rw [named_append]; simp [named, hk]
  have hxl : ∀ s', dget k0 s.xsum = some s' → s'.length = n := by
    intro s' hs'
    by_cases hn : named E k0 = []
    · rw [(h.xnone k0 hn).1] at hs'; cases hs'
    · obtain ⟨x, c, a1, _, a3, _⟩ := h.xsome k0 hn
      rw [a1] at hs'; cases hs'; exact a3
  have hcl : ∀ s', dget k0 s.cnt = some s' → s'.length = n := by
    intro s' hs'
    by_cases hn : named E k0 = []
    · rw [(h.xnone k0 hn).2] at hs'; cases hs'
    · obtain ⟨x, c, _, a1, _, a3, _⟩ := h.xsome k0 hn
      rw [a1] at hs'; cases hs'; exact a3
  have hl1 : (l.map (· / level ab c0 c1 (arr l))).length = n := by simp [he.len]
  have hl2 : (unmasked ab l).length = n := by simp [unmasked, he.len]
  obtain ⟨u, e1, u1, u2⟩ := addAt_spec (k := k0) hl1 hxl
  obtain ⟨v, e2, v1, v2⟩ := addAt_spec (k := k0) hl2 hcl
  refine ⟨⟨dset k0 ((dget k0 s.gain).getD [] ++ [level ab c0 c1 (arr l)]) s.gain, dset k0 u s.xsum, dset k0 v s.cnt⟩, ?_, ?_⟩
  · unfold addArr
    simp only [hg, Option.bind_some, e1, e2]
  · constructor
    · intro k
      simp only [dget_dset]
      by_cases hk : k0 = k
      · subst hk; rw [if_pos rfl, self, Option.getD_some, h.gain, List.map_append]; rfl
      · rw [if_neg hk, other k hk, h.gain]
    · intro k hn
      have hk : k0 ≠ k := by rintro rfl; rw [self] at hn; simp at hn
      rw [other k hk] at hn
      simp only [dget_dset, if_neg hk]
      exact h.xnone k hn
    · intro k hn
      by_cases hk : k0 = k
      · subst hk
        refine ⟨u, v, dget_dset_self _ _ _, dget_dset_self _ _ _, u1, v1, ?_⟩
        intro ch hch
        have hch' : ch < l.length := by rw [he.len]; exact hch
        have q1 : (l.map (· / level ab c0 c1 (arr l))).getD ch 0 = arr l ch / level ab c0 c1 (arr l) := by
          simp [arr, List.getD_eq_getElem?_getD, List.getElem?_eq_getElem hch']
        have q2 : (unmasked ab l).getD ch 0 = if arr l ch = 0 then 0 else 1 := by
          simp [arr, unmasked, List.getD_eq_getElem?_getD, List.getElem?_eq_getElem hch', hab _]
        have q3 : ([l].filter fun l => arr l ch ≠ 0).length = if arr l ch = 0 then 0 else 1 := by
          by_cases hz : arr l ch = 0 <;> simp [hz]
        rw [self, List.map_append, List.sum_append, List.filter_append, List.length_append, q3]
        by_cases hz : named E k0 = []
        · obtain ⟨z1, z2⟩ := h.xnone k0 hz
          rcases u2 with ⟨_, hu⟩ | ⟨s', hs', _⟩
          · rcases v2 with ⟨_, hv⟩ | ⟨s', hs', _⟩
            · rw [hu, hv, q1, q2, hz]; simp
            · rw [z2] at hs'; cases hs'
          · rw [z1] at hs'; cases hs'
        · obtain ⟨x, c, a1, a2, a3, a4, a5⟩ := h.xsome k0 hz
          rcases u2 with ⟨hs', _⟩ | ⟨s', hs', hu⟩
          · rw [a1] at hs'; cases hs'
          · rcases v2 with ⟨hs'', _⟩ | ⟨s'', hs'', hv⟩
            · rw [a2] at hs''; cases hs''
            · rw [a1] at hs'; cases hs'
              rw [a2] at hs''; cases hs''
              rw [hu, hv, getD_zipWith _ a3 hl1 hch 0 0, getD_zipWith _ a4 hl2 hch 0 0, q1, q2, (a5 ch hch).1, (a5 ch hch).2]
              simp
      · rw [other k hk] at hn ⊢
        obtain ⟨x, c, a1, a2, a3⟩ := h.xsome k hn
        exact ⟨x, c, by simp only [dget_dset, if_neg hk]; exact a1, by simp only [dget_dset, if_neg hk]; exact a2, a3⟩

theorem rinv_run {ab : F → F} (hab : AbsOk ab) {c0 c1 n : Nat} (es : Npz F) : ∀ {E : List (Int × List F)} {s : Rep F},
    RInv ab c0 c1 n E s → (∀ e ∈ es, ArrOk c0 c1 n e.2) → ∃ s', addArrs ab c0 c1 es s = some s' ∧ RInv ab c0 c1 n (E ++ es) s' := by
  induction es with
  | nil => intro E s h _; exact ⟨s, rfl, by simpa using h⟩
  | cons e es ih =>
    intro E s h ho
    obtain ⟨s1, e1, h1⟩ := rinv_step hab h (ho e (by simp))
    obtain ⟨s2, e2, h2⟩ := ih h1 fun e' he' => ho e' (by simp [he'])
    refine ⟨s2, ?_, by simpa using h2⟩
    have e3 : addArrs ab c0 c1 (e :: es) s = (addArr ab c0 c1 s e).bind fun s1 => addArrs ab c0 c1 es s1 := rfl
    rw [e3, e1]; exact e2

theorem gather_spec {ab : F → F} (hab : AbsOk ab) {key : T → List Char} {c0 c1 n : Nat} {w : World T F} (t : List Char → T)
    (X : List Char → Option (Npz F)) : ∀ (args : List (List Char)) {E : List (Int × List F)} {ts : List T} {s : Rep F},
    (∀ fn ∈ args, ∃ r rs, dget fn w.uvs = some (r :: rs) ∧ r.t = t fn) →
    (∀ fn ∈ args, dget (rawName (key (t fn))) w.npz = X fn) → (∀ fn ∈ args, ∀ x, X fn = some x → ∀ e ∈ x, ArrOk c0 c1 n e.2) →
    RInv ab c0 c1 n E s → ∃ s', gatherReps ab key false c0 c1 w args (ts, s) = some (ts ++ args.map t, s') ∧
      RInv ab c0 c1 n (E ++ (args.filterMap X).flatten) s' := by
  intro args
  induction args with
  | nil => intro E ts s _ _ _ h; exact ⟨s, by simp [gatherReps], by simpa using h⟩
  | cons fn fs ih =>
    intro E ts s h1 h2 h3 h
    obtain ⟨r, rs, er, et⟩ := h1 fn (by simp)
    have hx := h2 fn (by simp)
    have hb : (dget fn w.uvs).bind List.head? = some r := by rw [er]; rfl
    cases ex : X fn with
    | none =>
      rw [ex] at hx
      obtain ⟨s', e', h'⟩ := ih (ts := ts ++ [t fn]) (fun f hf => h1 f (by simp [hf])) (fun f hf => h2 f (by simp [hf]))
        (fun f hf => h3 f (by simp [hf])) h
      refine ⟨s', ?_, ?_⟩
      · simp only [gatherReps, hb, hx, et]
        rw [e']; simp
      · rw [List.filterMap_cons_none ex]; exact h'
    | some x =>
      rw [ex] at hx
      obtain ⟨s1, e1, i1⟩ := rinv_run hab x h (h3 fn (by simp) x ex)
      obtain ⟨s', e', h'⟩ := ih (ts := ts ++ [t fn]) (fun f hf => h1 f (by simp [hf])) (fun f hf => h2 f (by simp [hf]))
        (fun f hf => h3 f (by simp [hf])) i1
      refine ⟨s', ?_, ?_⟩
      · simp only [gatherReps, hb, hx, et, Bool.false_and, Bool.false_eq_true, if_false, e1, Option.bind_some]
        rw [e']; simp
      · rw [List.filterMap_cons_some ex, List.flatten_cons, ← List.append_assoc]; exact h'

/-- a loop over a dict that makes a dict of the same names -/
theorem mapM_dict {A B : Type} (g : Int → A → Option B) : ∀ (d : List (Int × A)), (∀ p ∈ d, ∃ v, g p.1 p.2 = some v) →
    ∃ d', d.mapM (fun p => (g p.1 p.2).map fun v => (p.1, v)) = some d' ∧ ∀ k, dget k d' = (dget k d).bind (g k) := by
  intro d
  induction d with
  | nil => intro _; exact ⟨[], rfl, fun _ => rfl⟩
  | cons p d ih =>
    intro h
    obtain ⟨k0, a⟩ := p
    obtain ⟨v, hv⟩ := h (k0, a) (by simp)
    obtain ⟨d', e, hd⟩ := ih fun p hp => h p (by simp [hp])
    simp only at hv
    refine ⟨(k0, v) :: d', ?_, ?_⟩
    · simp [List.mapM_cons, hv, e]
    · intro k
      simp only [dget]
      by_cases hk : k0 = k
      · subst hk; simp [hv]
      · simp [hk, hd]

theorem mapM_none {A B : Type} (g : A → Option B) : ∀ (d : List A), (∃ p ∈ d, g p = none) → d.mapM g = none := by
  intro d
  induction d with
  | nil => rintro ⟨p, h, _⟩; cases h
  | cons a d ih =>
    rintro ⟨p, hp, hn⟩
    rcases List.mem_cons.1 hp with h | h
    · subst h; simp [List.mapM_cons, hn]
    · have := ih ⟨p, h, hn⟩
      rw [List.mapM_cons, this]
      cases g a <;> rfl

theorem sum_zero_filter (xs : List (Nat → F)) (L : (Nat → F) → F) (c : Nat) (h : (xs.filter fun x => x c ≠ 0) = []) :
    (xs.map fun x => x c / L x).sum = 0 := by
  induction xs with
  | nil => rfl
  | cons x xs ih =>
    by_cases hx : x c = 0
    · rw [List.filter_cons_of_neg (by simpa using hx)] at h
      simp [hx, ih h]
    · rw [List.filter_cons_of_pos (by simpa using hx)] at h; cases h

theorem shapes_spec {ab : F → F} {c0 c1 n : Nat} {E : List (Int × List F)} {s : Rep F} (h : RInv ab c0 c1 n E s) :
    ∃ sh, shapes s = some sh ∧ (∀ k, named E k = [] → dget k sh = none) ∧ ∀ k, named E k ≠ [] → ∃ x, dget k sh = some x ∧ x.length = n ∧
      ∀ ch < n, arr x ch = shape ab c0 c1 ((named E k).map arr) ch := by
  obtain ⟨sh, e, hd⟩ := mapM_dict (fun k (x : List F) => (dget k s.cnt).map fun c =>
    List.zipWith (fun (x : F) (n : Nat) => x / (if n = 0 then 1 else (n : F))) x c) s.xsum (by
      intro p hp
      have h1 : p.1 ∈ s.xsum.map Prod.fst := List.mem_map_of_mem hp
      have h2 : named E p.1 ≠ [] := by
        intro hn
        rw [← dget_isSome, (h.xnone _ hn).1] at h1; cases h1
      obtain ⟨x, c, _, a2, _⟩ := h.xsome p.1 h2
      rw [a2]; exact ⟨_, rfl⟩)
  refine ⟨sh, ?_, ?_, ?_⟩
  · rw [← e]
    unfold shapes
    congr 1
    funext p
    cases dget p.1 s.cnt <;> rfl
  · intro k hn; rw [hd, (h.xnone k hn).1]; rfl
  · intro k hn
    obtain ⟨x, c, a1, a2, a3, a4, a5⟩ := h.xsome k hn
    refine ⟨_, by rw [hd, a1]; simp only [Option.bind_some, a2, Option.map_some]; rfl, by simp [a3, a4], ?_⟩
    intro ch hch
    unfold arr
    rw [getD_zipWith _ a3 a4 hch 0 0, (a5 ch hch).1, (a5 ch hch).2]
    have e1 : ((named E k).filter fun l => arr l ch ≠ 0).length = (((named E k).map arr).filter fun x => x ch ≠ 0).length := by
      rw [List.filter_map, List.length_map]; rfl
    have e2 : ((named E k).map fun l => arr l ch / level ab c0 c1 (arr l)) =
        ((named E k).map arr).map fun x => x ch / level ab c0 c1 x := by rw [List.map_map]; rfl
    have e3 : shape ab c0 c1 ((named E k).map arr) ch = (((named E k).map arr).map fun x => x ch / level ab c0 c1 x).sum /
      ((((named E k).map arr).filter fun x => x ch ≠ 0).length : F) := rfl
    rw [e1, e2]
    refine Eq.trans ?_ e3.symm
    by_cases hz : (((named E k).map arr).filter fun x => x ch ≠ 0) = []
    · rw [sum_zero_filter _ _ _ hz]; simp
    · have : (((named E k).map arr).filter fun x => x ch ≠ 0).length ≠ 0 := by
        intro h0; exact hz (List.length_eq_zero_iff.1 h0)
      rw [if_neg this]

/-- the reprocessed array: level number `c` times the mean shape -/
def IsRep (ab : F → F) (c0 c1 n : Nat) (xs : List (Nat → F)) (g : F) (y : List F) : Prop :=
  y.length = n ∧ ∀ ch < n, arr y ch = g * shape ab c0 c1 xs ch

theorem repTable_spec {ab : F → F} {c0 c1 n : Nat} {E : List (Int × List F)} {s : Rep F} (h : RInv ab c0 c1 n E s) {sh : List (Int × List F)}
    (hs : shapes s = some sh) (c : Nat) :
    ((∀ k, named E k ≠ [] → c < (named E k).length) → ∃ x, repTable s.gain sh c = some x ∧ (∀ k, named E k = [] → dget k x = none) ∧
      ∀ k l, (named E k)[c]? = some l → ∃ y, dget k x = some y ∧
        IsRep ab c0 c1 n ((named E k).map arr) (level ab c0 c1 (arr l)) y) ∧
    ((∃ k, named E k ≠ [] ∧ (named E k).length ≤ c) → repTable s.gain sh c = none) := by
  obtain ⟨sh', e, h1, h2⟩ := shapes_spec h
  rw [hs] at e
  cases e
  constructor
  · intro hc
    obtain ⟨x, ex, hx⟩ := mapM_dict (fun k (x : List F) => (((dget k s.gain).getD [])[c]?).map fun g => x.map (g * ·)) sh (by
      intro p hp
      have hne : named E p.1 ≠ [] := by
        intro hn
        have hm : p.1 ∈ sh.map Prod.fst := List.mem_map_of_mem hp
        rw [← dget_isSome, h1 _ hn] at hm; cases hm
      have := hc p.1 hne
      rw [h.gain]
      exact ⟨_, by rw [List.getElem?_eq_getElem (by simpa using this)]; rfl⟩)
    refine ⟨x, ?_, ?_, ?_⟩
    · rw [← ex]
      unfold repTable
      congr 1
      funext p
      cases ((dget p.1 s.gain).getD [])[c]? <;> rfl
    · intro k hn; rw [hx, h1 k hn]; rfl
    · intro k l hl
      have hne : named E k ≠ [] := by intro hn; rw [hn] at hl; simp at hl
      obtain ⟨x', b1, b2, b3⟩ := h2 k hne
      refine ⟨x'.map (level ab c0 c1 (arr l) * ·), ?_, by simp [b2], ?_⟩
      · rw [hx, b1]
        simp only [Option.bind_some, h.gain, List.getElem?_map, hl, Option.map_some]
      · intro ch hch
        rw [← b3 ch hch]
        have : ch < x'.length := by rw [b2]; exact hch
        simp [arr, List.getD_eq_getElem?_getD, List.getElem?_eq_getElem this]
  · rintro ⟨k, hne, hk⟩
    obtain ⟨x', b1, _, _⟩ := h2 k hne
    apply mapM_none
    refine ⟨(k, x'), dget_mem b1, ?_⟩
    simp only [h.gain]
    rw [List.getElem?_eq_none (by simpa using hk)]
    rfl

theorem write_spec (key : T → List Char) (gain sh : List (Int × List F)) : ∀ (ts : List T) (c m : Nat) (w : World T F), m ≤ ts.length →
    (∀ i < m, ∃ x, repTable gain sh (c + i) = some x) → (m = ts.length ∨ repTable gain sh (c + m) = none) → (ts.map key).Nodup →
    ∃ w', writeReps key gain sh c ts w = (w', decide (m = ts.length)) ∧ w'.uvs = w.uvs ∧
      (∀ i t, i < m → ts[i]? = some t → dget (repName (key t)) w'.npz = repTable gain sh (c + i)) ∧
      ∀ nm, (∀ t ∈ ts, nm ≠ repName (key t)) → dget nm w'.npz = dget nm w.npz := by
  intro ts
  induction ts with
  | nil =>
    intro c m w hm _ _ _
    have : m = 0 := by simpa using hm
    subst this
    exact ⟨w, by simp [writeReps], rfl, by simp, fun _ _ => rfl⟩
  | cons t ts ih =>
    intro c m w hm hsome hstop hnd
    cases m with
    | zero =>
      have hn : repTable gain sh c = none := by simpa using hstop
      exact ⟨w, by simp [writeReps, hn], rfl, by simp, fun _ _ => rfl⟩
    | succ m =>
      obtain ⟨x, hx⟩ := hsome 0 (by omega)
      rw [Nat.add_zero] at hx
      rw [List.map_cons, List.nodup_cons] at hnd
      obtain ⟨w', e, a1, a2, a3⟩ := ih (c + 1) m { w with npz := dset (repName (key t)) x w.npz } (by simpa using hm)
        (fun i hi => by have := hsome (i + 1) (by omega); rwa [show c + (i + 1) = c + 1 + i by omega] at this)
        (by
          rcases hstop with h | h
          · left; simpa using h
          · right; rwa [show c + 1 + m = c + (m + 1) by omega]) hnd.2
      have hne : ∀ t' ∈ ts, repName (key t) ≠ repName (key t') := by
        intro t' ht' h
        have : key t = key t' := List.append_cancel_right h
        exact hnd.1 (by rw [this]; exact List.mem_map_of_mem ht')
      refine ⟨w', ?_, a1, ?_, ?_⟩
      · simp only [writeReps, hx]
        rw [e]
        simp
      · intro i t' hi ht'
        cases i with
        | zero =>
          simp at ht'; subst ht'
          rw [a3 _ hne, Nat.add_zero, hx]
          exact dget_dset_self _ _ _
        | succ i =>
          rw [a2 i t' (by omega) (by simpa using ht')]
          congr 1; omega
      · intro nm hnm
        rw [a3 nm fun t' ht' => hnm t' (by simp [ht'])]
        exact dget_dset_ne (Ne.symm (hnm t (by simp))) _ _

theorem named_dget {k : Int} : ∀ {x : Npz F}, (x.map Prod.fst).Nodup → named x k = (dget k x).toList := by
  intro x
  induction x with
  | nil => intro _; rfl
  | cons p x ih =>
    obtain ⟨k0, l⟩ := p
    intro hn
    rw [List.map_cons, List.nodup_cons] at hn
    have ih' := ih hn.2
    simp only [dget]
    by_cases hk : k0 = k
    · subst hk
      have h0 : dget k0 x = none := (dget_none _ _).2 hn.1
      rw [h0] at ih'
      have e : named ((k0, l) :: x) k0 = l :: named x k0 := by simp [named]
      rw [e, ih']; simp
    · have e : named ((k0, l) :: x) k = named x k := by simp [named, hk]
      rw [e, ih']; simp [hk]

/-- the arrays named `k` of the npz files that are there, in the order of the arguments -/
def column (X : List Char → Option (Npz F)) (args : List (List Char)) (k : Int) : List (List F) :=
  args.filterMap fun fn => (X fn).bind fun x => dget k x

theorem named_column {X : List Char → Option (Npz F)} {k : Int} : ∀ {args : List (List Char)},
    (∀ fn ∈ args, ∀ x, X fn = some x → (x.map Prod.fst).Nodup) → named (args.filterMap X).flatten k = column X args k := by
  intro args
  induction args with
  | nil => intro _; rfl
  | cons fn fs ih =>
    intro h
    have ih' := ih fun f hf => h f (by simp [hf])
    cases e : X fn with
    | none =>
      rw [List.filterMap_cons_none e, ih']
      unfold column
      rw [List.filterMap_cons_none (by rw [e]; rfl)]
    | some x =>
      rw [List.filterMap_cons_some e, List.flatten_cons, named_append, ih', named_dget (h fn (by simp) x e)]
      unfold column
      cases e2 : dget k x with
      | none => rw [List.filterMap_cons_none (by rw [e]; exact e2)]; rfl
      | some l => rw [List.filterMap_cons_some (by rw [e]; exact e2)]; rfl

/-- what reprocessing is given: data sets whose first record has the time `t fn`, and for each maybe a npz file `X fn` -/
structure RepIn (key : T → List Char) (c0 c1 n : Nat) (t : List Char → T) (X : List Char → Option (Npz F)) (args : List (List Char))
    (w : World T F) : Prop where
  first : ∀ fn ∈ args, ∃ r rs, dget fn w.uvs = some (r :: rs) ∧ r.t = t fn
  file : ∀ fn ∈ args, dget (rawName (key (t fn))) w.npz = X fn
  names : ∀ fn ∈ args, ∀ x, X fn = some x → (x.map Prod.fst).Nodup
  arrs : ∀ fn ∈ args, ∀ x, X fn = some x → ∀ e ∈ x, ArrOk c0 c1 n e.2
  keys : (args.map fun fn => key (t fn)).Nodup

theorem reprocess_gen {ab : F → F} (hab : AbsOk ab) {key : T → List Char} {c0 c1 n : Nat} {t : List Char → T}
    {X : List Char → Option (Npz F)} {args : List (List Char)} {w : World T F} (h : RepIn key c0 c1 n t X args w) (m : Nat)
    (hm : m ≤ args.length) (hlt : ∀ k, column X args k ≠ [] → m ≤ (column X args k).length)
    (hstop : m = args.length ∨ ∃ k, column X args k ≠ [] ∧ (column X args k).length ≤ m) :
    ∃ w', reprocess ab key false c0 c1 args w = (w', decide (m = args.length)) ∧ w'.uvs = w.uvs ∧
      (∀ i fn, i < m → args[i]? = some fn → ∃ x, dget (repName (key (t fn))) w'.npz = some x ∧
        (∀ k, column X args k = [] → dget k x = none) ∧
        ∀ k l, (column X args k)[i]? = some l → ∃ y, dget k x = some y ∧
          IsRep ab c0 c1 n ((column X args k).map arr) (level ab c0 c1 (arr l)) y) ∧
      ∀ nm, (∀ fn ∈ args, nm ≠ repName (key (t fn))) → dget nm w'.npz = dget nm w.npz := by
  obtain ⟨s, e, hi⟩ := gather_spec hab t X args (E := []) (ts := []) (s := ⟨[], [], []⟩) h.first h.file h.arrs
    ⟨by intro k; rfl, by intro k _; exact ⟨rfl, rfl⟩, by intro k hk; exact absurd rfl hk⟩
  rw [List.nil_append] at hi
  rw [List.nil_append] at e
  obtain ⟨sh, hs, _⟩ := shapes_spec hi
  have hcol : ∀ k, named (args.filterMap X).flatten k = column X args k := fun k => named_column h.names
  have ok : ∀ i < m, ∃ x, repTable s.gain sh i = some x ∧ (∀ k, column X args k = [] → dget k x = none) ∧
      ∀ k l, (column X args k)[i]? = some l → ∃ y, dget k x = some y ∧
        IsRep ab c0 c1 n ((column X args k).map arr) (level ab c0 c1 (arr l)) y := by
    intro i hi'
    have := (repTable_spec hi hs i).1 (by intro k hk; rw [hcol] at hk ⊢; have := hlt k hk; omega)
    simpa only [hcol] using this
  obtain ⟨w', e', a1, a2, a3⟩ := write_spec key s.gain sh (args.map t) 0 m w (by simpa using hm)
    (fun i hi' => by obtain ⟨x, hx, _⟩ := ok i hi'; exact ⟨x, by rw [Nat.zero_add]; exact hx⟩)
    (by
      rcases hstop with h1 | ⟨k, h1, h2⟩
      · left; simpa using h1
      · right
        rw [Nat.zero_add]
        exact (repTable_spec hi hs m).2 ⟨k, by rw [hcol]; exact h1, by rw [hcol]; exact h2⟩)
    (by rw [List.map_map]; exact h.keys)
  refine ⟨w', ?_, a1, ?_, ?_⟩
  · unfold reprocess
    rw [e]
    simp only [hs]
    rw [e']; simp
  · intro i fn hi' hf
    obtain ⟨x, hx, h1, h2⟩ := ok i hi'
    refine ⟨x, ?_, h1, h2⟩
    rw [a2 i (t fn) hi' (by rw [List.getElem?_map, hf]; rfl), Nat.zero_add, hx]
  · intro nm hnm
    apply a3
    intro t' ht'
    obtain ⟨fn, hf, rfl⟩ := List.mem_map.1 ht'
    exact hnm fn hf

/-! ## C110 -/

/-- C110, `-r`: when every data set has its npz file and all of these have the same baselines, the file reprocessed for a data set has
these baselines, and for each of them the level of that data set times the mean shape. -/
theorem c110_reprocess_partial {ab : F → F} (hab : AbsOk ab) {key : T → List Char} {c0 c1 n : Nat} {t : List Char → T}
    {X : List Char → Npz F} {args : List (List Char)} {w : World T F} (h : RepIn key c0 c1 n t (fun fn => some (X fn)) args w)
    (hsame : ∀ fn ∈ args, ∀ fn' ∈ args, ∀ k, (dget k (X fn)).isSome → (dget k (X fn')).isSome) :
    ∃ w', reprocess ab key false c0 c1 args w = (w', true) ∧ w'.uvs = w.uvs ∧
      (∀ fn ∈ args, ∃ x, dget (repName (key (t fn))) w'.npz = some x ∧ (∀ k, dget k (X fn) = none → dget k x = none) ∧
        ∀ k l, dget k (X fn) = some l → ∃ y, dget k x = some y ∧ y.length = n ∧ ∀ ch < n, y.getD ch 0 =
          level ab c0 c1 (fun c => l.getD c 0) * shape ab c0 c1 (args.map fun f => fun c => ((dget k (X f)).getD []).getD c 0) ch) ∧
      ∀ nm, (∀ fn ∈ args, nm ≠ repName (key (t fn))) → dget nm w'.npz = dget nm w.npz := by
  have hcol : ∀ k, (column (fun fn => some (X fn)) args k = [] ∧ ∀ fn ∈ args, dget k (X fn) = none) ∨
      ∀ fn ∈ args, (dget k (X fn)).isSome := by
    intro k
    by_cases hk : ∃ fn ∈ args, (dget k (X fn)).isSome
    · obtain ⟨fn, hf, h1⟩ := hk
      right
      intro fn' hf'
      exact hsame fn hf fn' hf' k h1
    · left
      have hall : ∀ fn ∈ args, dget k (X fn) = none := by
        intro fn hf
        cases e : dget k (X fn) with
        | none => rfl
        | some l => exact absurd ⟨fn, hf, by rw [e]; rfl⟩ hk
      refine ⟨?_, hall⟩
      unfold column
      rw [List.filterMap_eq_nil_iff]
      intro fn hf
      exact hall fn hf
  have hfull : ∀ (k : Int) (as : List (List Char)), (∀ fn ∈ as, (dget k (X fn)).isSome) →
      column (fun fn => some (X fn)) as k = as.map fun f => (dget k (X f)).getD [] := by
    intro k as
    induction as with
    | nil => intro _; rfl
    | cons a as ih =>
      intro hs
      have ih' := ih fun f hf => hs f (by simp [hf])
      obtain ⟨l, hl⟩ := Option.isSome_iff_exists.1 (hs a (by simp))
      unfold column at ih' ⊢
      rw [List.filterMap_cons_some (by exact hl), ih', List.map_cons, hl]
      rfl
  obtain ⟨w', e, a1, a2, a3⟩ := reprocess_gen hab h args.length le_rfl (by
    intro k hk
    rcases hcol k with h1 | h1
    · exact absurd h1.1 hk
    · rw [hfull k args h1, List.length_map]) (.inl rfl)
  refine ⟨w', by rw [e]; simp, a1, ?_, a3⟩
  intro fn hf
  obtain ⟨i, hi, hfi⟩ := List.getElem_of_mem hf
  have hfi' : args[i]? = some fn := by rw [List.getElem?_eq_getElem hi, hfi]
  obtain ⟨x, hx, h1, h2⟩ := a2 i fn hi hfi'
  refine ⟨x, hx, ?_, ?_⟩
  · intro k hk
    rcases hcol k with h3 | h3
    · exact h1 k h3.1
    · have := h3 fn hf; rw [hk] at this; cases this
  · intro k l hl
    rcases hcol k with h3 | h3
    · have := h3.2 fn hf; rw [hl] at this; cases this
    · have e1 := hfull k args h3
      obtain ⟨y, b1, b2, b3⟩ := h2 k l (by rw [e1, List.getElem?_map, hfi', Option.map_some, hl]; rfl)
      refine ⟨y, b1, b2, fun ch hch => ?_⟩
      have := b3 ch hch
      rw [e1, List.map_map] at this
      exact this

/-- C110, `-r`, otherwise: as soon as an npz file is missing, or has not all baselines of the others, the run ends with an IndexError.
Before it does, files are written in which the level of a baseline is not that of the data set but, for the data set number `i`, that
of the `i`-th npz file that has the baseline. -/
theorem c110_gap_violated {ab : F → F} (hab : AbsOk ab) {key : T → List Char} {c0 c1 n : Nat} {t : List Char → T}
    {X : List Char → Option (Npz F)} {args : List (List Char)} {w : World T F} (h : RepIn key c0 c1 n t X args w)
    (hgap : ∃ k, column X args k ≠ [] ∧ (column X args k).length < args.length) :
    ∃ w', reprocess ab key false c0 c1 args w = (w', false) ∧
      ∀ i fn, (∀ k, column X args k ≠ [] → i < (column X args k).length) → args[i]? = some fn →
        ∃ x, dget (repName (key (t fn))) w'.npz = some x ∧ ∀ k l, (column X args k)[i]? = some l →
          ∃ y, dget k x = some y ∧ y.length = n ∧ ∀ ch < n, y.getD ch 0 =
            level ab c0 c1 (fun c => l.getD c 0) * shape ab c0 c1 ((column X args k).map fun l => fun c => l.getD c 0) ch := by
  classical
  have hex : ∃ m, ∃ k, column X args k ≠ [] ∧ (column X args k).length ≤ m := by
    obtain ⟨k, h1, _⟩ := hgap; exact ⟨_, k, h1, le_rfl⟩
  have hsp := Nat.find_spec hex
  have hlt : Nat.find hex < args.length := by
    obtain ⟨k, h1, h2⟩ := hgap
    exact lt_of_le_of_lt (Nat.find_min' hex ⟨k, h1, le_rfl⟩) h2
  obtain ⟨w', e, _, a2, _⟩ := reprocess_gen hab h (Nat.find hex) (by omega) (by
    intro k hk
    exact Nat.find_min' hex ⟨k, hk, le_rfl⟩) (.inr hsp)
  refine ⟨w', by rw [e]; simp; omega, ?_⟩
  intro i fn hi hf
  have him : i < Nat.find hex := by
    obtain ⟨k, h1, h2⟩ := hsp
    exact lt_of_lt_of_le (hi k h1) h2
  obtain ⟨x, hx, _, h2⟩ := a2 i fn him hf
  refine ⟨x, hx, fun k l hl => ?_⟩
  obtain ⟨y, b1, b2, b3⟩ := h2 k l hl
  exact ⟨y, b1, b2, b3⟩

theorem level_smul {ab : F → F} (hmul : ∀ x y, ab (x * y) = ab x * ab y) {a : F} (ha : a ≠ 0) (hpos : ab a = a) (c0 c1 : Nat) (s : Nat → F) :
    level ab c0 c1 (fun c => a * s c) = a * level ab c0 c1 s := by
  have hu : usable c0 c1 (fun c => a * s c) = usable c0 c1 s := by
    unfold usable
    apply Finset.filter_congr
    intro c _
    simp [ha]
  unfold level
  rw [hu]
  have : ∑ c ∈ usable c0 c1 s, ab (a * s c) = a * ∑ c ∈ usable c0 c1 s, ab (s c) := by
    rw [Finset.mul_sum]
    apply Finset.sum_congr rfl
    intro c _
    rw [hmul, hpos]
  rw [this, mul_div_assoc]

/-- C110: when the arrays are positive multiples of one shape, each of them is its level times their mean shape: reprocessing gives
them back. -/
theorem c110_separable [CharZero F] {ab : F → F} (hmul : ∀ x y, ab (x * y) = ab x * ab y) (c0 c1 : Nat) (s : Nat → F)
    (hs : level ab c0 c1 s ≠ 0) (as : List F) (has : ∀ a ∈ as, a ≠ 0 ∧ ab a = a) {a : F} (ha : a ∈ as) (c : Nat) :
    level ab c0 c1 (fun c => a * s c) * shape ab c0 c1 (as.map fun b => fun c => b * s c) c = a * s c := by
  rw [level_smul hmul (has a ha).1 (has a ha).2]
  unfold shape
  by_cases hz : s c = 0
  · have : ((as.map fun b => fun c => b * s c).map fun x => x c / level ab c0 c1 x).sum = 0 := by
      rw [List.map_map]
      apply List.sum_eq_zero
      intro x hx
      obtain ⟨b, _, rfl⟩ := List.mem_map.1 hx
      simp [hz]
    rw [this, hz]; simp
  · have h1 : ((as.map fun b => fun c => b * s c).filter fun x => x c ≠ 0).length = as.length := by
      rw [List.filter_eq_self.2, List.length_map]
      intro x hx
      obtain ⟨b, hb, rfl⟩ := List.mem_map.1 hx
      simpa [hz] using (has b hb).1
    have h2 : ((as.map fun b => fun c => b * s c).map fun x => x c / level ab c0 c1 x).sum = as.length * (s c / level ab c0 c1 s) := by
      have : ∀ l : List F, (∀ b ∈ l, b ≠ 0 ∧ ab b = b) →
          ((l.map fun b => fun c => b * s c).map fun x => x c / level ab c0 c1 x).sum = l.length * (s c / level ab c0 c1 s) := by
        intro l
        induction l with
        | nil => intro _; simp
        | cons b l ih =>
          intro hl
          have hb := hl b (by simp)
          simp only [List.map_cons, List.sum_cons, ih fun b hb => hl b (by simp [hb]), level_smul hmul hb.1 hb.2, List.length_cons,
            Nat.cast_add, Nat.cast_one]
          rw [mul_div_mul_left _ _ hb.1]; ring
      exact this as has
    have h3 : (as.length : F) ≠ 0 := by
      intro h0
      have : as.length = 0 := by exact_mod_cast h0
      rw [List.length_eq_zero_iff.1 this] at ha; cases ha
    rw [h1, h2]
    field_simp

/-- C110, `-r` in python 3: `has_key` raises at the first npz file that is not empty; nothing is written. -/
theorem c110_python3_violated {ab : F → F} {key : T → List Char} {c0 c1 n : Nat} {t : List Char → T} {X : List Char → Option (Npz F)}
    {args : List (List Char)} {w : World T F} (h : RepIn key c0 c1 n t X args w) {fn : List Char} (hf : fn ∈ args) {x : Npz F}
    (hx : X fn = some x) (hne : x ≠ []) : reprocess ab key true c0 c1 args w = (w, false) := by
  have key' : ∀ (as : List (List Char)) (s : List T × Rep F), (∀ f ∈ as, f ∈ args) → fn ∈ as →
      gatherReps ab key true c0 c1 w as s = none := by
    intro as
    induction as with
    | nil => intro _ _ hm; cases hm
    | cons a as ih =>
      intro s hsub hm
      obtain ⟨r, rs, er, et⟩ := h.first a (hsub a (by simp))
      have hb : (dget a w.uvs).bind List.head? = some r := by rw [er]; rfl
      have hfile := h.file a (hsub a (by simp))
      have rest : a ≠ fn → ∀ s', gatherReps ab key true c0 c1 w as s' = none := by
        intro hne' s'
        refine ih s' (fun f hf' => hsub f (by simp [hf'])) ?_
        rcases List.mem_cons.1 hm with h1 | h1
        · exact absurd h1.symm hne'
        · exact h1
      simp only [gatherReps, hb, et, hfile]
      by_cases ha : a = fn
      · subst ha
        rw [hx]
        cases x with
        | nil => exact absurd rfl hne
        | cons e es => simp
      · cases ex : X a with
        | none => exact rest ha _
        | some y =>
          simp only
          split
          · rfl
          · cases addArrs ab c0 c1 y s.2 with
            | none => rfl
            | some s2 => exact rest ha _
  unfold reprocess
  rw [key' args _ (fun f hf' => hf') hf]

/-- the first record that is no autocorrelation has the time `t` -/
def FirstCross (recs : List (Rec T F)) (t : T) : Prop :=
  ∃ pre r post, recs = pre ++ r :: post ∧ (∀ s ∈ pre, s.i = s.j) ∧ r.i ≠ r.j ∧ r.t = t

theorem FirstCross.head {recs : List (Rec T F)} {t : T} (h : FirstCross recs t) : ∃ r, (crosses recs).head? = some r ∧ r.t = t := by
  obtain ⟨pre, r, post, e, h1, h2, h3⟩ := h
  refine ⟨r, ?_, h3⟩
  have hp : pre.filter (fun r => decide (r.i ≠ r.j)) = [] := by
    rw [List.filter_eq_nil_iff]; intro s hs; simpa using h1 s hs
  unfold crosses
  rw [e, List.filter_append, hp, List.nil_append, List.filter_cons_of_pos (by simpa using h2)]
  rfl

theorem loop_out {key : T → List Char} {nch : List Char → Nat} {R : List Char → List (Rec T F)} {K : List Char → T} :
    ∀ (args : List (List Char)) (w : World T F), There nch R args w → (∀ fn ∈ args, FirstCross (R fn) (K fn)) →
    (args.map fun fn => key (K fn)).Nodup →
    ∃ w', runFiles key false .out args w = (w', true) ∧ w'.uvs = w.uvs ∧
      (∀ fn ∈ args, dget (rawName (key (K fn))) w'.npz = estimate false (crosses (R fn)) ∧
        (estimate false (crosses (R fn))).isSome) ∧
      ∀ nm, (∀ fn ∈ args, nm ≠ rawName (key (K fn))) → dget nm w'.npz = dget nm w.npz := by
  intro args
  induction args with
  | nil => intro w _ _ _; exact ⟨w, rfl, rfl, by simp, fun _ _ => rfl⟩
  | cons fn fs ih =>
    intro w h hK hnd
    rw [List.map_cons, List.nodup_cons] at hnd
    have hok' : ∀ r ∈ crosses (R fn), RecOk (nch fn) r := fun r hr => h.ok fn (by simp) r (List.mem_filter.1 hr).1
    obtain ⟨x, ex, _⟩ := estimate_spec hok'
    obtain ⟨r0, hr0, ht⟩ := (hK fn (by simp)).head
    have hs : stepFile key false .out w fn = some { w with npz := dset (rawName (key (K fn))) x w.npz } := by
      unfold stepFile
      rw [if_neg (by simp), h.there fn (by simp)]
      simp only [hr0]
      unfold doFile
      simp only [ex, Option.map_some, ht]
    obtain ⟨w', e, a1, a2, a3⟩ := ih { w with npz := dset (rawName (key (K fn))) x w.npz }
      ⟨fun f hf => h.there f (by simp [hf]), fun f hf => h.ok f (by simp [hf]), fun f hf => h.cross f (by simp [hf])⟩
      (fun f hf => hK f (by simp [hf])) hnd.2
    refine ⟨w', by simp only [runFiles, hs]; exact e, a1, ?_, ?_⟩
    · intro f hf
      rcases List.mem_cons.1 hf with h1 | h1
      · subst h1
        rw [a3, ex]
        · exact ⟨dget_dset_self _ _ _, rfl⟩
        · intro f' hf' h2
          have : key (K f) = key (K f') := List.append_cancel_right h2
          exact hnd.1 (by rw [this]; exact List.mem_map_of_mem (f := fun fn => key (K fn)) hf')
      · exact a2 f h1
    · intro nm hnm
      rw [a3 nm fun f hf => hnm f (by simp [hf])]
      exact dget_dset_ne (Ne.symm (hnm fn (by simp))) _ _

/-- the loop with `-i` when every data set has its npz file `Y fn` -/
theorem loop_in {key : T → List Char} (py3 : Bool) {nch : List Char → Nat} {R : List Char → List (Rec T F)} {K : List Char → T}
    {args : List (List Char)} {w : World T F} (h : Ready nch R args w) (hK : ∀ fn ∈ args, FirstCross (R fn) (K fn))
    {v : List Char → Rec T F → Nat → F} (hY : ∀ fn ∈ args, ∃ x, findNpz key w (K fn) = some x ∧
      ∀ r ∈ R fn, (dget (blOf r) x = none ∧ ∀ c < nch fn, v fn r c = 0) ∨
        ∃ s, dget (blOf r) x = some s ∧ s.length = nch fn ∧ ∀ c < nch fn, s.getD c 0 = v fn r c) :
    ∃ w', runFiles key py3 .inn args w = (w', true) ∧ w'.npz = w.npz ∧
      (∀ fn ∈ args, ∃ outs, dget (fn ++ ['x']) w'.uvs = some outs ∧ Removed (nch fn) (v fn) (R fn) outs) ∧
      ∀ g, (∀ fn ∈ args, g ≠ fn ++ ['x']) → dget g w'.uvs = dget g w.uvs := by
  have hp : ∀ fn ∈ args, ∃ o, ∃ x, findNpz key w (K fn) = some x ∧ copyFile x (R fn) = some o ∧ Removed (nch fn) (v fn) (R fn) o := by
    intro fn hf
    obtain ⟨x, h1, h2⟩ := hY fn hf
    obtain ⟨o, e, ho⟩ := copy_spec (h.ok fn hf) h2
    exact ⟨o, x, h1, e, ho⟩
  classical
  let O : List Char → Option (List (Rec T F)) := fun fn => if hf : fn ∈ args then some (hp fn hf).choose else none
  obtain ⟨w', e, a1, a2, a3⟩ := loop_copy (key := key) (py3 := py3) (m := .inn) (by decide) R O w.npz args w rfl h.there h.crosses_ne
    h.sep (fun fn hf => .inl (h.new fn hf)) (by
      intro fn hf w1 hw1 r0 hr0
      obtain ⟨x, b1, b2, b3⟩ := (hp fn hf).choose_spec
      have ho : O fn = some (hp fn hf).choose := dif_pos hf
      obtain ⟨r1, hr1, ht⟩ := (hK fn hf).head
      rw [hr0] at hr1
      obtain rfl := Option.some.inj hr1
      have hfind : findNpz key w1 r0.t = some x := by rw [ht, ← b1]; unfold findNpz; rw [hw1]
      rw [ho]
      simp only [doFile, hfind, putCopy, b2, Option.map_some])
  refine ⟨w', e, a1, ?_, a3⟩
  intro fn hf
  obtain ⟨x, b1, b2, b3⟩ := (hp fn hf).choose_spec
  exact ⟨_, (a2 fn hf).trans (dif_pos hf), b3⟩

theorem raw_ne_rep (a b : List Char) : rawName a ≠ repName b := by
  intro h
  have h1 := congrArg (fun l => l.reverse.take 8) h
  simp only [rawName, repName, List.reverse_append] at h1
  rw [List.take_append_of_le_length (by decide), List.take_append_of_le_length (by decide)] at h1
  exact absurd h1 (by decide)

/-- a baseline of the data set stored gives its means; any other gives zero -/
theorem estimate_rec {n : Nat} {recs : List (Rec T F)} (hok : ∀ r ∈ recs, RecOk n r) {x : Npz F}
    (hx : estimate false (crosses recs) = some x) {m : Nat} {r : Rec T F} (hr : RecOk m r) (hm : m = n) :
    (dget (blOf r) x = none ∧ (∀ s ∈ recs, s.i ≠ s.j → ¬ SameBl s r) ∧ ∀ c, xtalkOf recs r c = 0) ∨
      r.i ≠ r.j ∧ (∃ s ∈ recs, SameBl s r) ∧ ∃ s, dget (blOf r) x = some s ∧ s.length = n ∧ arr s = xtalkOf recs r := by
  subst hm
  have hok' : ∀ r ∈ crosses recs, RecOk m r := fun r hr => hok r (List.mem_filter.1 hr).1
  obtain ⟨x', e, h1, h2⟩ := estimate_spec hok'
  rw [hx] at e
  obtain rfl := Option.some.inj e
  by_cases hex : ∃ s ∈ crosses recs, SameBl s r
  · right
    obtain ⟨s, hs, hb⟩ := hex
    have hs' := List.mem_filter.1 hs
    have hsc : s.i ≠ s.j := by simpa using hs'.2
    have hrc : r.i ≠ r.j := by rcases hb.1 with h4 | h4 <;> omega
    refine ⟨hrc, ⟨s, hs'.1, hb⟩, ?_⟩
    obtain ⟨l, a1, a2, a3⟩ := h2 s hs
    refine ⟨l, by rw [← (blOf_iff (hok' s hs) hr).2 hb]; exact a1, a2, ?_⟩
    funext c
    unfold xtalkOf
    rw [if_neg hrc]
    by_cases hc : c < m
    · have := a3 c hc
      rw [meanAt_crosses recs hsc] at this
      unfold arr
      rw [this]
      unfold meanAt
      rw [goodAt_same hb]
    · have hg : goodAt recs r c = [] := by
        unfold goodAt
        rw [List.map_eq_nil_iff, List.filter_eq_nil_iff]
        intro q hq
        have : q.f[c]? = none := List.getElem?_eq_none (by rw [(hok q hq).flen]; omega)
        simp [this]
      unfold meanAt
      rw [hg]
      simp [arr, List.getD_eq_getElem?_getD, List.getElem?_eq_none (show l.length ≤ c by omega)]
  · left
    have hno : ∀ s ∈ recs, s.i ≠ s.j → ¬ SameBl s r := by
      intro s hs hc hb
      exact hex ⟨s, List.mem_filter.2 ⟨hs, by simpa using hc⟩, hb⟩
    refine ⟨h1 _ ?_, hno, ?_⟩
    · intro s hs hb
      exact hex ⟨s, hs, (blOf_iff (hok' s hs) hr).1 hb⟩
    · intro c
      unfold xtalkOf
      split
      · rfl
      · rename_i hc
        have hg : goodAt recs r c = [] := by
          unfold goodAt
          rw [List.map_eq_nil_iff, List.filter_eq_nil_iff]
          intro q hq
          have : ¬ SameBl q r := by
            intro hb
            have : q.i ≠ q.j := by rcases hb.1 with h4 | h4 <;> omega
            exact hno q hq this hb
          simp [this]
        unfold meanAt
        rw [hg]; simp

/-- C110, `-o` (python 2) and then `-i` (any python): from a record, in each channel, is taken the mean that was found for its baseline
and polarisation in the data set `src fn` of the same time that was given to `-o`; zero for autocorrelations and for baselines that
are not in it. -/
theorem c110_apply_partial (py3 : Bool) {key : T → List Char} {nch : List Char → Nat} {R : List Char → List (Rec T F)} {K : List Char → T}
    {args args2 : List (List Char)} {w : World T F} (h : There nch R args w) (h2 : Ready nch R args2 w)
    (hK : ∀ fn ∈ args ++ args2, FirstCross (R fn) (K fn)) (hkeys : (args.map fun fn => key (K fn)).Nodup)
    {src : List Char → List Char} (hsrc : ∀ fn ∈ args2, src fn ∈ args ∧ key (K (src fn)) = key (K fn) ∧ nch (src fn) = nch fn)
    (hrep : ∀ fn ∈ args2, dget (repName (key (K fn))) w.npz = none) :
    ∃ w1 w2, runFiles key false .out args w = (w1, true) ∧ w1.uvs = w.uvs ∧ runFiles key py3 .inn args2 w1 = (w2, true) ∧
      ∀ fn ∈ args2, ∃ outs, dget (fn ++ ['x']) w2.uvs = some outs ∧
        Removed (nch fn) (fun r c => if r.i = r.j then 0 else meanAt (R (src fn)) r c) (R fn) outs := by
  obtain ⟨w1, e1, a1, a2, a3⟩ := loop_out args w h (fun fn hf => hK fn (by simp [hf])) hkeys
  have hr1 : Ready nch R args2 w1 :=
    ⟨⟨fun f hf => by rw [a1]; exact h2.there f hf, h2.ok, h2.cross⟩, fun f hf => by rw [a1]; exact h2.new f hf⟩
  obtain ⟨w2, e2, b1, b2, b3⟩ := loop_in (key := key) py3 hr1 (fun fn hf => hK fn (by simp [hf]))
    (v := fun fn r c => xtalkOf (R (src fn)) r c) (by
      intro fn hf
      obtain ⟨s1, s2, s3⟩ := hsrc fn hf
      obtain ⟨d1, d2⟩ := a2 _ s1
      obtain ⟨x, hx⟩ := Option.isSome_iff_exists.1 d2
      refine ⟨x, ?_, ?_⟩
      · unfold findNpz
        rw [a3 _ fun f _ h => raw_ne_rep _ _ h.symm, hrep fn hf]
        simp only
        rw [← s2, d1, hx]
      · intro r hr
        rcases estimate_rec (h.ok _ s1) hx (h2.ok fn hf r hr) s3.symm with ⟨q1, _, q2⟩ | ⟨_, _, s, q1, q2, q3⟩
        · exact .inl ⟨q1, fun c _ => q2 c⟩
        · exact .inr ⟨s, q1, by rw [q2, s3], fun c _ => congrFun q3 c⟩)
  exact ⟨w1, w2, e1, a1, e2, b2⟩

theorem addRec_nodup {acc acc' : List (Int × (List F × List Nat))} {r : Rec T F} (h : addRec acc r = some acc')
    (hn : (acc.map Prod.fst).Nodup) : (acc'.map Prod.fst).Nodup := by
  unfold addRec at h
  cases e : dget (blOf r) acc with
  | none => rw [e] at h; simp only [Option.some.injEq] at h; rw [← h]; exact nodup_dset _ _ _ hn
  | some gc =>
    rw [e] at h
    simp only [Option.bind_eq_some_iff] at h
    obtain ⟨g, _, c, _, h⟩ := h
    rw [← Option.some.inj h]; exact nodup_dset _ _ _ hn

theorem addRecs_nodup : ∀ (rs : List (Rec T F)) {acc acc' : List (Int × (List F × List Nat))}, addRecs rs acc = some acc' →
    (acc.map Prod.fst).Nodup → (acc'.map Prod.fst).Nodup := by
  intro rs
  induction rs with
  | nil => intro acc acc' h hn; cases h; exact hn
  | cons r rs ih =>
    intro acc acc' h hn
    have e : addRecs (r :: rs) acc = (addRec acc r).bind fun a => addRecs rs a := rfl
    rw [e, Option.bind_eq_some_iff] at h
    obtain ⟨a, h1, h2⟩ := h
    exact ih h2 (addRec_nodup h1 hn)

theorem estimate_nodup {recs : List (Rec T F)} {x : Npz F} (h : estimate false recs = some x) : (x.map Prod.fst).Nodup := by
  unfold estimate at h
  simp only [Bool.false_and, Bool.false_eq_true, if_false, Option.map_eq_some_iff] at h
  obtain ⟨acc, h1, rfl⟩ := h
  have := addRecs_nodup recs h1 (by simp)
  rw [List.map_map]
  exact this

/-- every name in a table is that of a record -/
theorem estimate_names {n : Nat} {recs : List (Rec T F)} (hok : ∀ r ∈ recs, RecOk n r) {x : Npz F} (h : estimate false recs = some x)
    {k : Int} {l : List F} (hk : dget k x = some l) : ∃ r ∈ recs, blOf r = k := by
  obtain ⟨x', e, h1, _⟩ := estimate_spec hok
  rw [h] at e
  obtain rfl := Option.some.inj e
  by_contra hc
  rw [h1 k fun r hr hb => hc ⟨r, hr, hb⟩] at hk
  cases hk

/-- C110, a day: `-o` and `-r` on the same data sets (python 2), then `-i`.  When all data sets given to `-o` have the same baselines,
from a record is taken the level of its baseline in the data set of its time, times the mean shape of the baseline over the day. -/
theorem c110_day_partial {ab : F → F} (hab : AbsOk ab) (py3 : Bool) {key : T → List Char} {c0 c1 n : Nat}
    {R : List Char → List (Rec T F)} {K : List Char → T} {args args2 : List (List Char)} {w : World T F}
    (h : There (fun _ => n) R args w) (h2 : Ready (fun _ => n) R args2 w) (hK : ∀ fn ∈ args ++ args2, FirstCross (R fn) (K fn))
    (hfirst : ∀ fn ∈ args, ∃ r rs, R fn = r :: rs ∧ r.t = K fn) (hkeys : (args.map fun fn => key (K fn)).Nodup)
    (hsame : ∀ fn ∈ args, ∀ fn' ∈ args, ∀ r ∈ R fn, r.i ≠ r.j → ∃ r' ∈ R fn', SameBl r' r)
    (huse : ∀ fn ∈ args, ∀ r ∈ R fn, r.i ≠ r.j → ∃ c, c0 ≤ c ∧ c < c1 ∧ meanAt (R fn) r c ≠ 0)
    {src : List Char → List Char} (hsrc : ∀ fn ∈ args2, src fn ∈ args ∧ key (K (src fn)) = key (K fn)) :
    ∃ w1 w2 w3, runFiles key false .out args w = (w1, true) ∧ reprocess ab key false c0 c1 args w1 = (w2, true) ∧
      runFiles key py3 .inn args2 w2 = (w3, true) ∧
      ∀ fn ∈ args2, ∃ outs, dget (fn ++ ['x']) w3.uvs = some outs ∧
        Removed n (fun r c => if r.i = r.j then 0 else
          level ab c0 c1 (meanAt (R (src fn)) r) * shape ab c0 c1 (args.map fun f => meanAt (R f) r) c) (R fn) outs := by
  obtain ⟨w1, e1, a1, a2, a3⟩ := loop_out args w h (fun fn hf => hK fn (by simp [hf])) hkeys
  let X : List Char → Npz F := fun fn => (estimate false (crosses (R fn))).getD []
  have hX : ∀ fn ∈ args, estimate false (crosses (R fn)) = some (X fn) := by
    intro fn hf
    obtain ⟨x, hx⟩ := Option.isSome_iff_exists.1 (a2 fn hf).2
    simp [X, hx]
  have hXrec : ∀ fn ∈ args, ∀ k l, dget k (X fn) = some l → ∃ r ∈ R fn, r.i ≠ r.j ∧ RecOk n r ∧ blOf r = k ∧ l.length = n ∧
      arr l = xtalkOf (R fn) r := by
    intro fn hf k l hl
    have hok' : ∀ r ∈ crosses (R fn), RecOk n r := fun r hr => h.ok fn hf r (List.mem_filter.1 hr).1
    obtain ⟨r, hr, hb⟩ := estimate_names hok' (hX fn hf) hl
    have hr' := List.mem_filter.1 hr
    have hrc : r.i ≠ r.j := by simpa using hr'.2
    refine ⟨r, hr'.1, hrc, hok' r hr, hb, ?_⟩
    rcases estimate_rec (h.ok fn hf) (hX fn hf) (hok' r hr) rfl with ⟨q1, _⟩ | ⟨_, _, s, q1, q2, q3⟩
    · rw [hb, hl] at q1; cases q1
    · rw [hb, hl] at q1
      obtain rfl := Option.some.inj q1
      exact ⟨q2, q3⟩
  have hin : RepIn key c0 c1 n K (fun fn => some (X fn)) args w1 := by
    refine ⟨?_, ?_, ?_, ?_, hkeys⟩
    · intro fn hf
      obtain ⟨r, rs, b1, b2⟩ := hfirst fn hf
      exact ⟨r, rs, by rw [a1, h.there fn hf, b1], b2⟩
    · intro fn hf; rw [(a2 fn hf).1, hX fn hf]
    · intro fn hf x hx; cases hx; exact estimate_nodup (hX fn hf)
    · intro fn hf x hx e he
      cases hx
      have hd := dget_of_mem (estimate_nodup (hX fn hf)) (show (e.1, e.2) ∈ X fn from he)
      obtain ⟨r, hr, hrc, _, _, q1, q2⟩ := hXrec fn hf e.1 e.2 hd
      refine ⟨q1, ?_⟩
      obtain ⟨c, u1, u2, u3⟩ := huse fn hf r hr hrc
      refine ⟨c, Finset.mem_filter.2 ⟨Finset.mem_Ico.2 ⟨u1, u2⟩, ?_⟩⟩
      rw [q2]
      unfold xtalkOf
      rw [if_neg hrc]; exact u3
  have trans : ∀ {a b c : Rec T F}, SameBl a b → SameBl b c → SameBl a c := by
    intro a b c h1 h2; unfold SameBl at *; refine ⟨?_, ?_⟩ <;> omega
  obtain ⟨w2, e2, b1, b2, b3⟩ := c110_reprocess_partial hab hin (by
    intro fn hf fn' hf' k hk
    obtain ⟨l, hl⟩ := Option.isSome_iff_exists.1 hk
    obtain ⟨r, hr, hrc, hro, hb, _⟩ := hXrec fn hf k l hl
    obtain ⟨r', hr', hs⟩ := hsame fn hf fn' hf' r hr hrc
    have hrc' : r'.i ≠ r'.j := by rcases hs.1 with h4 | h4 <;> omega
    rcases estimate_rec (h.ok fn' hf') (hX fn' hf') hro rfl with ⟨_, q2, _⟩ | ⟨_, _, s, q1, _⟩
    · exact absurd hs (q2 r' hr' hrc')
    · rw [← hb, q1]; rfl)
  have hr2 : Ready (fun _ => n) R args2 w2 :=
    ⟨⟨fun f hf => by rw [b1, a1]; exact h2.there f hf, h2.ok, h2.cross⟩, fun f hf => by rw [b1, a1]; exact h2.new f hf⟩
  obtain ⟨w3, e3, _, d2, _⟩ := loop_in (key := key) py3 hr2 (fun fn hf => hK fn (by simp [hf]))
    (v := fun fn r c => if r.i = r.j then 0 else
          level ab c0 c1 (meanAt (R (src fn)) r) * shape ab c0 c1 (args.map fun f => meanAt (R f) r) c) (by
      intro fn hf
      obtain ⟨s1, s2⟩ := hsrc fn hf
      obtain ⟨x, hx, x1, x2⟩ := b2 _ s1
      refine ⟨x, by unfold findNpz; rw [← s2, hx], ?_⟩
      intro r hr
      have hro := h2.ok fn hf r hr
      rcases estimate_rec (h.ok _ s1) (hX _ s1) hro rfl with ⟨q1, _, q2⟩ | ⟨hrc, ⟨r', hr', hs'⟩, s, q1, q2, q3⟩
      · refine .inl ⟨x1 _ q1, fun c _ => ?_⟩
        split
        · rfl
        · rename_i hrc
          have hz : ∀ c, meanAt (R (src fn)) r c = 0 := by
            intro c
            have := q2 c
            unfold xtalkOf at this
            rwa [if_neg hrc] at this
          have : level ab c0 c1 (meanAt (R (src fn)) r) = 0 := by
            have hu : usable c0 c1 (meanAt (R (src fn)) r) = ∅ := by
              unfold usable
              rw [Finset.filter_eq_empty_iff]
              intro c _
              simp [hz c]
            unfold level
            rw [hu]; simp
          rw [this, zero_mul]
      · obtain ⟨y, y1, y2, y3⟩ := x2 _ s q1
        refine .inr ⟨y, y1, y2, fun c hc => ?_⟩
        rw [if_neg hrc, y3 c hc]
        have f1 : (fun c => s.getD c 0) = meanAt (R (src fn)) r := by
          funext c
          have := congrFun q3 c
          unfold xtalkOf at this
          rw [if_neg hrc] at this
          exact this
        have hrc' : r'.i ≠ r'.j := by rcases hs'.1 with h4 | h4 <;> omega
        have f2 : (args.map fun f => fun c => ((dget (blOf r) (X f)).getD []).getD c 0) = args.map fun f => meanAt (R f) r := by
          apply List.map_congr_left
          intro f hf'
          obtain ⟨r'', hr'', hs''⟩ := hsame _ s1 f hf' r' hr' hrc'
          have hb := trans hs'' hs'
          have hrc'' : r''.i ≠ r''.j := by rcases hb.1 with h4 | h4 <;> omega
          rcases estimate_rec (h.ok f hf') (hX f hf') hro rfl with ⟨_, q5, _⟩ | ⟨_, _, s', q4, _, q6⟩
          · exact absurd hb (q5 r'' hr'' hrc'')
          · rw [q4]
            funext c
            have := congrFun q6 c
            unfold xtalkOf at this
            rw [if_neg hrc] at this
            exact this
        rw [f1, f2])
  exact ⟨w1, w2, w3, e1, e2, e3, d2⟩

end

/-! ## A case -/

/-- a data set of one record -/
def dayRec (t : Nat) (d : List ℚ) : List (Rec Nat ℚ) := [⟨t, 0, 1, -5, d, [false, false]⟩]

/-- three data sets; the data of the second and the third are two and four times those of the first -/
def dayR : List Char → List (Rec Nat ℚ)
  | ['a'] => dayRec 1 [1, 3]
  | ['b'] => dayRec 2 [2, 6]
  | ['c'] => dayRec 3 [4, 12]
  | _ => dayRec 2 [10, 10]

/-- their times -/
def dayK : List Char → Nat
  | ['a'] => 1
  | ['b'] => 2
  | ['c'] => 3
  | _ => 2

/-- a fourth data set has the time of the second -/
def dayW : World Nat ℚ := ⟨[['a'], ['b'], ['c'], ['e']].map fun f => (f, dayR f), []⟩

/-- names of times -/
def dayKey (t : Nat) : List Char := List.replicate t 't'

theorem day_rec (fn : List Char) : ∃ t d, dayR fn = dayRec t d ∧ d.length = 2 ∧ dayK fn = t ∧ d.getD 0 0 ≠ 0 := by
  unfold dayR dayK
  split <;> exact ⟨_, _, rfl, rfl, rfl, by norm_num⟩

theorem day_ok (fn : List Char) : (∀ r ∈ dayR fn, RecOk 2 r) ∧ ∃ r ∈ dayR fn, r.i ≠ r.j := by
  obtain ⟨t, d, e, hl, _⟩ := day_rec fn
  rw [e]
  refine ⟨?_, _, List.mem_singleton.2 rfl, Int.zero_ne_one⟩
  intro r hr
  obtain rfl := List.mem_singleton.1 hr
  exact ⟨⟨by norm_num, by norm_num⟩, ⟨by norm_num, by norm_num⟩, by norm_num, hl, rfl⟩

theorem day_there : There (fun _ => 2) dayR [['a'], ['b'], ['c']] dayW := by
  refine ⟨?_, fun fn _ => (day_ok fn).1, fun fn _ => (day_ok fn).2⟩
  intro fn hf
  simp only [List.mem_cons, List.not_mem_nil, or_false] at hf
  rcases hf with rfl | rfl | rfl <;> rfl

theorem day_ready : Ready (fun _ => 2) dayR [['e']] dayW := by
  refine ⟨⟨?_, fun fn _ => (day_ok fn).1, fun fn _ => (day_ok fn).2⟩, ?_⟩ <;>
  · intro fn hf; obtain rfl := List.mem_singleton.1 hf; rfl

theorem day_first (fn : List Char) : FirstCross (dayR fn) (dayK fn) := by
  obtain ⟨t, d, e, _, ht, _⟩ := day_rec fn
  rw [e]
  exact ⟨[], _, [], rfl, by simp, Int.zero_ne_one, ht.symm⟩

example : ∃ w1 w2, runFiles dayKey false .out [['a'], ['b'], ['c']] dayW = (w1, true) ∧ w1.uvs = dayW.uvs ∧
    runFiles dayKey true .inn [['e']] w1 = (w2, true) ∧ ∀ fn ∈ [['e']], ∃ outs, dget (fn ++ ['x']) w2.uvs = some outs ∧
      Removed 2 (fun r c => if r.i = r.j then 0 else meanAt (dayR ['b']) r c) (dayR fn) outs :=
  c110_apply_partial true day_there day_ready (fun fn _ => day_first fn) (by decide) (src := fun _ => ['b'])
    (by intro fn hf; obtain rfl := List.mem_singleton.1 hf; exact ⟨by decide, by decide, rfl⟩)
    (by intro fn hf; obtain rfl := List.mem_singleton.1 hf; rfl)

theorem abs_ok : AbsOk (fun x : ℚ => |x|) := fun _ => abs_eq_zero

example := c110_day_partial abs_ok true (key := dayKey) (c0 := 0) (c1 := 1) day_there day_ready (fun fn _ => day_first fn)
  (by intro fn _; obtain ⟨t, d, e, _, ht, _⟩ := day_rec fn; exact ⟨_, [], e, ht.symm⟩) (by decide)
  (by
    intro fn _ fn' _ r hr _
    obtain ⟨t, d, e, _⟩ := day_rec fn
    obtain ⟨t', d', e', _⟩ := day_rec fn'
    rw [e] at hr
    obtain rfl := List.mem_singleton.1 hr
    rw [e']
    exact ⟨_, List.mem_singleton.2 rfl, by constructor <;> simp⟩)
  (by
    intro fn _ r hr _
    obtain ⟨t, d, e, _, _, hd⟩ := day_rec fn
    rw [e] at hr ⊢
    obtain rfl := List.mem_singleton.1 hr
    refine ⟨0, le_rfl, by decide, ?_⟩
    have : goodAt (dayRec t d) ⟨t, 0, 1, -5, d, [false, false]⟩ 0 = [d.getD 0 0] := by
      unfold goodAt dayRec
      rw [List.filter_cons_of_pos (by simp [SameBl])]
      rfl
    unfold meanAt
    rw [this]
    simpa using hd)
  (src := fun _ => ['b']) (by intro fn hf; obtain rfl := List.mem_singleton.1 hf; exact ⟨by decide, by decide⟩)

/-- all that the day leaves of the fourth data set: its data less 2 and 6 -/
example : dget ['e', 'x'] (runFiles dayKey true .inn [['e']] (reprocess (fun x : ℚ => |x|) dayKey false 0 1 [['a'], ['b'], ['c']]
    (runFiles dayKey false .out [['a'], ['b'], ['c']] dayW).1).1).1.uvs = some (dayRec 2 [8, 4]) := by decide +kernel

/-- the npz files of the day without that of the second data set -/
def gapW : World Nat ℚ := { dayW with npz := [(rawName (dayKey 1), [(4116, [1, 3])]), (rawName (dayKey 3), [(4116, [4, 12])])] }

/-- see `gapW` -/
def gapX : List Char → Option (Npz ℚ)
  | ['a'] => some [(4116, [1, 3])]
  | ['c'] => some [(4116, [4, 12])]
  | _ => none

theorem gap_in : RepIn dayKey 0 1 2 dayK gapX [['a'], ['b'], ['c']] gapW := by
  have hne : ∀ x y : ℚ, x ≠ 0 → (usable 0 1 (arr [x, y])).Nonempty := fun x y h =>
    ⟨0, Finset.mem_filter.2 ⟨by decide, by simpa [arr] using h⟩⟩
  refine ⟨?_, ?_, ?_, ?_, by decide⟩
  · intro fn hf
    obtain ⟨t, d, e, _, ht, _⟩ := day_rec fn
    refine ⟨⟨t, 0, 1, -5, d, [false, false]⟩, [], ?_, ht.symm⟩
    rw [show dget fn gapW.uvs = some (dayR fn) from day_there.there fn hf, e]
    rfl
  · intro fn hf
    simp only [List.mem_cons, List.not_mem_nil, or_false] at hf
    rcases hf with rfl | rfl | rfl <;> decide +kernel
  · intro fn _ x hx
    unfold gapX at hx
    split at hx <;> cases hx <;> decide
  · intro fn _ x hx e he
    unfold gapX at hx
    split at hx
    · cases hx; obtain rfl := List.mem_singleton.1 he; exact ⟨rfl, hne _ _ (by norm_num)⟩
    · cases hx; obtain rfl := List.mem_singleton.1 he; exact ⟨rfl, hne _ _ (by norm_num)⟩
    · cases hx

example := c110_gap_violated abs_ok gap_in ⟨4116, by decide +kernel, by decide +kernel⟩

example : reprocess (fun x : ℚ => |x|) dayKey true 0 1 [['a'], ['b'], ['c']] gapW = (gapW, false) :=
  c110_python3_violated gap_in (fn := ['a']) (by simp) rfl (by simp)

/-- the second data set, whose npz file is missing, is given that of the third -/
theorem c110_shift_violated : ∃ w', reprocess (fun x : ℚ => |x|) dayKey false 0 1 [['a'], ['b'], ['c']] gapW = (w', false) ∧
    dget (repName (dayKey 2)) w'.npz = some [(4116, [4, 12])] :=
  ⟨_, Prod.ext rfl (by decide +kernel), by decide +kernel⟩

example : level (fun x : ℚ => |x|) 0 2 (fun c => 2 * (if c = 0 then 1 else 3 : ℚ)) *
    shape (fun x : ℚ => |x|) 0 2 ([1, 2, 4].map fun b => fun c => b * (if c = 0 then 1 else 3 : ℚ)) 1 = 2 * (if 1 = 0 then 1 else 3 : ℚ) :=
  c110_separable (fun x y => abs_mul x y) 0 2 _ (by decide +kernel) [1, 2, 4]
    (by intro a ha; simp only [List.mem_cons, List.not_mem_nil, or_false] at ha; rcases ha with rfl | rfl | rfl <;> norm_num) (by simp) 1

end Verif.Misc.Xtalk
