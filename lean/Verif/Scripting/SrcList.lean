import Verif.Scripting.Prms
import Mathlib.Algebra.Order.Field.Basic
import Mathlib.Tactic.Linarith
import Mathlib.Tactic.Ring
import Mathlib.Data.List.Sort
/-!
# C122: which sources srclist.py lists, and what fitmdl.py reads of them

Model of `/repo/scripts/srclist.py`.  A catalog is a dictionary from names to bodies; a body has the right ascension and
declination that `compute` gave it (lines 73-78) and tells whether it is one of the moving bodies (`RadioSpecial`: Sun, Moon,
planets), for which `ephem.FixedBody.compute` raises `TypeError`.  Angles are elements of an ordered field; `ephem.separation`
is a parameter `dist`.  Python 3.  Not modelled: how the catalogs are made from the options (C96, C105), `compute` (C21).
-/
set_option linter.unusedSectionVars false
namespace Verif.Scripting
open Verif.Util

variable {K : Type} [Field K] [LinearOrder K]

abbrev Name := List Char

structure Body (K : Type) where
  ra : K
  dec : K
  special : Bool
deriving DecidableEq, Repr

abbrev Catalog (K : Type) := List (Name × Body K)

/-- the options of srclist.py 12-36; `xcat` and `ccat` are the catalogs of `-x` and `-c` (`none`: option not given),
`prmsOf s` the keys of `cat.get_params({s: prms})[s]` -/
structure SrcOpts (K : Type) where
  cat : Catalog K
  xcat : Option (Catalog K)
  ccat : Option (Catalog K)
  dated : Bool
  sep : Option K
  ra : Option (K × K)
  dec : Option (K × K)

/-- the loop of srclist.py 73-78 over one catalog: without a date a moving body is deleted from the dictionary over whose
`keys()` the loop runs, and the next step of the iteration raises `RuntimeError` (`none`) -/
def placeAll (dated : Bool) : Catalog K → Option Unit
  | [] => some ()
  | b :: bs => if b.2.special && !dated then none else placeAll dated bs

/-- srclist.py 82-89 -/
def nearAny (d2r : K) (dist : Body K → Body K → K) (ccat : Catalog K) (sep : K) (b : Body K) : Bool :=
  ccat.any fun c => decide (dist b c.2 ≤ sep * d2r)

/-- srclist.py 92-97 and 99-104 -/
def inRange (r : K × K) (x : K) : Bool :=
  if r.1 < r.2 then decide (x > r.1 ∧ x < r.2) else decide (x > r.1 ∨ x < r.2)

/-- an option that is not given selects everything -/
def optAll {α β : Type} (o : Option α) (f : α → β → Bool) (b : β) : Bool :=
  match o with
  | none => true
  | some a => f a b

/-- srclist.py 58-59 (the assertion), 73-107: the sorted names; `none` is an exception -/
def selectSrcs (d2r : K) (dist : Body K → Body K → K) (o : SrcOpts K) : Option (List Name) :=
  if o.ccat.isSome && o.sep.isNone then none
  else do
    placeAll o.dated o.cat
    placeAll o.dated (o.xcat.getD [])
    placeAll o.dated (o.ccat.getD [])
    let srcs := o.cat.filter fun s => !((o.xcat.getD []).any fun x => x.1 == s.1)
    let srcs := srcs.filter fun s => optAll o.sep (nearAny d2r dist (o.ccat.getD [])) s.2
    let srcs := srcs.filter fun s => optAll o.ra inRange s.2.ra
    let srcs := srcs.filter fun s => optAll o.dec inRange s.2.dec
    some ((srcs.map Prod.fst).insertionSort (· ≤ ·))

/-- `opts.divstr.join(srcs)`, srclist.py 109 -/
def joinStr (d : List Char) : List Name → List Char
  | [] => []
  | [s] => s
  | s :: t :: ss => s ++ d ++ joinStr d (t :: ss)

/-- the inner loop of `--fitprms`, srclist.py 128-130, from position `i` of `pcnt` -/
def fitInner (pcnt i : Nat) : List Name → List Char
  | [] => []
  | p :: ps => (if i + 1 < pcnt then p ++ ['/'] else p) ++ fitInner pcnt (i + 1) ps

/-- the loop of `--fitprms`, srclist.py 123-132; `scount` sources were printed before -/
def fitOuter (prmsOf : Name → List Name) (snum scount : Nat) : List Name → List Char
  | [] => []
  | s :: ss => s ++ ['=', '('] ++ fitInner (prmsOf s).length 0 (prmsOf s) ++
      (if scount + 1 < snum - 1 then [')', ','] else [')']) ++ fitOuter prmsOf snum (scount + 1) ss

/-- `--fitprms`, srclist.py 119-133 -/
def fitText (prmsOf : Name → List Name) (srcs : List Name) : List Char := fitOuter prmsOf srcs.length 0 srcs

/-- what is printed, srclist.py 108-133: `prms` is `none` without `-P`; with `-P` and without `--fitprms` `has_key` raises
as soon as there is a source -/
def printed (prmsOf : Option (Name → List Name)) (fitprms : Bool) (divstr : List Char) (srcs : List Name) : Option (List Char) :=
  match prmsOf with
  | none => some (joinStr divstr srcs)
  | some f => if fitprms then some (fitText f srcs) else if srcs = [] then some [] else none

/-! ## Specification -/

/-- `x` lies strictly inside the arc that begins at `lo` and goes eastward to `hi`, on a circle of circumference `P`
(the whole circle but one point if `lo = hi`) -/
def InArc (P lo hi x : K) : Prop :=
  ∃ t, 0 < t ∧ t < (if lo < hi then hi - lo else hi - lo + P) ∧ ∃ k : Int, x = lo + t + k * P

/-- what the options ask for, in words: in the catalog, not excluded, near a centre, within the ranges -/
def Asked (d2r : K) (dist : Body K → Body K → K) (o : SrcOpts K) (n : Name) : Prop :=
  ∃ b, (n, b) ∈ o.cat ∧
    (∀ x, o.xcat = some x → ∀ y, (n, y) ∉ x) ∧
    (∀ s, o.sep = some s → ∃ c ∈ o.ccat.getD [], dist b c.2 ≤ s * d2r) ∧
    (∀ r, o.ra = some r → (r.1 < b.ra ∧ b.ra < r.2) ∨ (r.2 ≤ r.1 ∧ (r.1 < b.ra ∨ b.ra < r.2))) ∧
    (∀ r, o.dec = some r → (r.1 < b.dec ∧ b.dec < r.2) ∨ (r.2 ≤ r.1 ∧ (r.1 < b.dec ∨ b.dec < r.2)))

/-- the bodies of all three catalogs have fixed positions, or a date is given -/
def Placed (o : SrcOpts K) : Prop :=
  o.dated = true ∨ ∀ c ∈ [o.cat, o.xcat.getD [], o.ccat.getD []], ∀ b ∈ c, b.2.special = false

/-! ## Selection -/

theorem placeAll_ok {dated : Bool} {c : Catalog K} (h : dated = true ∨ ∀ b ∈ c, b.2.special = false) : placeAll dated c = some () := by
  induction c with
  | nil => rfl
  | cons b bs ih =>
    unfold placeAll
    have : (b.2.special && !dated) = false := by
      rcases h with h | h
      · simp [h]
      · simp [h b (by simp)]
    rw [this]
    exact ih (h.imp id fun h x hx => h x (by simp [hx]))

theorem placeAll_raises {c : Catalog K} {b : Name × Body K} (hb : b ∈ c) (hs : b.2.special = true) : placeAll false c = none := by
  induction c with
  | nil => simp at hb
  | cons a bs ih =>
    unfold placeAll
    by_cases h : a.2.special = true
    · simp [h]
    · have : a ≠ b := fun e => h (e ▸ hs)
      have hm : b ∈ bs := by
        rcases List.mem_cons.1 hb with h | h
        · exact absurd h.symm this
        · exact h
      rw [ih hm]; simp

theorem inRange_iff (r : K × K) (x : K) : inRange r x = true ↔ (r.1 < x ∧ x < r.2) ∨ (r.2 ≤ r.1 ∧ (r.1 < x ∨ x < r.2)) := by
  unfold inRange
  by_cases h : r.1 < r.2
  · simp [h]
  · have h' := not_lt.1 h
    simp only [if_neg h, decide_eq_true_eq, gt_iff_lt, h', true_and]
    exact ⟨fun h => Or.inr h, fun h => h.elim (fun h => Or.inl h.1) id⟩

theorem optAll_iff {α β : Type} (o : Option α) (f : α → β → Bool) (b : β) : optAll o f b = true ↔ ∀ a, o = some a → f a b = true := by
  cases o <;> simp [optAll]

theorem nearAny_iff (d2r : K) (dist : Body K → Body K → K) (ccat : Catalog K) (sep : K) (b : Body K) :
    nearAny d2r dist ccat sep b = true ↔ ∃ c ∈ ccat, dist b c.2 ≤ sep * d2r := by
  simp [nearAny]

theorem excluded_iff (x : Option (Catalog K)) (n : Name) :
    (!((x.getD []).any fun y => y.1 == n)) = true ↔ ∀ c, x = some c → ∀ y, (n, y) ∉ c := by
  cases x with
  | none => simp
  | some c =>
    simp only [Option.getD_some, Bool.not_eq_true', List.any_eq_false, beq_iff_eq, Option.some.injEq, forall_eq']
    exact ⟨fun h y hy => h (n, y) hy rfl, fun h y hy e => h y.2 (by rw [← e]; exact hy)⟩

theorem le_sorted (l : List Name) : (l.insertionSort (· ≤ ·)).Pairwise (· ≤ ·) := by
  have : Std.Total (α := Name) (· ≤ ·) := ⟨List.le_total⟩
  have : IsTrans Name (· ≤ ·) := ⟨fun _ _ _ => List.le_trans⟩
  exact List.pairwise_insertionSort _ l

/-- C122: the list is in alphabetical order, has no name twice, and holds exactly the sources asked for: those of the catalog
that are not excluded, that lie within the separation of one of the centres, and whose coordinates lie in the ranges; it is printed
with the divider between the names.  (No moving body without a date; with `--sep` the centres are those of `--cen`, not of `--src`;
with `-P` see the other theorems.) -/
theorem c122_selection_partial (d2r : K) (dist : Body K → Body K → K) (o : SrcOpts K) (hp : Placed o) (hc : o.ccat.isSome → o.sep.isSome)
    (hd : (o.cat.map Prod.fst).Nodup) :
    ∃ l, selectSrcs d2r dist o = some l ∧ l.Pairwise (· ≤ ·) ∧ l.Nodup ∧ ∀ n, n ∈ l ↔ Asked d2r dist o n := by
  have h0 : (o.ccat.isSome && o.sep.isNone) = false := by
    cases h : o.ccat with
    | none => rfl
    | some c => have := hc (by simp [h]); cases h2 : o.sep <;> simp_all
  have h1 : placeAll o.dated o.cat = some () := placeAll_ok (hp.imp id fun h => h _ (by simp))
  have h2 : placeAll o.dated (o.xcat.getD []) = some () := placeAll_ok (hp.imp id fun h => h _ (by simp))
  have h3 : placeAll o.dated (o.ccat.getD []) = some () := placeAll_ok (hp.imp id fun h => h _ (by simp))
  unfold selectSrcs
  rw [h0, h1, h2, h3]
  refine ⟨_, rfl, le_sorted _, ?_, ?_⟩
  · rw [(List.perm_insertionSort _ _).nodup_iff]
    refine hd.sublist ?_
    apply List.Sublist.map
    exact ((List.filter_sublist.trans List.filter_sublist).trans List.filter_sublist).trans List.filter_sublist
  · intro n
    rw [(List.perm_insertionSort _ _).mem_iff, List.mem_map]
    constructor
    · rintro ⟨⟨m, b⟩, h, rfl⟩
      simp only [List.mem_filter, optAll_iff, inRange_iff, nearAny_iff, excluded_iff] at h
      exact ⟨b, h.1.1.1.1, h.1.1.1.2, h.1.1.2, h.1.2, h.2⟩
    · rintro ⟨b, g1, g2, g3, g4, g5⟩
      refine ⟨(n, b), ?_, rfl⟩
      simp only [List.mem_filter, optAll_iff, inRange_iff, nearAny_iff, excluded_iff]
      exact ⟨⟨⟨⟨g1, g2⟩, g3⟩, g4⟩, g5⟩

/-- C122: a range of right ascensions is an arc of the circle that runs eastward from the first to the second, also across the
origin (the ends left out; equal ends give everything but that point). -/
theorem c122_arc [IsStrictOrderedRing K] (P : K) (r : K × K) (x : K) (h1 : 0 ≤ r.1 ∧ r.1 < P) (h2 : 0 ≤ r.2 ∧ r.2 < P) (hx : 0 ≤ x ∧ x < P) :
    inRange r x = true ↔ InArc P r.1 r.2 x := by
  obtain ⟨lo, hi⟩ := r
  simp only at h1 h2
  have hP : 0 < P := lt_of_le_of_lt h1.1 h1.2
  rw [inRange_iff]
  simp only
  have key : ∀ k : Int, 1 ≤ k → P ≤ k * P := by
    intro k hk
    have : (1 : K) ≤ k := by exact_mod_cast hk
    nlinarith
  have key2 : ∀ k : Int, k ≤ -1 → (k : K) * P ≤ -P := by
    intro k hk
    have : (k : K) ≤ -1 := by exact_mod_cast hk
    nlinarith
  have key3 : ∀ k : Int, k ≤ -2 → (k : K) * P ≤ -2 * P := by
    intro k hk
    have : (k : K) ≤ -2 := by exact_mod_cast hk
    nlinarith
  unfold InArc
  by_cases h : lo < hi
  · simp only [if_pos h]
    constructor
    · rintro (⟨a, b⟩ | ⟨a, -⟩)
      · exact ⟨x - lo, by linarith, by linarith, 0, by simp⟩
      · exact absurd h (not_lt.2 a)
    · rintro ⟨t, a, b, k, e⟩
      rcases lt_trichotomy k 0 with hk | hk | hk
      · have := key2 k (by omega); exfalso; linarith [hx.1]
      · subst hk; left; simp only [Int.cast_zero, zero_mul, add_zero] at e; constructor <;> linarith
      · have := key k (by omega); exfalso; linarith [hx.2, h1.1]
  · simp only [if_neg h]
    have h' := not_lt.1 h
    constructor
    · rintro (⟨a, b⟩ | ⟨-, a | a⟩)
      · exact absurd (a.trans b) h
      · exact ⟨x - lo, by linarith, by linarith [hx.2, h2.1], 0, by simp⟩
      · exact ⟨x - lo + P, by linarith [hx.1, h1.2], by linarith, -1, by push_cast; ring⟩
    · rintro ⟨t, a, b, k, e⟩
      right
      refine ⟨h', ?_⟩
      rcases lt_trichotomy k 0 with hk | hk | hk
      · by_cases hk2 : k = -1
        · subst hk2; right; push_cast at e; linarith
        · have := key3 k (by omega); exfalso; linarith [hx.1, h1.2, h2.2]
      · subst hk; left; simp only [Int.cast_zero, zero_mul, add_zero] at e; linarith
      · have := key k (by omega); exfalso; linarith [hx.2, h1.1]

/-- C122: without a date one moving body in any of the three catalogs stops the script, although the script means to leave it out. -/
theorem c122_moving_violated (d2r : K) (dist : Body K → Body K → K) (o : SrcOpts K) (hd : o.dated = false) (c : Catalog K)
    (hc : c ∈ [o.cat, o.xcat.getD [], o.ccat.getD []]) (b : Name × Body K) (hb : b ∈ c) (hs : b.2.special = true) :
    selectSrcs d2r dist o = none := by
  have hr : placeAll false c = none := placeAll_raises hb hs
  unfold selectSrcs
  rw [hd]
  split
  · rfl
  · simp only [List.mem_cons, List.not_mem_nil, or_false] at hc
    rcases hc with rfl | rfl | rfl
    · rw [hr]; rfl
    · rw [hr]; cases placeAll false o.cat <;> rfl
    · rw [hr]; cases placeAll false o.cat <;> cases placeAll false (o.xcat.getD []) <;> rfl

/-- C122: `--sep` without `--cen` lists nothing, whatever the catalog and the separation. -/
theorem c122_sep_violated (d2r : K) (dist : Body K → Body K → K) (o : SrcOpts K) (hc : o.ccat = none) (s : K) (hs : o.sep = some s)
    (l : List Name) (h : selectSrcs d2r dist o = some l) : l = [] := by
  unfold selectSrcs at h
  have hn : ∀ b : Body K, nearAny d2r dist [] s b = false := fun b => rfl
  simp only [hc, hs, Option.isSome_none, Bool.false_and, Option.getD_none, optAll, hn] at h
  cases h1 : placeAll o.dated o.cat with
  | none => rw [h1] at h; simp at h
  | some u =>
    cases h2 : placeAll o.dated (o.xcat.getD []) with
    | none => rw [h1, h2] at h; simp at h
    | some u2 =>
      rw [h1, h2] at h
      have hf : o.cat.filter (fun _ => false) = [] := by simp
      simp [placeAll, hf] at h
      exact h

/-! ## Printing for fitmdl.py -/

theorem fitInner_eq : ∀ (ps : List Name) (pcnt i : Nat), pcnt = i + ps.length → fitInner pcnt i ps = joinWith '/' ps
  | [], _, _, _ => rfl
  | [p], pcnt, i, h => by
    have : ¬ i + 1 < pcnt := by simp at h; omega
    simp [fitInner, joinWith, this]
  | p :: q :: ps, pcnt, i, h => by
    have e : fitInner pcnt i (p :: q :: ps) = (if i + 1 < pcnt then p ++ ['/'] else p) ++ fitInner pcnt (i + 1) (q :: ps) := rfl
    have : i + 1 < pcnt := by simp at h; omega
    rw [e, if_pos this, fitInner_eq (q :: ps) pcnt (i + 1) (by simp at h ⊢; omega)]
    simp [joinWith]

/-- the item that asks for all parameters of one source -/
def itemOf (prmsOf : Name → List Name) (s : Name) : PrmItem := ⟨.bare s, .paren (prmsOf s), none, none⟩

theorem item_text (prmsOf : Name → List Name) (s : Name) : (itemOf prmsOf s).text = s ++ ['=', '('] ++ joinWith '/' (prmsOf s) ++ [')'] := by
  simp [itemOf, PrmItem.text, Names.text]

theorem fitOuter_cons (prmsOf : Name → List Name) (snum k : Nat) (s : Name) (ss : List Name) :
    fitOuter prmsOf snum k (s :: ss) =
      (itemOf prmsOf s).text ++ ((if k + 1 < snum - 1 then [','] else []) ++ fitOuter prmsOf snum (k + 1) ss) := by
  have e : fitOuter prmsOf snum k (s :: ss) = s ++ ['=', '('] ++ fitInner (prmsOf s).length 0 (prmsOf s) ++
      (if k + 1 < snum - 1 then [')', ','] else [')']) ++ fitOuter prmsOf snum (k + 1) ss := rfl
  rw [e, fitInner_eq _ _ _ (by simp), item_text]
  split <;> simp

/-- the last two items run together -/
theorem fitOuter_eq (prmsOf : Name → List Name) (a b : Name) : ∀ (ss : List Name) (snum k : Nat), snum = k + ss.length + 2 →
    fitOuter prmsOf snum k (ss ++ [a, b]) =
      joinWith ',' (ss.map (fun s => (itemOf prmsOf s).text) ++ [(itemOf prmsOf a).text ++ (itemOf prmsOf b).text])
  | [], snum, k, h => by
    rw [List.nil_append, fitOuter_cons, fitOuter_cons]
    have h1 : ¬ k + 1 < snum - 1 := by simp at h; omega
    have h2 : ¬ k + 1 + 1 < snum - 1 := by simp at h; omega
    simp [h1, h2, fitOuter, joinWith]
  | s :: ss, snum, k, h => by
    rw [List.cons_append, fitOuter_cons, fitOuter_eq prmsOf a b ss snum (k + 1) (by simp at h ⊢; omega)]
    have h1 : k + 1 < snum - 1 := by simp at h; omega
    rw [if_pos h1]
    cases ss <;> simp [joinWith]

theorem takeVals_name {n rest : List Char} (h : ValidName n) : takeVals (n ++ rest) = (none, none) := by
  obtain ⟨h1, h2⟩ := h
  cases n with
  | nil => exact absurd rfl h1
  | cons c cs =>
    have hc : c ≠ '/' := fun e => h2 c (by simp) (by simp [e])
    rw [List.cons_append]
    unfold takeVals
    split
    · next heq => exact absurd (List.cons.inj heq).1 hc
    · rfl

theorem stops_paren (rest : List Char) : takeGrp (('(' :: rest)) = (takeInner false rest).map (fun p => (splitOn '/' p.1, p.2)) := rfl

variable {V : Type}

theorem matchPrm_more {prmsOf : Name → List Name} {s t : Name} {rest : List Char} (hs : ValidName s) (hp : prmsOf s ≠ [])
    (hps : ∀ p ∈ prmsOf s, ValidName p) (ht : ValidName t) :
    matchPrm ((itemOf prmsOf s).text ++ (t ++ rest)) = some ⟨[s], prmsOf s, none, none⟩ := by
  have e : (itemOf prmsOf s).text ++ (t ++ rest) = (Names.bare s).text ++ ('=' :: ('(' :: (joinWith '/' (prmsOf s) ++ ')' :: (t ++ rest)))) := by
    simp [item_text, Names.text]
  rw [e]
  unfold matchPrm
  rw [takeGrp_text (g := .bare s) ⟨by simp [Names.list], by simpa [Names.list] using hs⟩ (stops_cons (by decide) _)]
  simp only
  rw [stops_paren, takeInner_join hp hps]
  simp only [Option.map_some]
  rw [splitOn_joinWith hp (fun p hp' => validName_no (hps p hp') (by simp)), takeVals_name ht]
  rfl

theorem item_valid {fl : List Char → Option V} {prmsOf : Name → List Name} {s : Name} (hs : ValidName s) (hp : prmsOf s ≠ [])
    (hps : ∀ p ∈ prmsOf s, ValidName p) : (itemOf prmsOf s).Valid fl :=
  ⟨⟨by simp [itemOf, Names.list], by simpa [itemOf, Names.list] using hs⟩, ⟨hp, hps⟩, by simp [itemOf], by simp [itemOf]⟩

theorem item_counts (fl : List Char → Option V) (prmsOf : Name → List Name) (s : Name) : (itemOf prmsOf s).CountsOk fl :=
  ⟨Or.inl rfl, Or.inl rfl⟩

theorem item_assigns (fl : List Char → Option V) (prmsOf : Name → List Name) (s : Name) :
    (itemOf prmsOf s).assigns fl = (prmsOf s).map fun p => ((s, p), (none, none)) := by
  unfold PrmItem.assigns itemOf
  simp only [Names.list, numbers, List.zipIdx_cons, List.zipIdx_nil, List.flatMap_cons, List.flatMap_nil, List.append_nil]
  conv_rhs => rw [← List.zipIdx_map_fst 0 (prmsOf s), List.map_map]
  rfl

theorem lastAssign_asked (fl : List Char → Option V) (prmsOf : Name → List Name) (ss : List Name) (o p : Name) :
    lastAssign o p ((ss.map (itemOf prmsOf)).flatMap (PrmItem.assigns fl)) = if o ∈ ss ∧ p ∈ prmsOf o then some (none, none) else none := by
  have hm : ∀ x ∈ (ss.map (itemOf prmsOf)).flatMap (PrmItem.assigns fl), x.2 = (none, none) := by
    intro x hx
    simp only [List.mem_flatMap, List.mem_map] at hx
    obtain ⟨i, ⟨s, _, rfl⟩, hx⟩ := hx
    rw [item_assigns, List.mem_map] at hx
    obtain ⟨q, _, rfl⟩ := hx
    rfl
  have hi : (∃ x ∈ (ss.map (itemOf prmsOf)).flatMap (PrmItem.assigns fl), x.1 = (o, p)) ↔ (o ∈ ss ∧ p ∈ prmsOf o) := by
    constructor
    · rintro ⟨x, hx, e⟩
      simp only [List.mem_flatMap, List.mem_map] at hx
      obtain ⟨i, ⟨s, hs, rfl⟩, hx⟩ := hx
      rw [item_assigns, List.mem_map] at hx
      obtain ⟨q, hq, rfl⟩ := hx
      simp only [Prod.mk.injEq] at e
      obtain ⟨rfl, rfl⟩ := e
      exact ⟨hs, hq⟩
    · rintro ⟨h1, h2⟩
      refine ⟨((o, p), (none, none)), ?_, rfl⟩
      simp only [List.mem_flatMap, List.mem_map]
      exact ⟨_, ⟨o, h1, rfl⟩, by rw [item_assigns, List.mem_map]; exact ⟨p, h2, rfl⟩⟩
  unfold lastAssign
  cases hf : ((ss.map (itemOf prmsOf)).flatMap (PrmItem.assigns fl)).reverse.find? (fun x => decide (x.1 = (o, p))) with
  | none =>
    rw [List.find?_eq_none] at hf
    rw [if_neg]
    · rfl
    · rw [← hi]
      rintro ⟨x, hx, e⟩
      exact hf x (List.mem_reverse.2 hx) (by simp [e])
  | some x =>
    have h1 := List.mem_reverse.1 (List.mem_of_find?_eq_some hf)
    have h2 := List.find?_some hf
    rw [if_pos (hi.1 ⟨x, h1, by simpa using h2⟩), Option.map_some, hm x h1]

/-- reading a text whose last two items run together drops the last item -/
theorem parse_run (fl : List Char → Option V) (prmsOf : Name → List Name) (ss : List Name) (a b : Name)
    (hv : ∀ s ∈ ss ++ [a, b], ValidName s) (hp : ∀ s ∈ ss ++ [a, b], prmsOf s ≠ []) (hps : ∀ s ∈ ss ++ [a, b], ∀ p ∈ prmsOf s, ValidName p) :
    parsePrms fl (fitText prmsOf (ss ++ [a, b])) = parsePrms fl (joinWith ',' ((ss ++ [a]).map fun s => (itemOf prmsOf s).text)) := by
  have valid : ∀ s ∈ ss ++ [a, b], (itemOf prmsOf s).Valid fl := fun s hs => item_valid (hv s hs) (hp s hs) (hps s hs)
  unfold fitText
  rw [fitOuter_eq prmsOf a b ss _ 0 (by simp)]
  have nc : ∀ s ∈ ss ++ [a, b], ',' ∉ (itemOf prmsOf s).text := fun s hs => comma_not_mem (valid s hs)
  unfold parsePrms
  rw [splitOn_joinWith (by simp) (by
    intro p hp'
    simp only [List.mem_append, List.mem_map, List.mem_singleton] at hp'
    rcases hp' with ⟨s, hs, rfl⟩ | rfl
    · exact nc s (by simp [hs])
    · rw [List.mem_append, not_or]; exact ⟨nc a (by simp), nc b (by simp)⟩),
    splitOn_joinWith (by simp) (by
    intro p hp'
    simp only [List.map_append, List.mem_append, List.mem_map, List.mem_singleton] at hp'
    rcases hp' with ⟨s, hs, rfl⟩ | ⟨s, rfl, rfl⟩
    · exact nc s (by simp [hs])
    · exact nc s (by simp))]
  rw [List.map_append, List.foldlM_append, List.foldlM_append]
  congr 1
  funext d
  have hm : matchPrm ((itemOf prmsOf a).text ++ (itemOf prmsOf b).text) = matchPrm (itemOf prmsOf a).text := by
    rw [matchPrm_text (valid a (by simp))]
    have : (itemOf prmsOf b).text = b ++ (['=', '('] ++ joinWith '/' (prmsOf b) ++ [')']) := by rw [item_text]; simp
    rw [this, matchPrm_more (hv a (by simp)) (hp a (by simp)) (hps a (by simp)) (hv b (by simp))]
    rfl
  simp only [List.map_cons, List.map_nil, List.foldlM_cons, List.foldlM_nil, addItem, hm]

/-- C122: what `--fitprms` prints for a single source is read by `parse_prms` as exactly the parameters of that source. -/
theorem c122_fit_one_partial (fl : List Char → Option V) (prmsOf : Name → List Name) (s : Name)
    (hv : ValidName s) (hp : prmsOf s ≠ []) (hps : ∀ p ∈ prmsOf s, ValidName p) (divstr : List Char) :
    ∃ t d, printed (some prmsOf) true divstr [s] = some t ∧ parsePrms fl t = some d ∧
      ∀ o p, look d o p = if o = s ∧ p ∈ prmsOf s then some (none, none) else none := by
  obtain ⟨d, h1, h2⟩ := c08_meaning fl [itemOf prmsOf s] (by simp) (by simpa using item_valid hv hp hps) (by simpa using item_counts fl prmsOf s)
  refine ⟨_, d, rfl, ?_, fun o p => ?_⟩
  · have : fitText prmsOf [s] = joinWith ',' ([itemOf prmsOf s].map PrmItem.text) := by
      unfold fitText
      rw [fitOuter_cons]
      simp [fitOuter, joinWith]
    rw [this]; exact h1
  · rw [h2, show [itemOf prmsOf s] = [s].map (itemOf prmsOf) from rfl, lastAssign_asked]
    by_cases h : o = s
    · subst h; simp
    · simp [h]

/-- C122: with two sources or more there is no comma between the last two, and `parse_prms` reads the text without complaint and
without the last source: the fit leaves that source alone. -/
theorem c122_fit_violated (fl : List Char → Option V) (prmsOf : Name → List Name) (ss : List Name) (a b : Name) (hd : (ss ++ [a, b]).Nodup)
    (hv : ∀ s ∈ ss ++ [a, b], ValidName s) (hp : ∀ s ∈ ss ++ [a, b], prmsOf s ≠ []) (hps : ∀ s ∈ ss ++ [a, b], ∀ p ∈ prmsOf s, ValidName p)
    (divstr : List Char) :
    ∃ t d, printed (some prmsOf) true divstr (ss ++ [a, b]) = some t ∧ parsePrms fl t = some d ∧
      (∀ o ∈ ss ++ [a], ∀ p, look d o p = if p ∈ prmsOf o then some (none, none) else none) ∧ ∀ p, look d b p = none := by
  have mem : ∀ s ∈ ss ++ [a], s ∈ ss ++ [a, b] := by
    intro s hs; simp only [List.mem_append, List.mem_cons, List.not_mem_nil, or_false] at hs ⊢; tauto
  obtain ⟨d, h1, h2⟩ := c08_meaning fl ((ss ++ [a]).map (itemOf prmsOf)) (by simp)
    (by intro i hi; obtain ⟨s, hs, rfl⟩ := List.mem_map.1 hi; have hs := mem s hs; exact item_valid (hv s hs) (hp s hs) (hps s hs))
    (by intro i hi; obtain ⟨s, hs, rfl⟩ := List.mem_map.1 hi; exact item_counts fl prmsOf s)
  refine ⟨_, d, rfl, ?_, fun o ho p => ?_, fun p => ?_⟩
  · rw [parse_run fl prmsOf ss a b hv hp hps, ← h1, List.map_map]; rfl
  · rw [h2, lastAssign_asked]; simp [ho]
  · have : b ∉ ss ++ [a] := by
      have : ss ++ [a, b] = (ss ++ [a]) ++ [b] := by simp
      rw [this] at hd
      exact fun h => (List.nodup_append.1 hd).2.2 b h b (by simp) rfl
    rw [h2, lastAssign_asked]; simp [this]

/-- C122: with `-P` and without `--fitprms` nothing is printed as soon as a source is selected: the script raises. -/
theorem c122_prms_violated (prmsOf : Name → List Name) (divstr : List Char) (s : Name) (ss : List Name) :
    printed (some prmsOf) false divstr (s :: ss) = none := rfl

/-- C122: without `-P` the names are printed with the divider between them. -/
theorem c122_list (d : Char) (fitprms : Bool) (ss : List Name) (hne : ss ≠ []) (hs : ∀ s ∈ ss, d ∉ s) :
    ∃ t, printed none fitprms [d] ss = some t ∧ splitOn d t = ss := by
  refine ⟨_, rfl, ?_⟩
  have : ∀ l : List Name, joinStr [d] l = joinWith d l := by
    intro l
    induction l with
    | nil => rfl
    | cons x l ih => cases l with
      | nil => rfl
      | cons y l => simp [joinStr, joinWith, ih]
  rw [this]
  exact splitOn_joinWith hne hs

/-! ## Non-vacuity -/

def demoCat : Catalog ℚ := [("vir".toList, ⟨188, 12, false⟩), ("cas".toList, ⟨351, 59, false⟩), ("cyg".toList, ⟨300, 41, false⟩), ("crab".toList, ⟨84, 22, false⟩)]
def demoOpts : SrcOpts ℚ := ⟨demoCat, some [("crab".toList, ⟨84, 22, false⟩)], none, false, none, some (290, 10), none⟩

example : selectSrcs 1 (fun _ _ => 0) demoOpts = some ["cas".toList, "cyg".toList] := by decide +kernel
example : (demoOpts.cat.map Prod.fst).Nodup := by decide +kernel
example : selectSrcs 1 (fun _ _ => 0) { demoOpts with cat := ("Sun".toList, ⟨0, 0, true⟩) :: demoCat } = none := by decide +kernel
example : selectSrcs 1 (fun _ _ => 0) { demoOpts with sep := some 180 } = some [] := by decide +kernel
example : fitText (fun _ => ["jys".toList, "index".toList]) ["a".toList, "b".toList, "c".toList] =
  "a=(jys/index),b=(jys/index)c=(jys/index)".toList := by decide +kernel

end Verif.Scripting
