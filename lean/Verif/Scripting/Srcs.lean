import Verif.Util.Text
import Verif.Misc.Catalog
/-!
# Property C96 : the sources named on the command line
-/
namespace Verif.Scripting
open Verif.Util Verif.Misc

/-! ## Model -/

/-- an element of `src_opt`: a string, or the `RadioFixedBody(ra, dec, name=s)` -/
inductive SrcOpt
  | name (s : List Char)
  | body (ra dec s : List Char)
deriving DecidableEq

/-- one turn of the loop, scripting.py 162-169.  `isFloat` says which strings `float` accepts.  What `ephem` does with the strings
`ra` and `dec` is not modelled. -/
def srcItem (isFloat : List Char → Bool) (s : List Char) : SrcOpt :=
  match splitOn '_' s with
  | [ra, dec] => if (splitOn ':' ra).all isFloat && (splitOn ':' dec).all isFloat then .body ra dec s else .name s
  | _ => .name s

/-- `parse_srcs`, scripting.py 149-170: `src_list`, `flux_cutoff`, `catalogs`; `toFloat` is `float`, `none` its ValueError -/
def parseSrcs {F : Type} (toFloat : List Char → Option F) (src cat : List Char) : Option (Option (List SrcOpt) × Option (List F) × List (List Char)) :=
  let cats := splitOn ',' cat
  if startsWith "all".toList src then some (none, none, cats)
  else if '/' ∈ src then ((splitOn '/' src).mapM toFloat).map fun c => (none, some c, cats)
  else some (some ((splitOn ',' src).map (srcItem fun p => (toFloat p).isSome)), none, cats)

/-- the elements as `get_catalog` takes them; `make` is the object for a position -/
def toReq {α : Type} (make : List Char → List Char → α) : SrcOpt → Req α
  | .name s => .name (String.ofList s)
  | .body ra dec s => .made ⟨String.ofList s, make ra dec⟩

/-- `get_catalog(srclist, cutoff, catalogs)` with the results of `parse_srcs`, src.py 9-25; `above` is the comparison with the cutoff `(jy, GHz)`, and
a cutoff that is not a pair cannot be unpacked -/
def srcCatalog {F α : Type} (known : String → Option (Cat α)) (make : List Char → List Char → α) (above : F → F → Src α → Bool)
    (r : Option (List SrcOpt) × Option (List F) × List (List Char)) : Option (Cat α) :=
  let cats := r.2.2.map String.ofList
  match r.1, r.2.1 with
  | some l, _ => some (getCatalog known (some (l.map (toReq make))) none cats)
  | none, none => some (getCatalog known none none cats)
  | none, some [cut, fq] => some (getCatalog known none (some (above cut fq)) cats)
  | none, some _ => none

/-! ## Specification -/

/-- what a user can ask for: a source of the catalogs, or a position, given by hours (degrees), minutes, seconds -/
inductive Ask
  | known (s : List Char)
  | place (ra dec : List (List Char))

/-- how it is written -/
def Ask.text : Ask → List Char
  | .known s => s
  | .place ra dec => joinWith ':' ra ++ '_' :: joinWith ':' dec

/-- a piece of a position -/
def IsPiece {F : Type} (toFloat : List Char → Option F) (p : List Char) : Prop :=
  (∃ x, toFloat p = some x) ∧ '_' ∉ p ∧ ':' ∉ p ∧ ',' ∉ p ∧ '/' ∉ p

/-- it can be written: names without `,` and `/` that do not read as a position, positions of numbers -/
def Ask.Ok {F : Type} (toFloat : List Char → Option F) : Ask → Prop
  | .known s => ',' ∉ s ∧ '/' ∉ s ∧ ∀ ra dec : List (List Char), ra ≠ [] → dec ≠ [] → (∀ p ∈ ra ++ dec, ∃ x, toFloat p = some x) →
      s ≠ joinWith ':' ra ++ '_' :: joinWith ':' dec
  | .place ra dec => ra ≠ [] ∧ dec ≠ [] ∧ ∀ p ∈ ra ++ dec, IsPiece toFloat p

/-- the command line argument -/
def srcText (l : List Ask) : List Char := joinWith ',' (l.map Ask.text)

/-! ## Lemmas -/

/-- what an item is read as -/
def Ask.read : Ask → SrcOpt
  | .known s => .name s
  | .place ra dec => .body (joinWith ':' ra) (joinWith ':' dec) (joinWith ':' ra ++ '_' :: joinWith ':' dec)

theorem srcItem_text {F : Type} (toFloat : List Char → Option F) (a : Ask) (h : a.Ok toFloat) : srcItem (fun p => (toFloat p).isSome) a.text = a.read := by
  cases a with
  | known s =>
    obtain ⟨_, _, h⟩ := h
    unfold srcItem Ask.text Ask.read
    simp only
    split
    · next ra dec hs =>
      rw [if_neg]
      intro hc
      rw [Bool.and_eq_true, List.all_eq_true, List.all_eq_true] at hc
      refine h (splitOn ':' ra) (splitOn ':' dec) (splitOn_ne_nil _ _) (splitOn_ne_nil _ _) ?_ ?_
      · intro p hp
        rcases List.mem_append.1 hp with hp | hp
        · exact Option.isSome_iff_exists.1 (hc.1 p hp)
        · exact Option.isSome_iff_exists.1 (hc.2 p hp)
      · rw [join_split, join_split]
        have := join_split '_' s
        rw [hs] at this
        exact this.symm
    · rfl
  | place ra dec =>
    obtain ⟨h1, h2, h⟩ := h
    have hra : '_' ∉ joinWith ':' ra := joinWith_not_mem (by decide) fun p hp => (h p (by simp [hp])).2.1
    have hdec : '_' ∉ joinWith ':' dec := joinWith_not_mem (by decide) fun p hp => (h p (by simp [hp])).2.1
    unfold srcItem Ask.text Ask.read
    simp only
    rw [splitOn_append_sep hra, splitOn_no_sep hdec]
    simp only
    rw [splitOn_joinWith h1 (fun p hp => (h p (by simp [hp])).2.2.1), splitOn_joinWith h2 (fun p hp => (h p (by simp [hp])).2.2.1), if_pos]
    rw [Bool.and_eq_true, List.all_eq_true, List.all_eq_true]
    constructor
    · intro p hp
      exact Option.isSome_iff_exists.2 (h p (by simp [hp])).1
    · intro p hp
      exact Option.isSome_iff_exists.2 (h p (by simp [hp])).1

theorem text_no {F : Type} {toFloat : List Char → Option F} {a : Ask} (h : a.Ok toFloat) : ',' ∉ a.text ∧ '/' ∉ a.text := by
  cases a with
  | known s => exact ⟨h.1, h.2.1⟩
  | place ra dec =>
    obtain ⟨_, _, h⟩ := h
    have key : ∀ c : Char, c ≠ ':' → c ≠ '_' → (∀ p ∈ ra ++ dec, c ∉ p) → c ∉ joinWith ':' ra ++ '_' :: joinWith ':' dec := by
      intro c h1 h2 hp hm
      rcases List.mem_append.1 hm with hm | hm
      · exact joinWith_not_mem h1 (fun p hp' => hp p (by simp [hp'])) hm
      · rcases List.mem_cons.1 hm with hm | hm
        · exact h2 hm
        · exact joinWith_not_mem h1 (fun p hp' => hp p (by simp [hp'])) hm
    exact ⟨key ',' (by decide) (by decide) fun p hp => (h p hp).2.2.2.1, key '/' (by decide) (by decide) fun p hp => (h p hp).2.2.2.2⟩

theorem parse_items {F : Type} (toFloat : List Char → Option F) (l : List Ask) (hne : l ≠ []) (hok : ∀ a ∈ l, a.Ok toFloat)
    (hall : ¬ "all".toList <+: srcText l) (cat : List Char) :
    parseSrcs toFloat (srcText l) cat = some (some (l.map Ask.read), none, splitOn ',' cat) := by
  unfold parseSrcs
  simp only
  rw [if_neg (by unfold startsWith; rw [List.isPrefixOf_iff_prefix]; exact hall), if_neg]
  · unfold srcText
    rw [splitOn_joinWith (by simpa using hne) (by
      intro p hp
      obtain ⟨a, ha, rfl⟩ := List.mem_map.1 hp
      exact (text_no (hok a ha)).1), List.map_map]
    congr 3
    apply List.map_congr_left
    intro a ha
    exact srcItem_text toFloat a (hok a ha)
  · apply joinWith_not_mem (by decide)
    intro p hp
    obtain ⟨a, ha, rfl⟩ := List.mem_map.1 hp
    exact (text_no (hok a ha)).2

theorem lastNamed_none {α : Type} {n : String} : ∀ {l : List (Src α)}, (∀ s ∈ l, s.name ≠ n) → lastNamed n l = none
  | [], _ => rfl
  | s :: l, h => by
    unfold lastNamed
    rw [lastNamed_none fun t ht => h t (List.mem_cons_of_mem _ ht)]
    exact if_neg (h s (by simp))

theorem lastNamed_unique {α : Type} {n : String} {t : Src α} : ∀ {l : List (Src α)}, t ∈ l → t.name = n → (∀ s ∈ l, s.name = n → s = t) → lastNamed n l = some t
  | [], h, _, _ => by cases h
  | s :: l, h, hn, hu => by
    unfold lastNamed
    by_cases hm : t ∈ l
    · rw [lastNamed_unique hm hn fun x hx => hu x (List.mem_cons_of_mem _ hx)]
    · have hs : s = t := by
        rcases List.mem_cons.1 h with h | h
        · exact h.symm
        · exact absurd h hm
      rw [lastNamed_none]
      · rw [hs]
        exact if_pos hn
      · intro x hx hxn
        have := hu x (List.mem_cons_of_mem _ hx) hxn
        rw [this] at hx
        exact hm hx

theorem ofList_inj {a b : List Char} (h : String.ofList a = String.ofList b) : a = b := by
  have := congrArg String.toList h
  simpa using this

theorem mem_given {α : Type} (make : List Char → List Char → α) (l : List Ask) (s : Src α) :
    s ∈ givenIn ((l.map Ask.read).map (toReq make)) ↔
      ∃ ra dec, Ask.place ra dec ∈ l ∧ (⟨String.ofList (Ask.place ra dec).text, make (joinWith ':' ra) (joinWith ':' dec)⟩ : Src α) = s := by
  unfold givenIn
  rw [List.map_map, List.mem_filterMap]
  constructor
  · rintro ⟨r, hr, h⟩
    obtain ⟨a, ha, rfl⟩ := List.mem_map.1 hr
    cases a with
    | known _ => cases h
    | place ra dec => exact ⟨ra, dec, ha, Option.some.inj h⟩
  · rintro ⟨ra, dec, ha, rfl⟩
    exact ⟨_, List.mem_map.2 ⟨_, ha, rfl⟩, rfl⟩

theorem place_parts {F : Type} {toFloat : List Char → Option F} {ra dec : List (List Char)} (h : (Ask.place ra dec).Ok toFloat) :
    splitOn '_' (Ask.place ra dec).text = [joinWith ':' ra, joinWith ':' dec] := by
  obtain ⟨_, _, h⟩ := h
  have hra : '_' ∉ joinWith ':' ra := joinWith_not_mem (by decide) fun p hp => (h p (by simp [hp])).2.1
  have hdec : '_' ∉ joinWith ':' dec := joinWith_not_mem (by decide) fun p hp => (h p (by simp [hp])).2.1
  unfold Ask.text
  rw [splitOn_append_sep hra, splitOn_no_sep hdec]

theorem mapM_len {α β : Type} (f : α → Option β) : ∀ {l : List α} {r : List β}, l.mapM f = some r → r.length = l.length
  | [], r, h => by
    have : r = [] := (Option.some.inj h).symm
    rw [this]
    rfl
  | a :: l, r, h => by
    rw [List.mapM_cons] at h
    cases ha : f a with
    | none => rw [ha] at h; cases h
    | some b =>
      cases hl : l.mapM f with
      | none => rw [ha, hl] at h; cases h
      | some bs =>
        rw [ha, hl] at h
        have : r = b :: bs := (Option.some.inj h).symm
        rw [this, List.length_cons, List.length_cons, mapM_len f hl]

/-! ## The claims -/

/-- C96: "all" gives all sources of the catalogs, "cut/freq" those above the cutoff; a list gives the names and positions in it. -/
theorem c96_parse {F : Type} (toFloat : List Char → Option F) (cats : List (List Char)) (hc : cats ≠ []) (hcs : ∀ c ∈ cats, ',' ∉ c) :
    (∀ r, parseSrcs toFloat ("all".toList ++ r) (joinWith ',' cats) = some (none, none, cats)) ∧
    (∀ a b x y, toFloat a = some x → toFloat b = some y → '/' ∉ a → '/' ∉ b → ¬ "all".toList <+: a ++ '/' :: b →
      parseSrcs toFloat (a ++ '/' :: b) (joinWith ',' cats) = some (none, some [x, y], cats)) ∧
    (∀ l : List Ask, l ≠ [] → (∀ a ∈ l, a.Ok toFloat) → ¬ "all".toList <+: srcText l →
      parseSrcs toFloat (srcText l) (joinWith ',' cats) = some (some (l.map fun a => match a with
        | .known s => .name s
        | .place ra dec => .body (joinWith ':' ra) (joinWith ':' dec) (joinWith ':' ra ++ '_' :: joinWith ':' dec)), none, cats)) := by
  refine ⟨?_, ?_, ?_⟩
  · intro r
    unfold parseSrcs
    simp only
    rw [splitOn_joinWith hc hcs, if_pos]
    unfold startsWith
    rw [List.isPrefixOf_iff_prefix]
    exact List.prefix_append _ _
  · intro a b x y ha hb h1 h2 hall
    unfold parseSrcs
    simp only
    rw [splitOn_joinWith hc hcs, if_neg (by unfold startsWith; rw [List.isPrefixOf_iff_prefix]; exact hall), if_pos (by simp),
      splitOn_append_sep h1, splitOn_no_sep h2]
    simp [List.mapM_cons, ha, hb]
  · intro l hne hok hall
    rw [parse_items toFloat l hne hok hall, splitOn_joinWith hc hcs]
    congr 3

/-- C96: the catalog made for a list of sources has exactly the sources asked for: a position under the text it was given as, a named source as it is in
the last of the catalogs that has it. -/
theorem c96_catalog {F α : Type} (toFloat : List Char → Option F) (known : String → Option (Cat α)) (make : List Char → List Char → α) (above : F → F → Src α → Bool)
    (hk : ∀ nm c, known nm = some c → ∀ n s, get n c = some s → s.name = n)
    (cats : List (List Char)) (hc : cats ≠ []) (hcs : ∀ c ∈ cats, ',' ∉ c)
    (l : List Ask) (hne : l ≠ []) (hok : ∀ a ∈ l, a.Ok toFloat) (hall : ¬ "all".toList <+: srcText l) :
    ∃ cat, (parseSrcs toFloat (srcText l) (joinWith ',' cats)).bind (srcCatalog known make above) = some cat ∧
      (∀ ra dec, Ask.place ra dec ∈ l → get (String.ofList (Ask.place ra dec).text) cat =
        some ⟨String.ofList (Ask.place ra dec).text, make (joinWith ':' ra) (joinWith ':' dec)⟩) ∧
      (∀ s, Ask.known s ∈ l → get (String.ofList s) cat = (cats.map String.ofList).reverse.findSome? fun nm => (known nm).bind fun c => get (String.ofList s) c) ∧
      (∀ n, (∀ a ∈ l, n ≠ String.ofList a.text) → get n cat = none) := by
  refine ⟨getCatalog known (some ((l.map Ask.read).map (toReq make))) none (cats.map String.ofList),
    by rw [parse_items toFloat l hne hok hall, splitOn_joinWith hc hcs]; rfl, ?_, ?_, ?_⟩
  · intro ra dec hm
    classical
    rw [c55_get_catalog_partial known _ none _ hk, lastNamed_unique (t := ⟨String.ofList (Ask.place ra dec).text, make (joinWith ':' ra) (joinWith ':' dec)⟩)]
    · rfl
    · exact (mem_given make l _).2 ⟨ra, dec, hm, rfl⟩
    · rfl
    · intro s hs hn
      obtain ⟨ra', dec', hm', rfl⟩ := (mem_given make l s).1 hs
      have ht : (Ask.place ra' dec').text = (Ask.place ra dec).text := ofList_inj hn
      have h1 := place_parts (hok _ hm')
      have h2 := place_parts (hok _ hm)
      rw [ht, h2] at h1
      injection h1 with e1 h1
      injection h1 with e2 _
      rw [ht, e1, e2]
  · intro s hm
    classical
    rw [c55_get_catalog_partial known _ none _ hk, lastNamed_none, if_pos]
    · rfl
    · rw [List.map_map]
      exact List.mem_map.2 ⟨_, hm, rfl⟩
    · intro t ht hn
      obtain ⟨ra', dec', hm', rfl⟩ := (mem_given make l t).1 ht
      have hk := (hok _ hm).2.2
      obtain ⟨h1, h2, h3⟩ := hok _ hm'
      exact hk ra' dec' h1 h2 (fun p hp => (h3 p hp).1) (ofList_inj hn).symm
  · intro n hn
    classical
    rw [c55_get_catalog_partial known _ none _ hk, lastNamed_none, if_neg]
    · rfl
    · intro h
      rw [List.map_map] at h
      obtain ⟨a, ha, he⟩ := List.mem_map.1 h
      cases a with
      | known s =>
        have e : Req.name (String.ofList s) = Req.name (α := α) n := he
        injection e with e
        exact hn _ ha e.symm
      | place ra dec => cases he
    · intro t ht hn'
      obtain ⟨ra', dec', hm', rfl⟩ := (mem_given make l t).1 ht
      exact hn _ hm' hn'.symm

/-- A parser of numbers for the examples: unsigned integers. -/
def demoFloat (s : List Char) : Option Nat := parseNat s

/-- The conditions of `c96_catalog` for `cyg,19:59_40`. -/
example : (∀ a ∈ [Ask.known "cyg".toList, .place ["19".toList, "59".toList] ["40".toList]], a.Ok demoFloat) ∧
    srcText [Ask.known "cyg".toList, .place ["19".toList, "59".toList] ["40".toList]] = "cyg,19:59_40".toList ∧
    ¬ "all".toList <+: "cyg,19:59_40".toList := by
  refine ⟨?_, by decide, by decide⟩
  intro a ha
  rcases List.mem_cons.1 ha with rfl | ha
  · refine ⟨by decide, by decide, ?_⟩
    intro ra dec _ _ _ h
    have : '_' ∈ "cyg".toList := by rw [h]; simp
    revert this
    decide
  · rw [List.mem_singleton] at ha
    subst ha
    refine ⟨by simp, by simp, ?_⟩
    intro p hp
    simp only [List.cons_append, List.nil_append, List.mem_cons, List.not_mem_nil, or_false] at hp
    rcases hp with rfl | rfl | rfl
    · exact ⟨⟨19, by decide⟩, by decide, by decide, by decide, by decide⟩
    · exact ⟨⟨59, by decide⟩, by decide, by decide, by decide, by decide⟩
    · exact ⟨⟨40, by decide⟩, by decide, by decide, by decide, by decide⟩

/-- C96: "all" gives the sources of all catalogs, "cut/freq" those above the cutoff; of a source in several catalogs, the last one (that is above the cutoff). -/
theorem c96_whole {F α : Type} (toFloat : List Char → Option F) (known : String → Option (Cat α)) (make : List Char → List Char → α) (above : F → F → Src α → Bool)
    (hk : ∀ nm c, known nm = some c → ∀ n s, get n c = some s → s.name = n)
    (cats : List (List Char)) (hc : cats ≠ []) (hcs : ∀ c ∈ cats, ',' ∉ c) :
    (∀ r, ∃ cat, (parseSrcs toFloat ("all".toList ++ r) (joinWith ',' cats)).bind (srcCatalog known make above) = some cat ∧
      ∀ n, get n cat = cats.reverse.findSome? fun nm => (known (String.ofList nm)).bind fun c => get n c) ∧
    (∀ a b x y, toFloat a = some x → toFloat b = some y → '/' ∉ a → '/' ∉ b → ¬ "all".toList <+: a ++ '/' :: b →
      ∃ cat, (parseSrcs toFloat (a ++ '/' :: b) (joinWith ',' cats)).bind (srcCatalog known make above) = some cat ∧
      ∀ n s, get n cat = some s ↔ cats.reverse.findSome? (fun nm => (known (String.ofList nm)).bind fun c => (get n c).filter fun s => above x y s) = some s) := by
  obtain ⟨h1, h2, _⟩ := c96_parse toFloat cats hc hcs
  constructor
  · intro r
    refine ⟨getCatalog known none none (cats.map String.ofList), by rw [h1 r]; rfl, ?_⟩
    intro n
    rw [c55_whole_catalog known none _ hk, ← List.map_reverse, List.findSome?_map]
    congr 1
    funext nm
    simp only [Function.comp]
    cases known (String.ofList nm) with
    | none => rfl
    | some c =>
      show (get n c).filter (fun s => true) = get n c
      cases get n c <;> rfl
  · intro a b x y ha hb h3 h4 hall
    refine ⟨getCatalog known none (some (above x y)) (cats.map String.ofList), by rw [h2 a b x y ha hb h3 h4 hall]; rfl, ?_⟩
    intro n s
    rw [c55_whole_catalog known _ _ hk, ← List.map_reverse, List.findSome?_map]
    simp only [Function.comp_def, Option.all_some]

/-- Cutoffs of 5 at .15 GHz. -/
example : demoFloat "5".toList = some 5 ∧ demoFloat "15".toList = some 15 ∧ '/' ∉ "5".toList ∧ '/' ∉ "15".toList ∧ ¬ "all".toList <+: "5/15".toList := by decide

/-- **C96 is false for some names**: asking for one source whose name begins with "all" gives every source of the catalogs, whatever else is asked for, and no
list that has a `/` in a name is read as a list. -/
theorem c96_names_violated {F : Type} (toFloat : List Char → Option F) (cat : List Char) :
    (∀ r rest, parseSrcs toFloat ("all".toList ++ r ++ ',' :: rest) cat = some (none, none, splitOn ',' cat)) ∧
    (∀ s r, '/' ∈ s → parseSrcs toFloat s cat ≠ some (some r, none, splitOn ',' cat)) := by
  constructor
  · intro r rest
    unfold parseSrcs
    simp only
    rw [if_pos]
    unfold startsWith
    rw [List.isPrefixOf_iff_prefix, List.append_assoc]
    exact List.prefix_append _ _
  · intro s r hs
    unfold parseSrcs
    simp only
    split
    · intro h; cases h
    · cases (splitOn '/' s).mapM toFloat with
      | none => intro h; cases h
      | some c => intro h; cases h

/-- **C96 is false for the sources of the 6C and 7C catalogs**: they are named by their position (`name = '%s_%s' % (ra, dec)`, _src/six_c.py 33 and
_src/seven_c.py 32), and a source with such a name is never taken from the catalogs.  A new source is made in its place, and if that differs from the source of the
catalog (the new one has no flux: `jys` is 0 unless given, amp.py 49) then the source asked for is not in the result. -/
theorem c96_position_violated {F α : Type} (toFloat : List Char → Option F) (known : String → Option (Cat α)) (make : List Char → List Char → α)
    (above : F → F → Src α → Bool) (hk : ∀ nm c, known nm = some c → ∀ n s, get n c = some s → s.name = n)
    (ra dec : List (List Char)) (hok : (Ask.place ra dec).Ok toFloat) (hall : ¬ "all".toList <+: (Ask.place ra dec).text)
    (cat : List Char) (c : Cat α) (_hc : known (String.ofList cat) = some c) (s : Src α)
    (_hs : get (String.ofList (Ask.place ra dec).text) c = some s) (hd : make (joinWith ':' ra) (joinWith ':' dec) ≠ s.body) :
    ∃ r, (parseSrcs toFloat (Ask.place ra dec).text cat).bind (srcCatalog known make above) = some r ∧
      get (String.ofList (Ask.place ra dec).text) r ≠ some s := by
  have h := c96_catalog toFloat known make above hk (splitOn ',' cat) (splitOn_ne_nil _ _) (split_no_sep ',' cat) [.place ra dec] (by simp)
    (by
      intro x hx
      rw [List.mem_singleton] at hx
      subst hx
      exact hok) hall
  obtain ⟨r, h1, h2, _⟩ := h
  rw [join_split] at h1
  refine ⟨r, h1, ?_⟩
  rw [h2 ra dec (by simp)]
  intro e
  apply hd
  rw [← Option.some.inj e]

/-- The conditions of `c96_position_violated` for a catalog with one source, named by its position, with a flux of 5. -/
example : (Ask.place ["19".toList, "59".toList] ["40".toList]).Ok demoFloat ∧ ¬ "all".toList <+: "19:59_40".toList ∧
    get "19:59_40" [("19:59_40", (⟨"19:59_40", 5⟩ : Src Nat))] = some ⟨"19:59_40", 5⟩ ∧ (0 : Nat) ≠ 5 := by
  refine ⟨⟨by simp, by simp, ?_⟩, by decide, rfl, by decide⟩
  intro p hp
  simp only [List.cons_append, List.nil_append, List.mem_cons, List.not_mem_nil, or_false] at hp
  rcases hp with rfl | rfl | rfl
  · exact ⟨⟨19, by decide⟩, by decide, by decide, by decide, by decide⟩
  · exact ⟨⟨59, by decide⟩, by decide, by decide, by decide, by decide⟩
  · exact ⟨⟨40, by decide⟩, by decide, by decide, by decide, by decide⟩

/-- **C96 is false for a cutoff of three or more numbers**: `1/2/3` is read, but `get_catalog` cannot use it. -/
theorem c96_cutoff_violated {F α : Type} (toFloat : List Char → Option F) (known : String → Option (Cat α)) (make : List Char → List Char → α)
    (above : F → F → Src α → Bool) (ps : List (List Char)) (h2 : 2 < ps.length) (hs : ∀ p ∈ ps, '/' ∉ p) (hall : ¬ "all".toList <+: joinWith '/' ps) (cat : List Char) :
    (parseSrcs toFloat (joinWith '/' ps) cat).bind (srcCatalog known make above) = none := by
  have hm : '/' ∈ joinWith '/' ps := by
    match ps, h2 with
    | p :: q :: r, _ => simp [joinWith]
  have hne : ps ≠ [] := by rintro rfl; simp at h2
  unfold parseSrcs
  simp only
  rw [if_neg (by unfold startsWith; rw [List.isPrefixOf_iff_prefix]; exact hall), if_pos hm, splitOn_joinWith hne hs]
  cases h : ps.mapM toFloat with
  | none => rfl
  | some c =>
    have hl := mapM_len toFloat h
    match c, hl with
    | [], hl => rfl
    | [_], hl => rfl
    | [_, _], hl => simp at hl; omega
    | _ :: _ :: _ :: _, hl => rfl

example : parseSrcs demoFloat "1/2/3".toList "misc".toList = some (none, some [1, 2, 3], ["misc".toList]) := by decide
example : parseSrcs demoFloat "10/".toList "misc".toList = none := by decide
example : parseSrcs demoFloat "cyg,19:59_40".toList "helm,misc".toList =
    some (some [.name "cyg".toList, .body "19:59".toList "40".toList "19:59_40".toList], none, ["helm".toList, "misc".toList]) := by decide

end Verif.Scripting
