/-!
# Source catalogs (C55)

`aipy/phs.py` 126-146 (`SrcCatalog.add_srcs`, `get_srcs`), `aipy/src.py` 10-26 (`get_catalog`) and the
`get_srcs` functions of `aipy/_src/*.py` (all alike; `misc.py` 37-65, `helm.py` 113-130).

A source is a name with a payload `α` (position, flux, ...).  A catalog is a Python dict: pairs in order of
insertion, a second insertion under the same name replaces the value and keeps the place.
-/

namespace Verif.Misc

/-- A source object, as far as catalogs look at it: `src_name` and the rest. -/
structure Src (α : Type) where
  name : String
  body : α

/-- A `SrcCatalog` (a Python dict). -/
abbrev Cat (α : Type) := List (String × Src α)

/-- `self[name] = src`. -/
def put {α : Type} (name : String) (s : Src α) : Cat α → Cat α
  | [] => [(name, s)]
  | (n, t) :: rest => if n = name then (n, s) :: rest else (n, t) :: put name s rest

/-- `self[name]`; `none` is the `KeyError`. -/
def get {α : Type} (name : String) : Cat α → Option (Src α)
  | [] => none
  | (n, t) :: rest => if n = name then some t else get name rest

/-- `add_srcs`: the sources one after the other.  Whether they come as arguments or as one list makes no
difference.  `phs.py` 132-136. -/
def addSrcs {α : Type} (c : Cat α) (srcs : List (Src α)) : Cat α :=
  srcs.foldl (fun c s => put s.name s c) c

/-- How `get_srcs` can be called: with names as arguments, or with one list of names. -/
inductive Call
  | args (names : List String)
  | list (names : List String)

/-- `[self[s] for s in srcs]`; the first unknown name raises `KeyError`. -/
def pick {α : Type} (c : Cat α) : List String → Option (List (Src α))
  | [] => some []
  | n :: ns => match get n c with
    | none => none
    | some s => (pick c ns).map (s :: ·)

/-- What `get_srcs` gives back. -/
inductive Reply (α : Type)
  | none
  | srcs (l : List (Src α))
  | keyError

/-- `SrcCatalog.get_srcs`.  With no argument it sets `srcs = self.keys()` and falls off the end of the
function, returning `None`.  `phs.py` 137-142. -/
def getSrcs {α : Type} (c : Cat α) : Call → Reply α
  | .args [] => .none
  | .args ns => match pick c ns with
    | some l => .srcs l
    | Option.none => .keyError
  | .list ns => match pick c ns with
    | some l => .srcs l
    | Option.none => .keyError

/-- An entry of the list `srcs` given to `get_catalog`: a name, or a source object that is already made. -/
inductive Req (α : Type)
  | name (n : String)
  | made (s : Src α)

/-- The names in a request list.  A source object used as a key is never found. -/
def Req.found {α : Type} (c : Cat α) : Req α → Option (Src α)
  | .name n => get n c
  | .made _ => none

/-- `_src.<catalog>.get_srcs(srcs, cutoff)`; `above` says whether a source is above the cutoff.
`_src/misc.py` 53-65. -/
def catSrcs {α : Type} (c : Cat α) (srcs : Option (List (Req α))) (above : Option (Src α → Bool)) :
    List (Src α) :=
  match srcs with
  | some l => l.filterMap (Req.found c)
  | none => match above with
    | none => c.filterMap fun p => get p.1 c
    | some f => (c.filterMap fun p => get p.1 c).filter f

/-- The sources in a request list that are already made.  `src.py` 24-25. -/
def madeOf {α : Type} : List (Req α) → List (Src α)
  | [] => []
  | .name _ :: l => madeOf l
  | .made s :: l => s :: madeOf l

/-- `get_catalog(srcs, cutoff, catalogs)`.  `known` are the modules of `aipy._src`; catalogs that do not exist
are skipped.  `src.py` 10-26. -/
def getCatalog {α : Type} (known : String → Option (Cat α)) (srcs : Option (List (Req α)))
    (above : Option (Src α → Bool)) (catalogs : List String) : Cat α :=
  let found := catalogs.flatMap fun nm => match known nm with
    | none => []
    | some c => catSrcs c srcs above
  addSrcs [] (found ++ match srcs with
    | none => []
    | some l => madeOf l)

/-! ## Properties -/

theorem get_put {α : Type} (c : Cat α) (n m : String) (s : Src α) :
    get m (put n s c) = if m = n then some s else get m c := by
  induction c with
  | nil =>
    by_cases h : m = n
    · subst h; simp [put, get]
    · have h3 : ¬ n = m := fun h' => h h'.symm
      simp [put, get, h, h3]
  | cons p c ih =>
    obtain ⟨k, t⟩ := p
    unfold put
    by_cases h : k = n
    · rw [if_pos h]
      subst h
      by_cases h2 : m = k
      · subst h2; simp [get]
      · have h3 : ¬ k = m := fun h' => h2 h'.symm
        simp [get, h3, h2]
    · rw [if_neg h]
      unfold get
      by_cases h2 : k = m
      · subst h2; simp [h]
      · rw [if_neg h2, ih]
        simp [h2]

/-- The last source of a name in a list. -/
def lastNamed {α : Type} (n : String) : List (Src α) → Option (Src α)
  | [] => none
  | s :: l => match lastNamed n l with
    | some t => some t
    | none => if s.name = n then some s else none

theorem lastNamed_cons {α : Type} (n : String) (s : Src α) (l : List (Src α)) :
    lastNamed n (s :: l) = (lastNamed n l).or (if s.name = n then some s else none) := by
  rw [lastNamed]
  cases lastNamed n l <;> rfl

theorem get_addSrcs {α : Type} (l : List (Src α)) (c : Cat α) (n : String) :
    get n (addSrcs c l) = (lastNamed n l).or (get n c) := by
  induction l generalizing c with
  | nil => rfl
  | cons s l ih =>
    unfold addSrcs at ih ⊢
    rw [List.foldl_cons, ih, get_put]
    rw [lastNamed_cons]
    cases h : lastNamed n l with
    | some t => rfl
    | none =>
      by_cases hn : s.name = n
      · subst hn; simp
      · have : ¬ n = s.name := fun h' => hn h'.symm
        simp [hn, this]

/-- **C55.**  After adding sources, looking up a name gives the source of that name added last, and the old
entry if none was added. -/
theorem c55_lookup {α : Type} (c : Cat α) (l : List (Src α)) (n : String) :
    get n (addSrcs c l) = (lastNamed n l).or (get n c) := get_addSrcs l c n

/-- **C55.**  `get_srcs` with at least one name returns exactly the sources asked for, in the order asked
for, one for each name asked for; with an unknown name it raises. -/
theorem c55_get_srcs {α : Type} (c : Cat α) (call : Call) (ns : List String)
    (hc : call = .list ns ∨ call = .args ns ∧ ns ≠ []) :
    (∀ l, getSrcs c call = .srcs l ↔ ns.map (fun n => get n c) = l.map some) ∧
    (getSrcs c call = .keyError ↔ ∃ n ∈ ns, get n c = none) := by
  have hp : ∀ ns : List String, (∀ l, pick c ns = some l ↔ ns.map (fun n => get n c) = l.map some) ∧
      (pick c ns = none ↔ ∃ n ∈ ns, get n c = none) := by
    intro ns
    induction ns with
    | nil =>
      refine ⟨?_, by simp [pick]⟩
      intro l
      cases l <;> simp [pick]
    | cons n ns ih =>
      unfold pick
      cases h : get n c with
      | none =>
        refine ⟨?_, by simp [h]⟩
        intro l
        cases l <;> simp [h]
      | some s =>
        refine ⟨?_, ?_⟩
        · intro l
          cases l with
          | nil => simp
          | cons t l =>
            simp only [Option.map_eq_some_iff, List.cons.injEq, List.map_cons, h, Option.some.injEq]
            constructor
            · rintro ⟨a, ha, rfl, rfl⟩
              exact ⟨rfl, (ih.1 _).mp ha⟩
            · rintro ⟨rfl, h2⟩
              exact ⟨l, (ih.1 _).mpr h2, rfl, rfl⟩
        · simp [h, ih.2]
  have key : getSrcs c call = match pick c ns with
      | some l => .srcs l
      | Option.none => .keyError := by
    rcases hc with rfl | ⟨rfl, hne⟩
    · rfl
    · cases ns with
      | nil => exact absurd rfl hne
      | cons n ns => rfl
  rw [key]
  constructor
  · intro l
    rw [← (hp ns).1 l]
    cases pick c ns with
    | none => simp
    | some l' => simp
  · rw [← (hp ns).2]
    cases pick c ns with
    | none => simp
    | some l' => simp

/-- **C55 is false for a call without arguments**: no catalog ever gets its sources back that way. -/
theorem c55_all_violated {α : Type} (c : Cat α) : getSrcs c (.args []) = .none := rfl

/-- The ready-made sources of a request list. -/
def givenIn {α : Type} (l : List (Req α)) : List (Src α) :=
  l.filterMap fun r => match r with
    | .made s => some s
    | .name _ => none

theorem madeOf_eq {α : Type} (l : List (Req α)) : madeOf l = givenIn l := by
  induction l with
  | nil => rfl
  | cons r l ih =>
    cases r with
    | name n => exact ih
    | made s => exact congrArg (s :: ·) ih

open Classical in
/-- **C55**, `get_catalog` for named sources: a name is in the catalog returned exactly if it was asked for
and is known to one of the catalogs, or a ready-made source of that name was given; ready-made sources win
over catalogs and later catalogs over earlier ones.  (Names that are found nowhere are left out without an
error.) -/
theorem c55_get_catalog_partial {α : Type} (known : String → Option (Cat α)) (l : List (Req α))
    (above : Option (Src α → Bool)) (catalogs : List String)
    (hk : ∀ nm c, known nm = some c → ∀ n s, get n c = some s → s.name = n) (n : String) :
    get n (getCatalog known (some l) above catalogs) =
      (lastNamed n (givenIn l)).or
        (if Req.name n ∈ l then
          catalogs.reverse.findSome? fun nm => (known nm).bind fun c => get n c
        else none) := by
  have hlast_append : ∀ (a b : List (Src α)), lastNamed n (a ++ b) = (lastNamed n b).or (lastNamed n a) := by
    intro a b
    induction a with
    | nil => simp [lastNamed]
    | cons s a ih =>
      rw [List.cons_append, lastNamed_cons, lastNamed_cons, ih]
      cases lastNamed n b with
      | some t => simp
      | none => simp
  have hone : ∀ (nm : String) (c : Cat α), known nm = some c →
      lastNamed n (catSrcs c (some l) above) = if Req.name n ∈ l then get n c else none := by
    intro nm c hc
    unfold catSrcs
    dsimp only
    have hnone : ∀ l' : List (Req α), Req.name n ∉ l' → lastNamed n (l'.filterMap (Req.found c)) = none := by
      intro l'
      induction l' with
      | nil => intro _; rfl
      | cons r l' ih =>
        intro h
        rw [List.mem_cons, not_or] at h
        cases r with
        | made s => rw [List.filterMap_cons]; exact ih h.2
        | name m =>
          rw [List.filterMap_cons]
          cases hg : Req.found c (Req.name m) with
          | none => exact ih h.2
          | some s =>
            have hsn : s.name = m := hk nm c hc m s hg
            have hmn : ¬ m = n := by intro h'; apply h.1; rw [h']
            dsimp only
            rw [lastNamed_cons, ih h.2, hsn, if_neg hmn]
            rfl
    have hsome : ∀ l' : List (Req α), Req.name n ∈ l' →
        lastNamed n (l'.filterMap (Req.found c)) = get n c := by
      intro l'
      induction l' with
      | nil => intro h; cases h
      | cons r l' ih =>
        intro h
        by_cases hin : Req.name n ∈ l'
        · have hi := ih hin
          rw [List.filterMap_cons]
          cases hg : Req.found c r with
          | none => exact hi
          | some s =>
            dsimp only
            rw [lastNamed_cons]
            rw [hi]
            cases hgn : get n c with
            | some t => rfl
            | none =>
              cases r with
              | made s' => cases hg
              | name m =>
                have hsn : s.name = m := hk nm c hc m s hg
                have hmn : ¬ m = n := by
                  intro h'
                  subst h'
                  change get m c = some s at hg
                  rw [hgn] at hg; cases hg
                rw [hsn, if_neg hmn]
                rfl
        · have hr : r = Req.name n := by
            rcases List.mem_cons.mp h with h' | h'
            · exact h'.symm
            · exact absurd h' hin
          subst hr
          rw [List.filterMap_cons]
          have hn0 := hnone l' hin
          cases hg : Req.found c (Req.name n) with
          | none =>
            dsimp only
            rw [hn0]
            exact hg.symm
          | some s =>
            have hsn : s.name = n := hk nm c hc n s hg
            dsimp only
            rw [lastNamed_cons]
            rw [hn0, if_pos hsn]
            exact hg.symm
    by_cases h : Req.name n ∈ l
    · rw [if_pos h]; exact hsome l h
    · rw [if_neg h]; exact hnone l h
  have hfound : lastNamed n (catalogs.flatMap fun nm => match known nm with
      | none => []
      | some c => catSrcs c (some l) above) =
      if Req.name n ∈ l then catalogs.reverse.findSome? fun nm => (known nm).bind fun c => get n c
      else none := by
    induction catalogs with
    | nil => simp [lastNamed]
    | cons nm cs ih =>
      rw [List.flatMap_cons, hlast_append, ih, List.reverse_cons, List.findSome?_append]
      cases hkn : known nm with
      | none =>
        by_cases h : Req.name n ∈ l
        · simp [h, hkn, lastNamed]
        · simp [h, lastNamed]
      | some c =>
        dsimp only
        rw [hone nm c hkn]
        by_cases h : Req.name n ∈ l
        · simp only [h, if_true]
          congr 1
          simp [hkn]
        · simp [h]
  unfold getCatalog
  dsimp only
  rw [get_addSrcs, hlast_append, hfound, madeOf_eq]
  simp [get]

theorem lastNamed_append {α : Type} (n : String) (a b : List (Src α)) :
    lastNamed n (a ++ b) = (lastNamed n b).or (lastNamed n a) := by
  induction a with
  | nil => simp [lastNamed]
  | cons s a ih =>
    rw [List.cons_append, lastNamed_cons, lastNamed_cons, ih]
    cases lastNamed n b with
    | some t => simp
    | none => simp

/-- If every entry of a list that has the name `n` is `s`, the last of them is `s`. -/
theorem lastNamed_all {α : Type} (n : String) (s : Src α) (hs : s.name = n) :
    ∀ l : List (Src α), (∀ t ∈ l, t.name = n → t = s) → s ∈ l → lastNamed n l = some s
  | [], _, h => by cases h
  | t :: l, hall, h => by
    rw [lastNamed_cons]
    by_cases hin : s ∈ l
    · rw [lastNamed_all n s hs l (fun u hu => hall u (List.mem_cons_of_mem _ hu)) hin]; rfl
    · have : s = t := (List.mem_cons.mp h).resolve_right hin
      subst this
      rw [if_pos hs]
      cases hl : lastNamed n l with
      | none => rfl
      | some u =>
        exfalso
        have hmem : ∀ l' : List (Src α), lastNamed n l' = some u → u ∈ l' ∧ u.name = n := by
          intro l'
          induction l' with
          | nil => intro h'; cases h'
          | cons v l' ih =>
            intro h'
            rw [lastNamed_cons] at h'
            cases h2 : lastNamed n l' with
            | some w =>
              rw [h2] at h'
              have : w = u := by simpa using h'
              subst this
              exact ⟨List.mem_cons_of_mem _ (ih h2).1, (ih h2).2⟩
            | none =>
              rw [h2] at h'
              by_cases hv : v.name = n
              · rw [if_pos hv] at h'
                have : v = u := by simpa using h'
                subst this
                exact ⟨List.mem_cons_self, hv⟩
              · rw [if_neg hv] at h'; cases h'
        obtain ⟨h1, h2⟩ := hmem l hl
        rw [hall u (List.mem_cons_of_mem _ h1) h2] at h1
        exact hin h1

theorem lastNamed_none {α : Type} (n : String) :
    ∀ l : List (Src α), (∀ t ∈ l, t.name ≠ n) → lastNamed n l = none
  | [], _ => rfl
  | t :: l, h => by
    rw [lastNamed_cons, lastNamed_none n l fun u hu => h u (List.mem_cons_of_mem _ hu),
      if_neg (h t List.mem_cons_self)]
    rfl

theorem get_mem {α : Type} (n : String) (s : Src α) :
    ∀ c : Cat α, get n c = some s → (n, s) ∈ c
  | [], h => by cases h
  | (k, t) :: c, h => by
    unfold get at h
    by_cases hk : k = n
    · rw [if_pos hk] at h
      have : t = s := by simpa using h
      subst this; subst hk
      exact List.mem_cons_self
    · rw [if_neg hk] at h
      exact List.mem_cons_of_mem _ (get_mem n s c h)

/-- **C55**, `get_catalog` without a list of sources: it returns every source of every catalog (above the
cutoff, if one is given), later catalogs overriding earlier ones. -/
theorem c55_whole_catalog {α : Type} (known : String → Option (Cat α))
    (above : Option (Src α → Bool)) (catalogs : List String)
    (hk : ∀ nm c, known nm = some c → ∀ n s, get n c = some s → s.name = n) (n : String) :
    get n (getCatalog known none above catalogs) =
      catalogs.reverse.findSome? fun nm => (known nm).bind fun c =>
        (get n c).filter fun s => above.all fun f => f s := by
  have hone : ∀ (nm : String) (c : Cat α), known nm = some c →
      lastNamed n (catSrcs c none above) = (get n c).filter fun s => above.all fun f => f s := by
    intro nm c hc
    have hmem : ∀ t, t ∈ catSrcs c none above ↔
        (∃ m, get m c = some t) ∧ (above.all fun f => f t) = true := by
      intro t
      have hbase : t ∈ (c.filterMap fun p => get p.1 c) ↔ ∃ m, get m c = some t := by
        rw [List.mem_filterMap]
        constructor
        · rintro ⟨p, _, hp⟩; exact ⟨p.1, hp⟩
        · rintro ⟨m, hm⟩; exact ⟨(m, t), get_mem m t c hm, hm⟩
      unfold catSrcs
      cases above with
      | none => simpa using hbase
      | some f =>
        dsimp only
        rw [List.mem_filter, hbase]
        rfl
    cases hg : get n c with
    | none =>
      apply lastNamed_none
      intro t ht hn
      obtain ⟨⟨m, hm⟩, _⟩ := (hmem t).mp ht
      have := hk nm c hc m t hm
      rw [← this, hn] at hm
      rw [hg] at hm; cases hm
    | some s =>
      have hs := hk nm c hc n s hg
      have hall : ∀ t ∈ catSrcs c none above, t.name = n → t = s := by
        intro t ht hn
        obtain ⟨⟨m, hm⟩, _⟩ := (hmem t).mp ht
        have := hk nm c hc m t hm
        rw [← this, hn, hg] at hm
        simpa using hm.symm
      by_cases ha : (above.all fun f => f s) = true
      · rw [lastNamed_all n s hs _ hall ((hmem s).mpr ⟨⟨n, hg⟩, ha⟩)]
        simp [Option.filter, ha]
      · rw [lastNamed_none]
        · simp [Option.filter, ha]
        · intro t ht hn
          rw [hall t ht hn] at ht
          exact ha ((hmem s).mp ht).2
  have hfound : lastNamed n (catalogs.flatMap fun nm => match known nm with
      | none => []
      | some c => catSrcs c none above) =
      catalogs.reverse.findSome? fun nm => (known nm).bind fun c =>
        (get n c).filter fun s => above.all fun f => f s := by
    induction catalogs with
    | nil => rfl
    | cons nm cs ih =>
      rw [List.flatMap_cons, lastNamed_append, ih, List.reverse_cons, List.findSome?_append]
      cases hkn : known nm with
      | none => simp [hkn, lastNamed]
      | some c =>
        dsimp only
        rw [hone nm c hkn]
        congr 1
        simp [hkn]
  unfold getCatalog
  dsimp only
  rw [get_addSrcs, List.append_nil, hfound]
  simp [get]

/-- **C55 is false for unknown names**: `get_catalog` leaves them out instead of raising. -/
theorem c55_unknown_violated :
    ∃ (known : String → Option (Cat Nat)) (n : String),
      get n (getCatalog known (some [.name n]) none ["a"]) = none ∧
      getCatalog known (some [.name n]) none ["a"] = [] :=
  ⟨fun _ => some [("x", ⟨"x", 1⟩)], "nowhere", by decide⟩

example : getSrcs [("x", (⟨"x", 1⟩ : Src Nat)), ("y", ⟨"y", 2⟩)] (.args ["y", "x", "y"]) =
    .srcs [⟨"y", 2⟩, ⟨"x", 1⟩, ⟨"y", 2⟩] := by rfl

/-- A cutoff. -/
example :
    let known := fun nm : String => if nm = "a" then some [("x", (⟨"x", 1⟩ : Src Nat)), ("y", ⟨"y", 2⟩)]
      else none
    let cat := getCatalog known none (some fun s => decide (1 < s.body)) ["a"]
    ((get "y" cat).map (·.body), (get "x" cat).map (·.body)) = (some 2, none) := by decide

/-- A request with a name from the second catalog, an unknown name and a ready-made source that overrides a
catalog entry. -/
example :
    let known := fun nm : String => if nm = "a" then some [("x", ⟨"x", 1⟩), ("y", ⟨"y", 2⟩)]
      else if nm = "b" then some [("y", ⟨"y", 20⟩)] else none
    let cat := getCatalog (α := Nat) known (some [.name "y", .name "nowhere", .made ⟨"x", 100⟩]) none
      ["a", "missing", "b"]
    ((get "y" cat).map (·.body), (get "x" cat).map (·.body), (get "nowhere" cat).map (·.body)) =
      (some 20, some 100, none) := by decide

end Verif.Misc
