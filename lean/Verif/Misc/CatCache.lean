import Verif.Misc.CatFiles
/-!
# Catalogs are read once (C106)

`get_srcs` of the modules of `/repo/aipy/_src` keeps the catalog in a variable of the module, and `/repo/aipy/src.py` `get_catalog`
calls them one after the other.  The state is what these variables hold.  The sources that are handed out are the objects in the
catalogs, so that what a user does to them is done to the catalogs.

Simplified: `update_jys` of the sources, which `cutoff` calls, changes no argument of their constructor.
-/
namespace Verif.Misc.CatCache
open Verif.Misc

variable {α : Type}

/-! ## Model -/

/-- a module of `_src`: the catalog it begins with, its files in the order they are read (six_c.py 40-41 has six, misc.py none), and
`fromfile`, whose exceptions are `none`; `fromfile` adds sources at its end, so that none are added when it raises -/
structure Mod (α : Type) where
  base : Cat α
  files : List String
  read : Cat α → List Char → Option (Cat α)

/-- the files there are -/
abbrev World := String → Option (List Char)

/-- the loop over the files; the catalog as far as it has come, and whether it has come to the end -/
def load (read : Cat α → List Char → Option (Cat α)) (w : World) (c : Cat α) : List String → Cat α × Bool
  | [] => (c, true)
  | f :: fs =>
    match (w f).bind (read c) with
    | none => (c, false)
    | some c' => load read w c' fs

/-- `get_srcs(srcs, cutoff)` of a module, e.g. three_c.py 41-57: the variable of the module is set before the file is read -/
def modSrcs (m : Mod α) (w : World) (var : Option (Cat α)) (srcs : Option (List (Req α))) (above : Option (Src α → Bool)) :
    Option (Cat α) × Option (List (Src α)) :=
  match var with
  | some c => (some c, some (catSrcs c srcs above))
  | none =>
    match load m.read w m.base m.files with
    | (c, true) => (some c, some (catSrcs c srcs above))
    | (c, false) => (some c, none)

/-- the variables of the modules -/
abbrev Vars (α : Type) := String → Option (Cat α)

/-- the loop of `get_catalog`, src.py 14-21: catalogs there are not are passed over, an exception of a module ends it -/
def catLoop (mods : String → Option (Mod α)) (w : World) (srcs : Option (List (Req α))) (above : Option (Src α → Bool)) (v : Vars α) :
    List String → Vars α × Option (List (Src α))
  | [] => (v, some [])
  | nm :: nms =>
    match mods nm with
    | none => catLoop mods w srcs above v nms
    | some m =>
      match modSrcs m w (v nm) srcs above with
      | (var, none) => (Function.update v nm var, none)
      | (var, some l) =>
        match catLoop mods w srcs above (Function.update v nm var) nms with
        | (v', none) => (v', none)
        | (v', some l') => (v', some (l ++ l'))

/-- a call of `get_catalog`, src.py 9-25 -/
structure Ask (α : Type) where
  srcs : Option (List (Req α))
  above : Option (Src α → Bool)
  catalogs : List String

/-- `get_catalog`, src.py 9-25; `none` is an exception -/
def getCat (mods : String → Option (Mod α)) (w : World) (v : Vars α) (q : Ask α) : Vars α × Option (Cat α) :=
  match catLoop mods w q.srcs q.above v q.catalogs with
  | (v', none) => (v', none)
  | (v', some l) => (v', some (addSrcs [] (l ++ match q.srcs with
    | none => []
    | some r => madeOf r)))

/-- a user changes the source `n` of catalog `nm`, e.g. with `set_params` -/
def edit (v : Vars α) (nm n : String) (f : α → α) : Vars α :=
  Function.update v nm ((v nm).map fun c => c.map fun p => if p.1 = n then (p.1, ⟨p.2.name, f p.2.body⟩) else p)

/-- calls one after the other, with the files there are at each -/
def calls (mods : String → Option (Mod α)) (v : Vars α) : List (World × Ask α) → Vars α × List (Option (Cat α))
  | [] => (v, [])
  | (w, q) :: qs =>
    let r := getCat mods w v q
    let rest := calls mods r.1 qs
    (rest.1, r.2 :: rest.2)

/-! ## Specification -/

/-- the catalog of a module as its files have it -/
def Has (m : Mod α) (w : World) (c : Cat α) : Prop := m.files.foldlM (fun c f => (w f).bind (m.read c)) m.base = some c

/-- `known` are the catalogs of the files of a world: those of the modules there are, and all of them can be read -/
def AllHave (mods : String → Option (Mod α)) (w : World) (known : String → Option (Cat α)) : Prop :=
  ∀ nm, (mods nm = none ∧ known nm = none) ∨ ∃ m c, mods nm = some m ∧ known nm = some c ∧ Has m w c

/-! ## Lemmas -/

theorem load_has {m : Mod α} {w : World} {c : Cat α} (h : Has m w c) : load m.read w m.base m.files = (c, true) := by
  unfold Has at h
  generalize m.base = b at h
  generalize m.files = fs at h
  induction fs generalizing b with
  | nil =>
    obtain rfl := Option.some.inj h
    rfl
  | cons f fs ih =>
    rw [List.foldlM_cons] at h
    unfold load
    cases hb : (w f).bind (m.read b) with
    | none => rw [hb] at h; cases h
    | some c' =>
      rw [hb] at h
      exact ih c' h

/-- the variables hold nothing that is not in the files -/
def Good (mods : String → Option (Mod α)) (known : String → Option (Cat α)) (v : Vars α) : Prop :=
  ∀ nm, (mods nm).isSome → v nm = none ∨ v nm = known nm

theorem loop_good {mods : String → Option (Mod α)} {w : World} {known : String → Option (Cat α)} (hw : AllHave mods w known)
    (srcs : Option (List (Req α))) (above : Option (Src α → Bool)) : ∀ (nms : List String) {v : Vars α}, Good mods known v →
    ∃ v', catLoop mods w srcs above v nms = (v', some (nms.flatMap fun nm => match known nm with
      | none => []
      | some c => catSrcs c srcs above)) ∧ Good mods known v' := by
  intro nms
  induction nms with
  | nil => intro v hv; exact ⟨v, rfl, hv⟩
  | cons nm nms ih =>
    intro v hv
    rcases hw nm with ⟨h1, h2⟩ | ⟨m, c, h1, h2, h3⟩
    · obtain ⟨v', e1, e2⟩ := ih hv
      refine ⟨v', ?_, e2⟩
      rw [catLoop, h1]
      simp only [List.flatMap_cons, h2, List.nil_append]
      exact e1
    · have hm : modSrcs m w (v nm) srcs above = (some c, some (catSrcs c srcs above)) := by
        unfold modSrcs
        rcases hv nm (by rw [h1]; rfl) with e | e
        · rw [e]
          simp only
          rw [load_has h3]
        · rw [e, h2]
      have hv' : Good mods known (Function.update v nm (some c)) := by
        intro nm' hs
        by_cases he : nm' = nm
        · subst he
          right
          rw [Function.update_self, h2]
        · rw [Function.update_of_ne he]
          exact hv nm' hs
      obtain ⟨v', e1, e2⟩ := ih hv'
      refine ⟨v', ?_, e2⟩
      rw [catLoop, h1]
      simp only
      rw [hm]
      simp only
      rw [e1]
      simp only [List.flatMap_cons, h2]

theorem getCat_good {mods : String → Option (Mod α)} {w : World} {known : String → Option (Cat α)} (hw : AllHave mods w known)
    (q : Ask α) {v : Vars α} (hv : Good mods known v) :
    ∃ v', getCat mods w v q = (v', some (getCatalog known q.srcs q.above q.catalogs)) ∧ Good mods known v' := by
  obtain ⟨v', e1, e2⟩ := loop_good hw q.srcs q.above q.catalogs hv
  refine ⟨v', ?_, e2⟩
  unfold getCat
  rw [e1]
  rfl

/-! ## C106 -/

/-- **C106**: while the files of all catalogs can be read and users leave the sources as they are, every call of `get_catalog` in any
sequence of calls gives what the files have, however often and in whichever order catalogs were asked for before. -/
theorem c106_calls_partial {mods : String → Option (Mod α)} {w : World} {known : String → Option (Cat α)} (hw : AllHave mods w known)
    (qs : List (Ask α)) : (calls mods (fun _ => none) (qs.map fun q => (w, q))).2 =
      qs.map fun q => some (getCatalog known q.srcs q.above q.catalogs) := by
  have key : ∀ (qs : List (Ask α)) {v : Vars α}, Good mods known v → (calls mods v (qs.map fun q => (w, q))).2 =
      qs.map fun q => some (getCatalog known q.srcs q.above q.catalogs) := by
    intro qs
    induction qs with
    | nil => intro v _; rfl
    | cons q qs ih =>
      intro v hv
      obtain ⟨v', e1, e2⟩ := getCat_good hw q hv
      show (getCat mods w v q).2 :: (calls mods (getCat mods w v q).1 (qs.map fun q => (w, q))).2 = _
      rw [e1]
      simp only [List.map_cons]
      rw [ih e2]
  exact key qs fun nm _ => .inl rfl

theorem loop_fail {mods : String → Option (Mod α)} {nm : String} {m : Mod α} (hm : mods nm = some m) {w : World}
    {c : Cat α} (hl : load m.read w m.base m.files = (c, false)) {v : Vars α} (hv : v nm = none) (q : Ask α) (hq : q.catalogs = [nm]) :
    getCat mods w v q = (Function.update v nm (some c), none) := by
  unfold getCat
  rw [hq, catLoop, hm]
  simp only
  have : modSrcs m w (v nm) q.srcs q.above = (some c, none) := by
    unfold modSrcs
    rw [hv]
    simp only
    rw [hl]
  rw [this]

/-- **C106, disagreement**: when the file of a catalog is missing or has an error, the first call raises, but every call after it
gives an empty catalog, whatever is asked for and even if the file is there by then. -/
theorem c106_missing_violated {mods : String → Option (Mod α)} {nm : String} {m : Mod α} (hm : mods nm = some m) (hb : m.base = [])
    {f : String} {fs : List String} (hf : m.files = f :: fs) {w : World} (hw : (w f).bind (m.read []) = none)
    {q : Ask α} (hq : q.catalogs = [nm]) (qs : List (World × Ask α))
    (hqs : ∀ p ∈ qs, p.2.catalogs = [nm] ∧ ∀ r, p.2.srcs = some r → ∀ s, Req.made s ∉ r) :
    (calls mods (fun _ => none) ((w, q) :: qs)).2 = none :: qs.map fun _ => some [] := by
  have hl : load m.read w m.base m.files = ([], false) := by
    rw [hb, hf, load, hw]
  have key : ∀ (qs : List (World × Ask α)) {v : Vars α}, v nm = some [] →
      (∀ p ∈ qs, p.2.catalogs = [nm] ∧ ∀ r, p.2.srcs = some r → ∀ s, Req.made s ∉ r) → (calls mods v qs).2 = qs.map fun _ => some [] := by
    intro qs
    induction qs with
    | nil => intro v _ _; rfl
    | cons p qs ih =>
      intro v hv h
      obtain ⟨w', q'⟩ := p
      obtain ⟨h1, h2⟩ := h (w', q') (by simp)
      have e : getCat mods w' v q' = (Function.update v nm (some []), some []) := by
        have hms : modSrcs m w' (v nm) q'.srcs q'.above = (some [], some []) := by
          unfold modSrcs
          rw [hv]
          simp only
          congr 2
          unfold catSrcs
          cases hs : q'.srcs with
          | none => cases q'.above <;> rfl
          | some r =>
            simp only
            rw [List.filterMap_eq_nil_iff]
            intro a ha
            cases a <;> rfl
        unfold getCat
        simp only at h1 h2
        rw [h1, catLoop, hm]
        simp only
        rw [hms]
        simp only [catLoop, List.append_nil]
        congr 2
        cases hs : q'.srcs with
        | none => rfl
        | some r =>
          simp only
          have : madeOf r = [] := by
            rw [madeOf_eq]
            unfold givenIn
            rw [List.filterMap_eq_nil_iff]
            intro a ha
            cases a with
            | name n => rfl
            | made s => exact absurd ha (h2 r hs s)
          rw [this]
          rfl
      show (getCat mods w' v q').2 :: (calls mods (getCat mods w' v q').1 qs).2 = _
      rw [e]
      simp only [List.map_cons]
      rw [ih (by rw [Function.update_self]) fun p hp => h p (by simp [hp])]
  show (getCat mods w _ q).2 :: (calls mods (getCat mods w _ q).1 qs).2 = _
  rw [loop_fail hm hl rfl q hq]
  simp only
  rw [key qs (by rw [Function.update_self]) hqs]

theorem get_edit (n : String) (f : α → α) : ∀ c : Cat α,
    get n (c.map fun p => if p.1 = n then (p.1, ⟨p.2.name, f p.2.body⟩) else p) = (get n c).map fun s => ⟨s.name, f s.body⟩
  | [] => rfl
  | (m, t) :: rest => by
    rw [List.map_cons]
    by_cases h : m = n
    · simp [get, h]
    · simp only [h, if_false]
      rw [get, if_neg h, get, if_neg h]
      exact get_edit n f rest

/-- **C106, disagreement**: what a user does to a source of a catalog is there in every later catalog with it. -/
theorem c106_shared_violated {mods : String → Option (Mod α)} {w : World} {nm : String} {m : Mod α} (hm : mods nm = some m) {c : Cat α}
    (hc : Has m w c) {n : String} {s : Src α} (hs : get n c = some s) (hn : s.name = n) (f : α → α) (above : Option (Src α → Bool)) :
    ∃ v r1 v2 r2, getCat mods w (fun _ => none) ⟨some [.name n], above, [nm]⟩ = (v, some r1) ∧ get n r1 = some s ∧
      getCat mods w (edit v nm n f) ⟨some [.name n], above, [nm]⟩ = (v2, some r2) ∧ get n r2 = some ⟨n, f s.body⟩ := by
  have one : ∀ (v : Vars α) (c' : Cat α) (t : Src α), modSrcs m w (v nm) (some [.name n]) above = (some c', some [t]) → t.name = n →
      ∃ r, getCat mods w v ⟨some [.name n], above, [nm]⟩ = (Function.update v nm (some c'), some r) ∧ get n r = some t := by
    intro v c' t h ht
    refine ⟨addSrcs [] [t], ?_, ?_⟩
    · unfold getCat
      simp only [catLoop, hm]
      rw [h]
      rfl
    · rw [get_addSrcs]
      simp [lastNamed, ht]
  have h1 : modSrcs m w none (some [.name n]) above = (some c, some [s]) := by
    unfold modSrcs
    simp only
    rw [load_has hc]
    simp [catSrcs, Req.found, hs]
  obtain ⟨r1, e1, e2⟩ := one (fun _ => none) c s h1 hn
  have h2 : modSrcs m w (edit (Function.update (fun _ => none) nm (some c)) nm n f nm) (some [.name n]) above =
      (some (c.map fun p => if p.1 = n then (p.1, ⟨p.2.name, f p.2.body⟩) else p), some [⟨n, f s.body⟩]) := by
    unfold edit modSrcs
    rw [Function.update_self, Function.update_self]
    simp only [Option.map_some, catSrcs, List.filterMap_cons, List.filterMap_nil, Req.found, get_edit, hs, hn]
  obtain ⟨r2, e3, e4⟩ := one (edit (Function.update (fun _ => none) nm (some c)) nm n f) _ ⟨n, f s.body⟩ h2 rfl
  exact ⟨_, r1, _, r2, e1, e2, e3, e4⟩

/-! ## The theorems on concrete catalogs -/

open CatFiles

/-- 4C from its file, and a catalog without files -/
def demoMods : String → Option (Mod (Body ℚ))
  | "four_c" => some ⟨[], ["4c.txt"], vizFile demoFloat .fourC⟩
  | "misc" => some ⟨[("crab", demoSrc "crab" 1838)], [], fun c _ => some c⟩
  | _ => none

/-- the file of 4C -/
def demoWorld : World := fun f => if f = "4c.txt" then some (fileText demoLines) else none

def demoKnown : String → Option (Cat (Body ℚ))
  | "four_c" => some [("4C 1", demoSrc "4C 1" 12), ("4C 2", demoSrc "4C 2" 7)]
  | "misc" => some [("crab", demoSrc "crab" 1838)]
  | _ => none

theorem demo_has : Has (⟨[], ["4c.txt"], vizFile demoFloat .fourC⟩ : Mod (Body ℚ)) demoWorld [("4C 1", demoSrc "4C 1" 12), ("4C 2", demoSrc "4C 2" 7)] := by
  unfold Has
  have := c105_all_partial demo_nl demo_ok demo_entries (by simp [demoSrc])
  simp [demoWorld, this, demoSrc]

theorem demo_all : AllHave demoMods demoWorld demoKnown := by
  intro nm
  by_cases h1 : nm = "four_c"
  · subst h1
    exact .inr ⟨_, _, rfl, rfl, demo_has⟩
  by_cases h2 : nm = "misc"
  · subst h2
    exact .inr ⟨_, _, rfl, rfl, rfl⟩
  · left
    simp [demoMods, demoKnown]

example : (calls demoMods (fun _ => none) ([⟨some [.name "4C 2"], none, ["four_c", "misc"]⟩, ⟨none, none, ["four_c"]⟩].map fun q => (demoWorld, q))).2 =
    [some (getCatalog demoKnown (some [.name "4C 2"]) none ["four_c", "misc"]), some (getCatalog demoKnown none none ["four_c"])] :=
  c106_calls_partial demo_all _

/-- no file at the first call -/
example : (calls demoMods (fun _ => none) [(fun _ => none, ⟨none, none, ["four_c"]⟩), (demoWorld, ⟨some [.name "4C 1"], none, ["four_c"]⟩)]).2 =
    [none, some []] :=
  c106_missing_violated (mods := demoMods) (nm := "four_c") rfl rfl rfl rfl rfl [(demoWorld, ⟨some [.name "4C 1"], none, ["four_c"]⟩)] (by simp)

example : ∃ v r1 v2 r2, getCat demoMods demoWorld (fun _ => none) ⟨some [.name "4C 1"], none, ["four_c"]⟩ = (v, some r1) ∧
    get "4C 1" r1 = some (demoSrc "4C 1" 12) ∧
    getCat demoMods demoWorld (edit v "four_c" "4C 1" fun b => { b with jys := 0 }) ⟨some [.name "4C 1"], none, ["four_c"]⟩ = (v2, some r2) ∧
    get "4C 1" r2 = some (demoSrc "4C 1" 0) :=
  c106_shared_violated (mods := demoMods) (nm := "four_c") (n := "4C 1") (s := demoSrc "4C 1" 12) rfl demo_has rfl rfl (fun b => { b with jys := 0 }) none

end Verif.Misc.CatCache
