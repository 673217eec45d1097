import Verif.Misc.Catalog
import Mathlib.Analysis.SpecialFunctions.Pow.Real
import Mathlib.Analysis.SpecialFunctions.Log.Base
/-!
# Property C74 : catalogs, their source objects and their fluxes

`aipy/src.py` 10-26 (`get_catalog`), the `get_srcs` functions of `aipy/_src/*.py` (all alike; `misc.py` 37-65,
`helm.py` 113-130), `aipy/amp.py` 21-36 (`RadioBody`) and `helm.py` 13-22 (`HelmboldtFixedBody.update_jys`).

`C55` looks at one call of `get_catalog` with the catalogs as values.  Here the source objects live on a heap: the
modules of `aipy._src` keep the catalog they made at their first use in a global variable and hand out its objects,
and a call with a cutoff recomputes the attribute `jys` of every object it looks at.

`S` stands for the parameters of a source that determine its spectrum, `F` for frequencies and `V` for fluxes;
`flux` is the formula of the class of the source.
-/

namespace Verif.Misc

set_option linter.unusedSectionVars false
variable {S F V : Type}

/-- A source object: the parameters that determine its spectrum, and the attribute `jys` (missing at first). -/
structure Body (S V : Type) where
  spec : S
  jys : Option (List V)

/-- The process: all source objects (a reference is the number of an object) and the global variables of the modules of
`aipy._src`; a module not listed has not been used (`_misccat is None`). -/
structure Proc (S V : Type) where
  heap : List (Body S V)
  mods : List (String × Cat Nat)

/-- The objects made for a table of sources, numbered from `base` on. -/
def number (base : Nat) : List (Src S) → List (Src Nat)
  | [] => []
  | s :: l => ⟨s.name, base⟩ :: number (base + 1) l

/-- `update_jys(afreqs)` on one object, `amp.py` 29-33. -/
def updateJys (flux : S → F → V) (fs : List F) (b : Body S V) : Body S V := { b with jys := some (fs.map (flux b.spec)) }

/-- The first lines of `get_srcs`: the catalog of module `m`, made if it has not been made; `tbl` are the tables (or
files) of the modules.  `none`: there is no such module.  `_src/misc.py` 37-52. -/
def loadMod (tbl : String → Option (List (Src S))) (p : Proc S V) (m : String) : Option (Proc S V × Cat Nat) :=
  match tbl m with
  | none => none
  | some l => match p.mods.lookup m with
    | some c => some (p, c)
    | none =>
      let c := addSrcs [] (number p.heap.length l)
      some (⟨p.heap ++ l.map (fun s => ⟨s.body, none⟩), (m, c) :: p.mods⟩, c)

/-- `for s in cat.keys(): cat[s].update_jys(fq)`. -/
def updateAll (flux : S → F → V) (fs : List F) (refs : List Nat) (heap : List (Body S V)) : List (Body S V) :=
  refs.foldl (fun h r => h.modify r (updateJys flux fs)) heap

/-- The objects of a catalog, found through its keys. -/
def refsOf (c : Cat Nat) : List Nat := (c.filterMap fun p => get p.1 c).map (·.body)

/-- `cat[s].jys[0] > cut`. -/
def isAbove [LT V] [DecidableLT V] (heap : List (Body S V)) (cut : V) (x : Src Nat) : Bool :=
  match heap[x.body]? with
  | some b => match b.jys with
    | some (v :: _) => decide (cut < v)
    | _ => false
  | none => false

/-- `get_srcs(srcs, cutoff)` of one module once its catalog is there, `_src/misc.py` 53-65. -/
def modSrcs [LT V] [DecidableLT V] (flux : S → F → V) (p : Proc S V) (c : Cat Nat) (srcs : Option (List (Req Nat)))
    (cutoff : Option (V × F)) : Proc S V × List (Src Nat) :=
  match srcs with
  | some l => (p, catSrcs c (some l) none)
  | none => match cutoff with
    | none => (p, catSrcs c none none)
    | some (cut, fq) =>
      let heap := updateAll flux [fq] (refsOf c) p.heap
      ({ p with heap := heap }, catSrcs c none (some (isAbove heap cut)))

/-- The loop over the catalogs, `src.py` 14-21. -/
def gather [LT V] [DecidableLT V] (tbl : String → Option (List (Src S))) (flux : S → F → V)
    (srcs : Option (List (Req Nat))) (cutoff : Option (V × F)) :
    Proc S V → List String → Proc S V × List (Src Nat)
  | p, [] => (p, [])
  | p, m :: ms => match loadMod tbl p m with
    | none => gather tbl flux srcs cutoff p ms
    | some (p, c) =>
      let r := modSrcs flux p c srcs cutoff
      let r' := gather tbl flux srcs cutoff r.1 ms
      (r'.1, r.2 ++ r'.2)

/-- `get_catalog(srcs, cutoff, catalogs)`, `src.py` 10-26. -/
def fetch [LT V] [DecidableLT V] (tbl : String → Option (List (Src S))) (flux : S → F → V) (p : Proc S V)
    (srcs : Option (List (Req Nat))) (cutoff : Option (V × F)) (cats : List String) : Proc S V × Cat Nat :=
  let r := gather tbl flux srcs cutoff p cats
  (r.1, addSrcs [] (r.2 ++ match srcs with
    | none => []
    | some l => madeOf l))

/-- What a program does with catalogs: make a source of its own, get a catalog, change the parameters of an object
(`set_params`), have its fluxes computed (`compute`, `update_jys`). -/
inductive Use (S F V : Type)
  | make (sp : S)
  | fetch (srcs : Option (List (Req Nat))) (cutoff : Option (V × F)) (cats : List String)
  | edit (r : Nat) (sp : S)
  | compute (r : Nat) (fs : List F)

def useStep [LT V] [DecidableLT V] (tbl : String → Option (List (Src S))) (flux : S → F → V) (p : Proc S V) :
    Use S F V → Proc S V
  | .make sp => { p with heap := p.heap ++ [⟨sp, none⟩] }
  | .fetch srcs cutoff cats => (fetch tbl flux p srcs cutoff cats).1
  | .edit r sp => { p with heap := p.heap.modify r (fun b => { b with spec := sp }) }
  | .compute r fs => { p with heap := p.heap.modify r (updateJys flux fs) }

def useRun [LT V] [DecidableLT V] (tbl : String → Option (List (Src S))) (flux : S → F → V) (p : Proc S V)
    (us : List (Use S F V)) : Proc S V := us.foldl (useStep tbl flux) p

/-- A process that has not used any catalog. -/
def Proc.fresh : Proc S V := ⟨[], []⟩

/-- The parameters of the source that a catalog holds under a name. -/
def specIn (p : Proc S V) (c : Cat Nat) (n : String) : Option S :=
  (get n c).bind fun x => p.heap[x.body]?.map (·.spec)

/-! ## Helper lemmas -/

section
variable [LT V] [DecidableLT V] (tbl : String → Option (List (Src S))) (flux : S → F → V)

/-- `q` comes later than `p`: objects stay, parameters of objects stay, loaded catalogs stay. -/
structure Later (p q : Proc S V) : Prop where
  len : p.heap.length ≤ q.heap.length
  mods : ∀ m c, p.mods.lookup m = some c → q.mods.lookup m = some c

/-- and the parameters of existing objects are the same -/
def SameSpec (p q : Proc S V) : Prop :=
  ∀ (r : Nat) (b : Body S V), p.heap[r]? = some b → q.heap[r]?.map (·.spec) = some b.spec

theorem Later.refl (p : Proc S V) : Later p p := ⟨Nat.le_refl _, fun _ _ h => h⟩
theorem Later.trans {p q r : Proc S V} (a : Later p q) (b : Later q r) : Later p r :=
  ⟨Nat.le_trans a.len b.len, fun m c h => b.mods m c (a.mods m c h)⟩
theorem SameSpec.refl (p : Proc S V) : SameSpec p p := fun _ _ h => by rw [h]; rfl
theorem SameSpec.trans {p q r : Proc S V} (a : SameSpec p q) (b : SameSpec q r) : SameSpec p r := by
  intro i x h
  have h1 := a i x h
  cases hq : q.heap[i]? with
  | none => rw [hq] at h1; cases h1
  | some y =>
    rw [hq] at h1
    have := b i y hq
    rw [this]
    simpa using h1

theorem updateAll_length (fs : List F) (refs : List Nat) (h : List (Body S V)) :
    (updateAll flux fs refs h).length = h.length := by
  unfold updateAll
  induction refs generalizing h with
  | nil => rfl
  | cons r refs ih => rw [List.foldl_cons, ih, List.length_modify]

theorem updateAll_at (fs : List F) (refs : List Nat) (h : List (Body S V)) (r : Nat) :
    (updateAll flux fs refs h)[r]? = if r ∈ refs then h[r]?.map (updateJys flux fs) else h[r]? := by
  unfold updateAll
  induction refs generalizing h with
  | nil => simp
  | cons a refs ih =>
    rw [List.foldl_cons, ih, List.getElem?_modify]
    by_cases ha : a = r
    · subst ha
      by_cases hr : a ∈ refs
      · cases h[a]? <;> simp [hr, updateJys]
      · simp [hr]
    · have ha' : ¬ r = a := fun e => ha e.symm
      by_cases hr : r ∈ refs <;> simp [hr, ha, ha']

theorem number_length (base : Nat) (l : List (Src S)) : (number base l).length = l.length := by
  induction l generalizing base with
  | nil => rfl
  | cons s l ih => simp [number, ih]

/-- the last source of a name in a table and the object made for it -/
theorem lastNamed_number (n : String) (base : Nat) (l : List (Src S)) :
    (lastNamed n l = none ∧ lastNamed n (number base l) = none) ∨
    ∃ k s, l[k]? = some s ∧ s.name = n ∧ lastNamed n l = some s ∧
      lastNamed n (number base l) = some ⟨n, base + k⟩ := by
  induction l generalizing base with
  | nil => exact Or.inl ⟨rfl, rfl⟩
  | cons a l ih =>
    show _ ∨ ∃ k s, _ ∧ _ ∧ _ ∧ lastNamed n (⟨a.name, base⟩ :: number (base + 1) l) = _
    have hn : lastNamed n (number base (a :: l)) =
      lastNamed n (⟨a.name, base⟩ :: number (base + 1) l) := rfl
    rw [hn, lastNamed_cons, lastNamed_cons]
    rcases ih (base + 1) with ⟨h1, h2⟩ | ⟨k, s, h1, h2, h3, h4⟩
    · rw [h1, h2]
      by_cases he : a.name = n
      · right
        refine ⟨0, a, rfl, he, ?_, ?_⟩
        · simp [he]
        · simp [he]
      · left; simp [he]
    · right
      refine ⟨k + 1, s, by simpa using h1, h2, by rw [h3]; rfl, ?_⟩
      rw [h4]
      show some _ = _
      rw [show base + 1 + k = base + (k + 1) by omega]

theorem get_number (n : String) (base : Nat) (l : List (Src S)) :
    get n (addSrcs [] (number base l)) = lastNamed n (number base l) := by
  rw [get_addSrcs]; simp [get]

/-- what is true of the loaded catalogs at any time -/
structure ModsOk (p : Proc S V) : Prop where
  made : ∀ m c, p.mods.lookup m = some c → ∃ l base, tbl m = some l ∧ c = addSrcs [] (number base l) ∧
    base + l.length ≤ p.heap.length

/-- ... as long as no object of theirs has been changed -/
def Pristine (p : Proc S V) : Prop :=
  ∀ m c, p.mods.lookup m = some c → ∃ l, tbl m = some l ∧
    ∀ n, specIn p c n = (lastNamed n l).map (·.body)

theorem loadMod_spec (p q : Proc S V) (m : String) (c : Cat Nat) (ok : ModsOk tbl p)
    (h : loadMod tbl p m = some (q, c)) :
    ModsOk tbl q ∧ Later p q ∧ (∀ r, r < p.heap.length → q.heap[r]? = p.heap[r]?) ∧ q.mods.lookup m = some c := by
  unfold loadMod at h
  cases ht : tbl m with
  | none => rw [ht] at h; cases h
  | some l =>
    rw [ht] at h
    simp only at h
    cases hl : p.mods.lookup m with
    | some c' =>
      rw [hl] at h
      simp only [Option.some.injEq, Prod.mk.injEq] at h
      obtain ⟨rfl, rfl⟩ := h
      exact ⟨ok, Later.refl _, fun _ _ => rfl, hl⟩
    | none =>
      rw [hl] at h
      simp only [Option.some.injEq, Prod.mk.injEq] at h
      obtain ⟨rfl, rfl⟩ := h
      have hmods : ∀ m' c', p.mods.lookup m' = some c' →
          ((m, addSrcs [] (number p.heap.length l)) :: p.mods).lookup m' = some c' := by
        intro m' c' h
        rw [List.lookup_cons]
        by_cases e : m' = m
        · subst e; rw [hl] at h; cases h
        · rw [beq_false_of_ne e]; exact h
      refine ⟨⟨?_⟩, ⟨by simp, hmods⟩, ?_, by simp⟩
      · intro m' c' h
        dsimp only at h
        rw [List.lookup_cons] at h
        by_cases e : m' = m
        · subst e
          simp only [BEq.rfl, Option.some.injEq] at h
          subst h
          exact ⟨l, _, ht, rfl, by simp⟩
        · rw [beq_false_of_ne e] at h
          obtain ⟨l', base, h1, h2, h3⟩ := ok.made m' c' h
          refine ⟨l', base, h1, h2, ?_⟩
          simp only [List.length_append, List.length_map]
          omega
      · intro r hr
        exact List.getElem?_append_left hr

theorem ModsOk.mono {p q : Proc S V} (ok : ModsOk tbl p) (hm : q.mods = p.mods)
    (hl : p.heap.length ≤ q.heap.length) : ModsOk tbl q := by
  refine ⟨fun m c h => ?_⟩
  rw [hm] at h
  obtain ⟨l, base, h1, h2, h3⟩ := ok.made m c h
  exact ⟨l, base, h1, h2, by omega⟩

theorem modSrcs_spec (p : Proc S V) (c : Cat Nat) (srcs : Option (List (Req Nat))) (cutoff : Option (V × F)) :
    (modSrcs flux p c srcs cutoff).1.mods = p.mods ∧
    (modSrcs flux p c srcs cutoff).1.heap.length = p.heap.length ∧
    SameSpec p (modSrcs flux p c srcs cutoff).1 := by
  unfold modSrcs
  cases srcs with
  | some l => exact ⟨rfl, rfl, SameSpec.refl _⟩
  | none =>
    cases cutoff with
    | none => exact ⟨rfl, rfl, SameSpec.refl _⟩
    | some cf =>
      refine ⟨rfl, updateAll_length _ _ _ _, ?_⟩
      intro r b hb
      show (updateAll flux [cf.2] (refsOf c) p.heap)[r]?.map (·.spec) = _
      rw [updateAll_at, hb]
      by_cases hr : r ∈ refsOf c <;> simp [hr, updateJys]

theorem gather_spec (srcs : Option (List (Req Nat))) (cutoff : Option (V × F)) (cats : List String) :
    ∀ p : Proc S V, ModsOk tbl p →
      ModsOk tbl (gather tbl flux srcs cutoff p cats).1 ∧ Later p (gather tbl flux srcs cutoff p cats).1 ∧
      SameSpec p (gather tbl flux srcs cutoff p cats).1 ∧
      (∀ m ∈ cats, tbl m ≠ none → ∃ c, (gather tbl flux srcs cutoff p cats).1.mods.lookup m = some c) := by
  induction cats with
  | nil => intro p ok; exact ⟨ok, Later.refl _, SameSpec.refl _, by simp⟩
  | cons m ms ih =>
    intro p ok
    cases h : loadMod tbl p m with
    | none =>
      have e : gather tbl flux srcs cutoff p (m :: ms) = gather tbl flux srcs cutoff p ms := by
        rw [gather, h]
      rw [e]
      obtain ⟨a, b, c, d⟩ := ih p ok
      refine ⟨a, b, c, ?_⟩
      intro m' hm' hne
      rcases List.mem_cons.1 hm' with rfl | hm'
      · exfalso
        unfold loadMod at h
        cases ht : tbl m' with
        | none => exact hne ht
        | some l =>
          rw [ht] at h
          simp only at h
          cases hl : p.mods.lookup m' <;> rw [hl] at h <;> cases h
      · exact d m' hm' hne
    | some qc =>
      obtain ⟨q, c⟩ := qc
      have e : (gather tbl flux srcs cutoff p (m :: ms)).1 =
          (gather tbl flux srcs cutoff (modSrcs flux q c srcs cutoff).1 ms).1 := by
        rw [gather, h]
      rw [e]
      obtain ⟨o1, l1, s1, m1⟩ := loadMod_spec tbl p q m c ok h
      obtain ⟨e1, e2, e3⟩ := modSrcs_spec flux q c srcs cutoff
      obtain ⟨o2, l2, s2, m2⟩ := ih (modSrcs flux q c srcs cutoff).1 (o1.mono tbl e1 (by rw [e2]))
      have hq : Later q (modSrcs flux q c srcs cutoff).1 := ⟨by rw [e2], fun m c h => by rw [e1]; exact h⟩
      refine ⟨o2, (l1.trans hq).trans l2, ?_, ?_⟩
      · refine SameSpec.trans (SameSpec.trans ?_ e3) s2
        intro r b hb
        have hr : r < p.heap.length := (List.getElem?_eq_some_iff.1 hb).1
        rw [s1 r hr, hb]; rfl
      · intro m' hm' hne
        rcases List.mem_cons.1 hm' with rfl | hm'
        · exact ⟨c, l2.mods _ _ (hq.mods _ _ m1)⟩
        · exact m2 m' hm' hne

/-- is a source over the cutoff, judged by its parameters -/
def over (flux : S → F → V) (p : Proc S V) (cutoff : V × F) (x : Src Nat) : Bool :=
  match p.heap[x.body]? with
  | some b => decide (cutoff.1 < flux b.spec cutoff.2)
  | none => false

theorem catSrcs_congr (c : Cat Nat) (f g : Src Nat → Bool) (h : ∀ x, x.body ∈ refsOf c → f x = g x) :
    catSrcs c none (some f) = catSrcs c none (some g) := by
  show (c.filterMap fun p => get p.1 c).filter f = (c.filterMap fun p => get p.1 c).filter g
  apply List.filter_congr
  intro x hx
  exact h x (List.mem_map.2 ⟨x, hx, rfl⟩)

theorem mem_catSrcs (c : Cat Nat) (x : Src Nat) (h : x ∈ c.filterMap fun p => get p.1 c) : ∃ n, get n c = some x := by
  obtain ⟨p, _, hp⟩ := List.mem_filterMap.1 h
  exact ⟨p.1, hp⟩

theorem refs_bound (p : Proc S V) (ok : ModsOk tbl p) (m : String) (c : Cat Nat) (h : p.mods.lookup m = some c)
    (r : Nat) (hr : r ∈ refsOf c) : r < p.heap.length := by
  obtain ⟨x, hx, rfl⟩ := List.mem_map.1 hr
  obtain ⟨n, hn⟩ := mem_catSrcs c x hx
  obtain ⟨l, base, h1, rfl, h3⟩ := ok.made m c h
  rw [get_number] at hn
  rcases lastNamed_number n base l with ⟨_, h2⟩ | ⟨k, s, hk, _, _, h2⟩
  · rw [h2] at hn; cases hn
  · rw [h2] at hn
    have := Option.some.inj hn
    subst this
    have := (List.getElem?_eq_some_iff.1 hk).1
    show base + k < _
    omega

/-- one module's answer, in terms of any later state with the same parameters -/
theorem modSrcs_list (p : Proc S V) (ok : ModsOk tbl p) (m : String) (c : Cat Nat) (hc : p.mods.lookup m = some c)
    (srcs : Option (List (Req Nat))) (cutoff : Option (V × F)) (q : Proc S V) (hq : SameSpec p q) :
    (modSrcs flux p c srcs cutoff).2 = catSrcs c srcs (cutoff.map (over flux q)) := by
  unfold modSrcs
  cases srcs with
  | some l => rfl
  | none =>
    cases cutoff with
    | none => rfl
    | some cf =>
      obtain ⟨cut, fq⟩ := cf
      apply catSrcs_congr
      intro x hx
      have hb := refs_bound tbl p ok m c hc x.body hx
      have e : p.heap[x.body]? = some p.heap[x.body] := List.getElem?_eq_getElem hb
      have h1 := hq x.body _ e
      have h2 : (updateAll flux [fq] (refsOf c) p.heap)[x.body]? = some (updateJys flux [fq] p.heap[x.body]) := by
        rw [updateAll_at, if_pos hx, e]; rfl
      unfold isAbove over
      rw [h2]
      cases hqx : q.heap[x.body]? with
      | none => rw [hqx] at h1; cases h1
      | some b =>
        rw [hqx] at h1
        have : b.spec = (p.heap[x.body]).spec := by simpa using h1
        dsimp only [updateJys]
        simp only [List.map_cons, List.map_nil]
        rw [this]

/-- the answer of one catalog, if there is one -/
def ans (o : Option (Cat Nat)) (srcs : Option (List (Req Nat))) (above : Option (Src Nat → Bool)) : List (Src Nat) :=
  match o with
  | none => []
  | some c => catSrcs c srcs above

theorem getCatalog_ans (known : String → Option (Cat Nat)) (srcs : Option (List (Req Nat)))
    (above : Option (Src Nat → Bool)) (cats : List String) :
    getCatalog known srcs above cats = addSrcs [] ((cats.flatMap fun nm => ans (known nm) srcs above) ++
      (srcs.map madeOf).getD []) := by
  unfold getCatalog
  dsimp only
  congr 2
  · congr 1
    funext nm
    cases known nm <;> rfl
  · cases srcs <;> rfl

theorem gather_list (srcs : Option (List (Req Nat))) (cutoff : Option (V × F)) (cats : List String) :
    ∀ p : Proc S V, ModsOk tbl p → ∀ q : Proc S V, Later (gather tbl flux srcs cutoff p cats).1 q →
      SameSpec (gather tbl flux srcs cutoff p cats).1 q → ModsOk tbl q →
      (gather tbl flux srcs cutoff p cats).2 =
        cats.flatMap fun nm => ans (q.mods.lookup nm) srcs (cutoff.map (over flux q)) := by
  induction cats with
  | nil => intro p _ q _ _ _; rfl
  | cons m ms ih =>
    intro p ok q lq sq okq
    rw [List.flatMap_cons]
    cases h : loadMod tbl p m with
    | none =>
      have e : gather tbl flux srcs cutoff p (m :: ms) = gather tbl flux srcs cutoff p ms := by
        rw [gather, h]
      rw [e] at lq sq ⊢
      rw [ih p ok q lq sq okq]
      have ht : tbl m = none := by
        unfold loadMod at h
        cases ht : tbl m with
        | none => rfl
        | some l =>
          rw [ht] at h
          simp only at h
          cases hl : p.mods.lookup m <;> rw [hl] at h <;> cases h
      have hn : q.mods.lookup m = none := by
        cases hl : q.mods.lookup m with
        | none => rfl
        | some c =>
          obtain ⟨l, _, h1, _⟩ := okq.made m c hl
          rw [ht] at h1; cases h1
      rw [hn]; rfl
    | some qc =>
      obtain ⟨p1, c⟩ := qc
      obtain ⟨o1, l1, s1, m1⟩ := loadMod_spec tbl p p1 m c ok h
      obtain ⟨e1, e2, e3⟩ := modSrcs_spec flux p1 c srcs cutoff
      have o2 : ModsOk tbl (modSrcs flux p1 c srcs cutoff).1 := o1.mono tbl e1 (by rw [e2])
      have e : gather tbl flux srcs cutoff p (m :: ms) =
          ((gather tbl flux srcs cutoff (modSrcs flux p1 c srcs cutoff).1 ms).1,
            (modSrcs flux p1 c srcs cutoff).2 ++ (gather tbl flux srcs cutoff (modSrcs flux p1 c srcs cutoff).1 ms).2) := by
        rw [gather, h]
      rw [e] at lq sq ⊢
      obtain ⟨_, l3, s3, _⟩ := gather_spec tbl flux srcs cutoff ms (modSrcs flux p1 c srcs cutoff).1 o2
      have hmq : q.mods.lookup m = some c := by
        apply lq.mods
        apply l3.mods
        rw [e1]; exact m1
      have hsame : SameSpec p1 q := (e3.trans s3).trans sq
      dsimp only
      rw [ih _ o2 q lq sq okq, hmq, modSrcs_list tbl flux p1 o1 m c m1 srcs cutoff q hsame]
      rfl

/-- the catalog returned, in terms of the state in which the call leaves the process -/
theorem fetch_eq (p : Proc S V) (ok : ModsOk tbl p) (srcs : Option (List (Req Nat))) (cutoff : Option (V × F))
    (cats : List String) :
    (fetch tbl flux p srcs cutoff cats).2 =
      getCatalog (fun m => (fetch tbl flux p srcs cutoff cats).1.mods.lookup m) srcs
        (cutoff.map (over flux (fetch tbl flux p srcs cutoff cats).1)) cats := by
  obtain ⟨o, _, _, _⟩ := gather_spec tbl flux srcs cutoff cats p ok
  have h := gather_list tbl flux srcs cutoff cats p ok _ (Later.refl _) (SameSpec.refl _) o
  rw [getCatalog_ans]
  unfold fetch
  dsimp only
  rw [h]
  cases srcs <;> rfl

theorem step_ok (p : Proc S V) (ok : ModsOk tbl p) (u : Use S F V) :
    ModsOk tbl (useStep tbl flux p u) ∧ Later p (useStep tbl flux p u) := by
  cases u with
  | make sp =>
    refine ⟨ok.mono tbl rfl ?_, ⟨?_, fun _ _ h => h⟩⟩ <;> simp [useStep]
  | fetch srcs cutoff cats =>
    obtain ⟨o, l, _, _⟩ := gather_spec tbl flux srcs cutoff cats p ok
    exact ⟨o, l⟩
  | edit r sp =>
    refine ⟨ok.mono tbl rfl ?_, ⟨?_, fun _ _ h => h⟩⟩ <;> simp [useStep]
  | compute r fs =>
    refine ⟨ok.mono tbl rfl ?_, ⟨?_, fun _ _ h => h⟩⟩ <;> simp [useStep]

theorem run_ok (us : List (Use S F V)) : ∀ p : Proc S V, ModsOk tbl p →
    ModsOk tbl (useRun tbl flux p us) ∧ Later p (useRun tbl flux p us) := by
  induction us with
  | nil => intro p ok; exact ⟨ok, Later.refl _⟩
  | cons u us ih =>
    intro p ok
    obtain ⟨o, l⟩ := step_ok tbl flux p ok u
    obtain ⟨o', l'⟩ := ih _ o
    exact ⟨o', l.trans l'⟩

theorem fresh_ok : ModsOk tbl (Proc.fresh : Proc S V) := ⟨fun _ _ h => by cases h⟩

theorem reach_ok (us : List (Use S F V)) : ModsOk tbl (useRun tbl flux (Proc.fresh : Proc S V) us) :=
  (run_ok tbl flux us _ (fresh_ok tbl)).1

/-- the objects a loaded catalog hands out carry the names they are listed under -/
theorem named (p : Proc S V) (ok : ModsOk tbl p) (m : String) (c : Cat Nat) (h : p.mods.lookup m = some c)
    (n : String) (x : Src Nat) (hx : get n c = some x) : x.name = n := by
  obtain ⟨l, base, _, rfl, _⟩ := ok.made m c h
  rw [get_number] at hx
  rcases lastNamed_number n base l with ⟨_, h2⟩ | ⟨k, s, _, _, _, h2⟩
  · rw [h2] at hx; cases hx
  · rw [h2] at hx
    have := Option.some.inj hx
    subst this; rfl

/-! ### unchanged objects -/

/-- The uses that change no parameters. -/
def Use.isEdit : Use S F V → Bool
  | .edit _ _ => true
  | _ => false

theorem specIn_later (p q : Proc S V) (ok : ModsOk tbl p) (h : SameSpec p q) (m : String) (c : Cat Nat)
    (hc : p.mods.lookup m = some c) (n : String) : specIn q c n = specIn p c n := by
  unfold specIn
  cases hx : get n c with
  | none => rfl
  | some x =>
    have hb : x.body < p.heap.length := by
      obtain ⟨l, base, _, rfl, h3⟩ := ok.made m c hc
      rw [get_number] at hx
      rcases lastNamed_number n base l with ⟨_, h2⟩ | ⟨k, s, hk, _, _, h2⟩
      · rw [h2] at hx; cases hx
      · rw [h2] at hx
        have := Option.some.inj hx
        subst this
        have := (List.getElem?_eq_some_iff.1 hk).1
        show base + k < _
        omega
    have e : p.heap[x.body]? = some p.heap[x.body] := List.getElem?_eq_getElem hb
    show q.heap[x.body]?.map _ = p.heap[x.body]?.map _
    rw [h x.body _ e, e]; rfl

theorem pristine_load (p q : Proc S V) (m : String) (c : Cat Nat) (ok : ModsOk tbl p) (pr : Pristine tbl p)
    (h : loadMod tbl p m = some (q, c)) : Pristine tbl q := by
  obtain ⟨_, _, hs, _⟩ := loadMod_spec tbl p q m c ok h
  have same : SameSpec p q := by
    intro r b hb
    have hr : r < p.heap.length := (List.getElem?_eq_some_iff.1 hb).1
    rw [hs r hr, hb]; rfl
  intro m' c' hl'
  cases hp : p.mods.lookup m' with
  | some c'' =>
    have hlat := (loadMod_spec tbl p q m c ok h).2.1.mods m' c'' hp
    rw [hl'] at hlat
    have := Option.some.inj hlat
    subst this
    obtain ⟨l, h1, h2⟩ := pr m' c' hp
    exact ⟨l, h1, fun n => by rw [specIn_later tbl p q ok same m' c' hp, h2]⟩
  | none =>
    unfold loadMod at h
    cases ht : tbl m with
    | none => rw [ht] at h; cases h
    | some l =>
      rw [ht] at h
      simp only at h
      cases hl : p.mods.lookup m with
      | some c2 =>
        rw [hl] at h
        simp only [Option.some.injEq, Prod.mk.injEq] at h
        obtain ⟨rfl, _⟩ := h
        rw [hp] at hl'; cases hl'
      | none =>
        rw [hl] at h
        simp only [Option.some.injEq, Prod.mk.injEq] at h
        obtain ⟨rfl, rfl⟩ := h
        dsimp only at hl'
        rw [List.lookup_cons] at hl'
        by_cases e : m' = m
        · subst e
          simp only [BEq.rfl, Option.some.injEq] at hl'
          subst hl'
          refine ⟨l, ht, fun n => ?_⟩
          unfold specIn
          rw [get_number]
          rcases lastNamed_number n p.heap.length l with ⟨h1, h2⟩ | ⟨k, s, hk, _, h1, h2⟩
          · rw [h1, h2]; rfl
          · rw [h1, h2]
            show (p.heap ++ l.map _)[p.heap.length + k]?.map _ = some s.body
            rw [List.getElem?_append_right (by omega)]
            simp [hk]
        · rw [beq_false_of_ne e] at hl'
          rw [hp] at hl'; cases hl'

theorem pristine_same (p q : Proc S V) (ok : ModsOk tbl p) (pr : Pristine tbl p) (hm : q.mods = p.mods)
    (h : SameSpec p q) : Pristine tbl q := by
  intro m c hc
  rw [hm] at hc
  obtain ⟨l, h1, h2⟩ := pr m c hc
  exact ⟨l, h1, fun n => by rw [specIn_later tbl p q ok h m c hc, h2]⟩

theorem pristine_gather (srcs : Option (List (Req Nat))) (cutoff : Option (V × F)) (cats : List String) :
    ∀ p : Proc S V, ModsOk tbl p → Pristine tbl p → Pristine tbl (gather tbl flux srcs cutoff p cats).1 := by
  induction cats with
  | nil => intro p _ pr; exact pr
  | cons m ms ih =>
    intro p ok pr
    cases h : loadMod tbl p m with
    | none =>
      have e : gather tbl flux srcs cutoff p (m :: ms) = gather tbl flux srcs cutoff p ms := by
        rw [gather, h]
      rw [e]; exact ih p ok pr
    | some qc =>
      obtain ⟨q, c⟩ := qc
      have e : (gather tbl flux srcs cutoff p (m :: ms)).1 =
          (gather tbl flux srcs cutoff (modSrcs flux q c srcs cutoff).1 ms).1 := by
        rw [gather, h]
      rw [e]
      obtain ⟨o1, _, _, _⟩ := loadMod_spec tbl p q m c ok h
      obtain ⟨e1, e2, e3⟩ := modSrcs_spec flux q c srcs cutoff
      exact ih _ (o1.mono tbl e1 (by rw [e2]))
        (pristine_same tbl q _ o1 (pristine_load tbl p q m c ok pr h) e1 e3)

theorem pristine_run (us : List (Use S F V)) (hu : ∀ u ∈ us, u.isEdit = false) :
    ∀ p : Proc S V, ModsOk tbl p → Pristine tbl p → Pristine tbl (useRun tbl flux p us) := by
  induction us with
  | nil => intro p _ pr; exact pr
  | cons u us ih =>
    intro p ok pr
    refine ih (fun v hv => hu v (List.mem_cons_of_mem _ hv)) _ (step_ok tbl flux p ok u).1 ?_
    have h0 := hu u List.mem_cons_self
    cases u with
    | edit r sp => cases h0
    | make sp =>
      refine pristine_same tbl p _ ok pr rfl ?_
      intro r b hb
      have hr : r < p.heap.length := (List.getElem?_eq_some_iff.1 hb).1
      show (p.heap ++ [_])[r]?.map _ = _
      rw [List.getElem?_append_left hr, hb]; rfl
    | compute r fs =>
      refine pristine_same tbl p _ ok pr rfl ?_
      intro i b hb
      show (p.heap.modify r _)[i]?.map _ = _
      rw [List.getElem?_modify, hb]
      by_cases e : r = i <;> simp [e, updateJys]
    | fetch srcs cutoff cats => exact pristine_gather tbl flux srcs cutoff cats p ok pr

/-! ## C74 -/

/-- what is selected under a name by a cutoff, catalogs later in the list having precedence -/
def selected (find : String → String → Option S) (cutoff : Option (V × F)) (cats : List String) (n : String) : Option S :=
  cats.reverse.findSome? fun m => (find m n).filter fun sp => cutoff.all fun cf => decide (cf.1 < flux sp cf.2)

/-- the parameters under which a module's catalog holds a source at the moment -/
def held (p : Proc S V) (m n : String) : Option S := (p.mods.lookup m).bind fun c => specIn p c n

theorem specIn_eq (p : Proc S V) (known : String → Option (Cat Nat)) (cutoff : Option (V × F)) (n : String)
    (cats : List String) (hk : ∀ m c, known m = some c → ∀ x, get n c = some x → x.body < p.heap.length) :
    (cats.reverse.findSome? fun nm => (known nm).bind fun c =>
        (get n c).filter fun s => (cutoff.map (over flux p)).all fun f => f s).bind
      (fun x => p.heap[x.body]?.map (·.spec)) =
    selected flux (fun m n => (known m).bind fun c => specIn p c n) cutoff cats n := by
  unfold selected
  generalize cats.reverse = l
  induction l with
  | nil => rfl
  | cons m l ih =>
    rw [List.findSome?_cons, List.findSome?_cons]
    beta_reduce
    beta_reduce at ih
    cases hm : known m with
    | none =>
      simp only [Option.bind_none, Option.filter_none]
      exact ih
    | some c =>
      cases hx : get n c with
      | none =>
        have e1 : specIn p c n = none := by unfold specIn; rw [hx]; rfl
        simp only [Option.bind_some, hx, e1, Option.filter_none]
        exact ih
      | some x =>
        have hb := hk m c hm x hx
        have e : p.heap[x.body]? = some p.heap[x.body] := List.getElem?_eq_getElem hb
        have e1 : specIn p c n = some (p.heap[x.body]).spec := by
          unfold specIn; rw [hx]; show p.heap[x.body]?.map _ = _; rw [e]; rfl
        have e2 : ((cutoff.map (over flux p)).all fun f => f x) =
            cutoff.all fun cf => decide (cf.1 < flux (p.heap[x.body]).spec cf.2) := by
          cases cutoff with
          | none => rfl
          | some cf => simp [over, e]
        simp only [Option.bind_some, hx, e1]
        by_cases hc : (cutoff.all fun cf => decide (cf.1 < flux (p.heap[x.body]).spec cf.2)) = true
        · have h1 : ((cutoff.map (over flux p)).all fun f => f x) = true := by rw [e2]; exact hc
          simp only [Option.filter, h1, hc, if_true]
          simp [e]
        · have h1 : ¬ ((cutoff.map (over flux p)).all fun f => f x) = true := by rw [e2]; exact hc
          simp only [Option.filter, if_neg h1, if_neg hc]
          exact ih

/-- **C74**, for any history: `get_catalog` with a cutoff, or for all sources, holds under each name the source that the
last of the catalogs asked for has under that name with a flux over the cutoff, as its parameters are at the moment;
parameters are not changed by the call. -/
theorem c74_selection (us : List (Use S F V)) (cutoff : Option (V × F)) (cats : List String) (n : String) :
    let p := useRun tbl flux (Proc.fresh : Proc S V) us
    let r := fetch tbl flux p none cutoff cats
    specIn r.1 r.2 n = selected flux (held r.1) cutoff cats n ∧
    (∀ (i : Nat) (b : Body S V), p.heap[i]? = some b → r.1.heap[i]?.map (·.spec) = some b.spec) := by
  intro p r
  have ok : ModsOk tbl p := reach_ok tbl flux us
  obtain ⟨o, l, s, _⟩ := gather_spec tbl flux none cutoff cats p ok
  have okr : ModsOk tbl r.1 := o
  refine ⟨?_, s⟩
  have e : r.2 = getCatalog (fun m => r.1.mods.lookup m) none (cutoff.map (over flux r.1)) cats :=
    fetch_eq tbl flux p ok none cutoff cats
  unfold specIn held
  rw [e, c55_whole_catalog _ _ _ (fun nm c hc n' x hx => named tbl r.1 okr nm c hc n' x hx)]
  apply specIn_eq
  intro m c hc x hx
  obtain ⟨l, base, _, rfl, h3⟩ := okr.made m c hc
  rw [get_number] at hx
  rcases lastNamed_number n base l with ⟨_, h2⟩ | ⟨k, s, hk, _, _, h2⟩
  · rw [h2] at hx; cases hx
  · rw [h2] at hx
    have := Option.some.inj hx
    subst this
    have := (List.getElem?_eq_some_iff.1 hk).1
    show base + k < _
    omega

/-- **C74**: as long as the program has changed the parameters of no source, the catalog holds under each name what the
tables say: the entry of the last catalog asked for that has a flux over the cutoff. -/
theorem c74_tables_partial (us : List (Use S F V)) (hu : ∀ u ∈ us, u.isEdit = false) (cutoff : Option (V × F))
    (cats : List String) (n : String) :
    let p := useRun tbl flux (Proc.fresh : Proc S V) us
    let r := fetch tbl flux p none cutoff cats
    specIn r.1 r.2 n =
      selected flux (fun m n => (tbl m).bind fun l => (lastNamed n l).map (·.body)) cutoff cats n := by
  intro p r
  have ok : ModsOk tbl p := reach_ok tbl flux us
  have pr : Pristine tbl p := pristine_run tbl flux us hu _ (fresh_ok tbl) (fun _ _ h => by cases h)
  have prr : Pristine tbl r.1 := pristine_gather tbl flux none cutoff cats p ok pr
  obtain ⟨_, _, _, hload⟩ := gather_spec tbl flux none cutoff cats p ok
  have okr : ModsOk tbl r.1 := (gather_spec tbl flux none cutoff cats p ok).1
  rw [(c74_selection tbl flux us cutoff cats n).1]
  have key : ∀ m ∈ cats, held r.1 m n = (tbl m).bind fun l => (lastNamed n l).map (·.body) := by
    intro m hm
    unfold held
    cases ht : tbl m with
    | none =>
      cases hl : r.1.mods.lookup m with
      | none => rfl
      | some c =>
        obtain ⟨l, _, h1, _⟩ := okr.made m c hl
        rw [ht] at h1; cases h1
    | some l =>
      obtain ⟨c, hc⟩ := hload m hm (by rw [ht]; simp)
      have hc' : r.1.mods.lookup m = some c := hc
      obtain ⟨l', h1, h2⟩ := prr m c hc'
      rw [ht] at h1
      have := Option.some.inj h1
      subst this
      rw [hc']
      exact h2 n
  unfold selected
  have hrev : ∀ m ∈ cats.reverse, m ∈ cats := fun m hm => List.mem_reverse.1 hm
  revert hrev
  generalize cats.reverse = l
  intro hrev
  induction l with
  | nil => rfl
  | cons m l ih =>
    rw [List.findSome?_cons, List.findSome?_cons]
    rw [key m (hrev m List.mem_cons_self), ih (fun m' h => hrev m' (List.mem_cons_of_mem _ h))]

/-- **C74**: a call without a cutoff leaves every existing object as it is, fluxes included. -/
theorem c74_quiet (us : List (Use S F V)) (srcs : Option (List (Req Nat))) (cats : List String) (i : Nat) (b : Body S V)
    (hb : (useRun tbl flux (Proc.fresh : Proc S V) us).heap[i]? = some b) :
    (fetch tbl flux (useRun tbl flux Proc.fresh us) srcs none cats).1.heap[i]? = some b := by
  have ok : ModsOk tbl (useRun tbl flux (Proc.fresh : Proc S V) us) := reach_ok tbl flux us
  revert ok hb
  generalize useRun tbl flux (Proc.fresh : Proc S V) us = p
  intro hb ok
  show (gather tbl flux srcs none p cats).1.heap[i]? = some b
  induction cats generalizing p with
  | nil => exact hb
  | cons m ms ih =>
    cases h : loadMod tbl p m with
    | none =>
      have e : gather tbl flux srcs none p (m :: ms) = gather tbl flux srcs none p ms := by rw [gather, h]
      rw [e]; exact ih p hb ok
    | some qc =>
      obtain ⟨q, c⟩ := qc
      have e : (gather tbl flux srcs none p (m :: ms)).1 =
          (gather tbl flux srcs none (modSrcs flux q c srcs none).1 ms).1 := by rw [gather, h]
      obtain ⟨o1, _, s1, _⟩ := loadMod_spec tbl p q m c ok h
      have e2 : (modSrcs flux q c srcs none).1 = q := by unfold modSrcs; cases srcs <;> rfl
      rw [e, e2]
      refine ih q ?_ o1
      have hr : i < p.heap.length := (List.getElem?_eq_some_iff.1 hb).1
      rw [s1 i hr, hb]

/-- Catalogs are not independent: every name found in a catalog that is asked for twice is the same object both
times, whatever happened in between, so a source changed through the first catalog is changed in the second. -/
theorem c74_shared_fails (us vs : List (Use S F V)) (cats : List String) (n : String) (x : Src Nat) (sp : S) :
    let p := useRun tbl flux (Proc.fresh : Proc S V) us
    let r := fetch tbl flux p none none cats
    get n r.2 = some x →
    let q := useRun tbl flux r.1 vs
    let q' := useStep tbl flux q (.edit x.body sp)
    let r' := fetch tbl flux q' none none cats
    get n r'.2 = some x ∧ specIn r'.1 r'.2 n = some sp := by
  intro p r hx q q' r'
  have ok : ModsOk tbl p := reach_ok tbl flux us
  obtain ⟨o, _, _, hload⟩ := gather_spec tbl flux none none cats p ok
  have okr : ModsOk tbl r.1 := o
  obtain ⟨okq, lq⟩ := run_ok tbl flux vs r.1 okr
  obtain ⟨okq', lq'⟩ := step_ok tbl flux q okq (.edit x.body sp)
  obtain ⟨okr', lr', sr', _⟩ := gather_spec tbl flux none none cats q' okq'
  have later : Later r.1 r'.1 := (lq.trans lq').trans lr'
  have e : r.2 = getCatalog (fun m => r.1.mods.lookup m) none none cats := fetch_eq tbl flux p ok none none cats
  have e' : r'.2 = getCatalog (fun m => r'.1.mods.lookup m) none none cats :=
    fetch_eq tbl flux q' okq' none none cats
  have hfind : ∀ m ∈ cats, r'.1.mods.lookup m = r.1.mods.lookup m := by
    intro m hm
    cases hl : r.1.mods.lookup m with
    | some c => exact later.mods m c hl
    | none =>
      cases ht : tbl m with
      | some l =>
        obtain ⟨c, hc⟩ := hload m hm (by rw [ht]; simp)
        have hc' : r.1.mods.lookup m = some c := hc
        rw [hl] at hc'; cases hc'
      | none =>
        cases hl' : r'.1.mods.lookup m with
        | none => rfl
        | some c =>
          have okr2 : ModsOk tbl r'.1 := okr'
          obtain ⟨l, _, h1, _⟩ := okr2.made m c hl'
          rw [ht] at h1; cases h1
  have hsame : r'.2 = r.2 := by
    rw [e, e', getCatalog_ans, getCatalog_ans]
    congr 2
    have : ∀ l : List String, (∀ m ∈ l, m ∈ cats) →
        (l.flatMap fun nm => ans (r'.1.mods.lookup nm) none none) =
        (l.flatMap fun nm => ans (r.1.mods.lookup nm) none none) := by
      intro l
      induction l with
      | nil => intro _; rfl
      | cons m l ih =>
        intro h
        rw [List.flatMap_cons, List.flatMap_cons, ih (fun m' hm' => h m' (List.mem_cons_of_mem _ hm')),
          hfind m (h m List.mem_cons_self)]
    exact this cats (fun _ h => h)
  rw [hsame]
  refine ⟨hx, ?_⟩
  unfold specIn
  rw [hx]
  show r'.1.heap[x.body]?.map (·.spec) = some sp
  -- the object exists
  have hb : x.body < r.1.heap.length := by
    have h := hx
    rw [e, c55_whole_catalog _ _ _ (fun nm c hc n' x hx => named tbl r.1 okr nm c hc n' x hx)] at h
    obtain ⟨m, hm, h⟩ := List.exists_of_findSome?_eq_some h
    cases hl : r.1.mods.lookup m with
    | none => rw [hl] at h; cases h
    | some c =>
      rw [hl] at h
      have hg : get n c = some x := by
        cases hg : get n c with
        | none => simp [hg] at h
        | some y =>
          simp only [hg, Option.bind_some, Option.filter, Option.all_none, if_true] at h
          exact h
      refine refs_bound tbl r.1 okr m c hl x.body ?_
      exact List.mem_map.2 ⟨x, List.mem_filterMap.2 (by
        exact ⟨_, get_mem n x c hg, hg⟩), rfl⟩
  have hq : x.body < q.heap.length := Nat.lt_of_lt_of_le hb lq.len
  have eq' : q'.heap[x.body]? = some { q.heap[x.body] with spec := sp } := by
    show (q.heap.modify x.body _)[x.body]? = _
    rw [List.getElem?_modify, List.getElem?_eq_getElem hq]; simp
  exact sr' x.body _ eq'

/-- an object whose attribute `jys` is its flux at the one frequency `fq` -/
def OneChannel (flux : S → F → V) (p : Proc S V) (fq : F) (r : Nat) : Prop :=
  ∃ b, p.heap[r]? = some b ∧ b.jys = some [flux b.spec fq]

theorem oneChannel_gather (cut : V) (fq : F) (cats : List String) (i : Nat) :
    ∀ p : Proc S V, ModsOk tbl p → OneChannel flux p fq i →
      OneChannel flux (gather tbl flux none (some (cut, fq)) p cats).1 fq i := by
  induction cats with
  | nil => intro p _ h; exact h
  | cons m ms ih =>
    intro p ok hi
    cases h : loadMod tbl p m with
    | none =>
      have e : gather tbl flux none (some (cut, fq)) p (m :: ms) = gather tbl flux none (some (cut, fq)) p ms := by
        rw [gather, h]
      rw [e]; exact ih p ok hi
    | some qc =>
      obtain ⟨q, c⟩ := qc
      have e : (gather tbl flux none (some (cut, fq)) p (m :: ms)).1 =
          (gather tbl flux none (some (cut, fq)) (modSrcs flux q c none (some (cut, fq))).1 ms).1 := by
        rw [gather, h]
      rw [e]
      obtain ⟨o1, _, s1, _⟩ := loadMod_spec tbl p q m c ok h
      obtain ⟨e1, e2, _⟩ := modSrcs_spec flux q c none (some (cut, fq))
      refine ih _ (o1.mono tbl e1 (by rw [e2])) ?_
      obtain ⟨b, hb, hj⟩ := hi
      have hr : i < p.heap.length := (List.getElem?_eq_some_iff.1 hb).1
      have hq : q.heap[i]? = some b := by rw [s1 i hr, hb]
      show ∃ b, (updateAll flux [fq] (refsOf c) q.heap)[i]? = some b ∧ _
      rw [updateAll_at, hq]
      by_cases hc : i ∈ refsOf c
      · rw [if_pos hc]; exact ⟨_, rfl, rfl⟩
      · rw [if_neg hc]; exact ⟨b, rfl, hj⟩

theorem oneChannel_all (cut : V) (fq : F) (cats : List String) (m : String) (hm : m ∈ cats) :
    ∀ p : Proc S V, ModsOk tbl p → ∀ c n x,
      (gather tbl flux none (some (cut, fq)) p cats).1.mods.lookup m = some c → get n c = some x →
      OneChannel flux (gather tbl flux none (some (cut, fq)) p cats).1 fq x.body := by
  induction cats with
  | nil => cases hm
  | cons a ms ih =>
    intro p ok c n x hc hx
    cases h : loadMod tbl p a with
    | none =>
      have e : gather tbl flux none (some (cut, fq)) p (a :: ms) = gather tbl flux none (some (cut, fq)) p ms := by
        rw [gather, h]
      rw [e] at hc ⊢
      rcases List.mem_cons.1 hm with rfl | hm
      · exfalso
        obtain ⟨o, _⟩ := gather_spec tbl flux none (some (cut, fq)) ms p ok
        obtain ⟨l, _, h1, _⟩ := o.made m c hc
        unfold loadMod at h
        rw [h1] at h
        simp only at h
        cases hl : p.mods.lookup m <;> rw [hl] at h <;> cases h
      · exact ih hm p ok c n x hc hx
    | some qc =>
      obtain ⟨q, c'⟩ := qc
      have e : (gather tbl flux none (some (cut, fq)) p (a :: ms)).1 =
          (gather tbl flux none (some (cut, fq)) (modSrcs flux q c' none (some (cut, fq))).1 ms).1 := by
        rw [gather, h]
      rw [e] at hc ⊢
      obtain ⟨o1, _, s1, m1⟩ := loadMod_spec tbl p q a c' ok h
      obtain ⟨e1, e2, _⟩ := modSrcs_spec flux q c' none (some (cut, fq))
      have o2 : ModsOk tbl (modSrcs flux q c' none (some (cut, fq))).1 := o1.mono tbl e1 (by rw [e2])
      rcases List.mem_cons.1 hm with rfl | hm
      · obtain ⟨_, l3, _, _⟩ := gather_spec tbl flux none (some (cut, fq)) ms _ o2
        have := l3.mods m c' (by rw [e1]; exact m1)
        rw [hc] at this
        have := Option.some.inj this
        subst this
        apply oneChannel_gather tbl flux cut fq ms x.body _ o2
        have hin : x.body ∈ refsOf c :=
          List.mem_map.2 ⟨x, List.mem_filterMap.2 ⟨_, get_mem n x c hx, hx⟩, rfl⟩
        have hlt := refs_bound tbl q o1 m c m1 x.body hin
        show ∃ b, (updateAll flux [fq] (refsOf c) q.heap)[x.body]? = some b ∧ _
        rw [updateAll_at, if_pos hin, List.getElem?_eq_getElem hlt]
        exact ⟨_, rfl, rfl⟩
      · exact ih hm _ o2 c n x hc hx

/-- Asking for a catalog with a cutoff is not free of side effects: afterwards the fluxes (`jys`, `get_jys`) of every
source of the catalogs looked at, selected or not, are for the one frequency of the cutoff, also of sources handed out
before whose fluxes had been computed for the channels of an observation. -/
theorem c74_fluxes_lost (us : List (Use S F V)) (cut : V) (fq : F) (cats : List String) (m : String) (hm : m ∈ cats)
    (c : Cat Nat) (n : String) (x : Src Nat) :
    let r := fetch tbl flux (useRun tbl flux (Proc.fresh : Proc S V) us) none (some (cut, fq)) cats
    r.1.mods.lookup m = some c → get n c = some x →
    r.1.heap[x.body]?.map (·.jys) = r.1.heap[x.body]?.map (fun b => some [flux b.spec fq]) := by
  intro r hc hx
  obtain ⟨b, h1, h2⟩ := oneChannel_all tbl flux cut fq cats m hm _ (reach_ok tbl flux us) c n x hc hx
  have h1' : r.1.heap[x.body]? = some b := h1
  rw [h1']
  show some b.jys = _
  rw [h2]; rfl

/-- **C74**: sources asked for by name, in any history: each is the source of that name of the last catalog asked for
that has one, with its parameters as they are at the moment. -/
theorem c74_named (us : List (Use S F V)) (ns : List String) (cutoff : Option (V × F)) (cats : List String)
    (n : String) :
    let r := fetch tbl flux (useRun tbl flux (Proc.fresh : Proc S V) us) (some (ns.map Req.name)) cutoff cats
    specIn r.1 r.2 n = if n ∈ ns then cats.reverse.findSome? (fun m => held r.1 m n) else none := by
  intro r
  have ok : ModsOk tbl (useRun tbl flux (Proc.fresh : Proc S V) us) := reach_ok tbl flux us
  obtain ⟨o, _, _, _⟩ := gather_spec tbl flux (some (ns.map Req.name)) cutoff cats _ ok
  have okr : ModsOk tbl r.1 := o
  have e : r.2 = getCatalog (fun m => r.1.mods.lookup m) (some (ns.map Req.name)) (cutoff.map (over flux r.1)) cats :=
    fetch_eq tbl flux _ ok (some (ns.map Req.name)) cutoff cats
  have hgiven : lastNamed n (givenIn (ns.map (Req.name (α := Nat)))) = none := by
    have : ∀ l : List String, givenIn (l.map (Req.name (α := Nat))) = [] := by
      intro l
      unfold givenIn
      induction l with
      | nil => rfl
      | cons a l ih => exact ih
    rw [this]; rfl
  have hmem : Req.name n ∈ ns.map (Req.name (α := Nat)) ↔ n ∈ ns := by
    constructor
    · intro h
      obtain ⟨a, h1, h2⟩ := List.mem_map.1 h
      cases h2; exact h1
    · intro h; exact List.mem_map.2 ⟨n, h, rfl⟩
  have hsel := specIn_eq flux r.1 (fun m => r.1.mods.lookup m) none n cats (by
    intro m c hc x hx
    exact refs_bound tbl r.1 okr m c hc x.body
      (List.mem_map.2 ⟨x, List.mem_filterMap.2 ⟨_, get_mem n x c hx, hx⟩, rfl⟩))
  have hfilter : ∀ {α : Type} (o : Option α), o.filter (fun _ => true) = o := by
    intro α o; cases o <;> rfl
  unfold selected at hsel
  simp only [Option.map_none, Option.all_none, hfilter] at hsel
  unfold specIn held
  rw [e, c55_get_catalog_partial _ _ _ _ (fun nm c hc n' x hx => named tbl r.1 okr nm c hc n' x hx), hgiven,
    Option.none_or]
  by_cases h : n ∈ ns
  · rw [if_pos (hmem.2 h), if_pos h]; exact hsel
  · rw [if_neg (fun h' => h (hmem.1 h')), if_neg h]; rfl

end

/-! ## Spectra -/

section Spectra
open Real

/-- `_jys`, `mfreq` and `index` of a source -/
structure Law where
  jys : ℝ
  mfreq : ℝ
  index : ℝ

/-- `RadioBody.update_jys` at one frequency, `amp.py` 29-33 -/
noncomputable def lawFlux (l : Law) (f : ℝ) : ℝ := l.jys * (f / l.mfreq) ^ l.index

/-- `HelmboldtFixedBody.update_jys` at one frequency with `index = [B, C, D]`, `helm.py` 17-22; a single number as
index counts as `[index, 0, 0]` -/
noncomputable def helmFlux (jys mfreq b c d f : ℝ) : ℝ :=
  let a := logb 10 jys
  let x := logb 10 (f / mfreq)
  (10 : ℝ) ^ (a + b * x + c * exp (d * x))

/-- **C74**: the spectrum of a source is the power law through its flux at `mfreq` with exponent `index`: the flux
there is `jys`, and raising the frequency by a factor multiplies the flux by that factor to the power of the index. -/
theorem c74_power_law (l : Law) (hm : 0 < l.mfreq) :
    lawFlux l l.mfreq = l.jys ∧
    ∀ f k, 0 < f → 0 < k → lawFlux l (k * f) = k ^ l.index * lawFlux l f := by
  constructor
  · unfold lawFlux; rw [div_self hm.ne', one_rpow, mul_one]
  · intro f k hf hk
    unfold lawFlux
    rw [mul_div_assoc, mul_rpow hk.le (div_pos hf hm).le]; ring

/-- **C74**: a Helmboldt source with a single number as index, or with `C = 0`, has the same power law. -/
theorem c74_helm_power_law (l : Law) (hm : 0 < l.mfreq) (hj : 0 < l.jys) (d f : ℝ) (hf : 0 < f) :
    helmFlux l.jys l.mfreq l.index 0 d f = lawFlux l f := by
  unfold helmFlux lawFlux
  simp only [zero_mul, add_zero]
  have hx : 0 < f / l.mfreq := div_pos hf hm
  rw [rpow_add (by norm_num), rpow_logb (by norm_num) (by norm_num) hj, mul_comm l.index,
    rpow_mul (by norm_num), rpow_logb (by norm_num) (by norm_num) hx]

/-- The documentation ("jys = source strength in Janskies at mfreq") is not met by sources of the Helmboldt catalog with
a curved spectrum: at `mfreq` the flux is `jys` times ten to the power `C`. -/
theorem c74_helm_flux_fails (jys mfreq b c d : ℝ) (hm : 0 < mfreq) (hj : 0 < jys) :
    helmFlux jys mfreq b c d mfreq = jys * 10 ^ c ∧ (c ≠ 0 → helmFlux jys mfreq b c d mfreq ≠ jys) := by
  have h : helmFlux jys mfreq b c d mfreq = jys * 10 ^ c := by
    unfold helmFlux
    simp only
    rw [div_self hm.ne', logb_one, mul_zero, mul_zero, exp_zero, mul_one, add_zero, rpow_add (by norm_num),
      rpow_logb (by norm_num) (by norm_num) hj]
  refine ⟨h, fun hc he => hc ?_⟩
  rw [h] at he
  have h1 : (10 : ℝ) ^ c = 1 := by
    have : jys * 10 ^ c = jys * 1 := by rw [he, mul_one]
    exact mul_left_cancel₀ hj.ne' this
  have h2 := congrArg (logb 10) h1
  rwa [logb_rpow (by norm_num) (by norm_num), logb_one] at h2

example : (0 : ℝ) < (⟨100, 0.15, -1⟩ : Law).mfreq ∧ (0 : ℝ) < (⟨100, 0.15, -1⟩ : Law).jys := by
  constructor <;> norm_num

end Spectra

/-! ## Cases -/

section Cases

/-- two catalogs that share a name; a source is its flux at any frequency `f`, `spec * f` -/
def demoTbl (m : String) : Option (List (Src Nat)) :=
  if m = "a" then some [⟨"x", 1⟩, ⟨"y", 5⟩] else if m = "b" then some [⟨"y", 2⟩, ⟨"z", 7⟩] else none

def demoFlux (sp f : Nat) : Nat := sp * f

/-- a cutoff over both catalogs after sources were computed for two channels: `y` is taken from the first since the
second has it below the cutoff -/
example :
    let p := useRun demoTbl demoFlux (Proc.fresh : Proc Nat Nat)
      [.fetch none none ["a", "nowhere"], .compute 0 [1, 2], .make 9]
    let r := fetch demoTbl demoFlux p none (some (4, 1)) ["a", "nowhere", "b"]
    (specIn r.1 r.2 "x", specIn r.1 r.2 "y", specIn r.1 r.2 "z") = (none, some 5, some 7) ∧
      p.heap[0]?.map (·.jys) = some (some [1, 2]) ∧ r.1.heap[0]?.map (·.jys) = some (some [1]) := by
  refine ⟨by decide, by decide, by decide⟩

/-- the hypothesis of `c74_shared_fails` -/
example : (get "y" (fetch demoTbl demoFlux (useRun demoTbl demoFlux (Proc.fresh : Proc Nat Nat) []) none none
    ["a", "b"]).2).map (·.body) = some 2 := by decide

end Cases
end Verif.Misc
