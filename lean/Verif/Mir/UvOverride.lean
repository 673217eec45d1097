import Verif.Util.Dict
/-!
# Header items that override variables (C155)

`/repo/aipy/_miriad/mir/uvio.c`: when a file is opened for reading, `uv_override` looks for items that have the name of a variable.

Simplified: the contents of an item after its tag are given as values; numbers are arbitrary types with the conversions of C; lengths are
in elements; what `Realloc` leaves uninitialised is the element `g`; the records are given as events.  The names of the directory listing
are those of the items (hio.c 1339-1404).
-/
namespace Verif.Mir.Override
open Verif.Util

/-! ## Model -/

abbrev Name := List Char

/-- the types of variables, uvio.c 1207-1215 -/
inductive VTy | byte | int2 | int | real | dble | cplx
deriving DecidableEq, Repr

/-- an element of the buffer of a variable -/
inductive Elem (R D : Type)
  | byte (b : Nat)
  | int (n : Int)
  | real (x : R)
  | dble (x : D)
  | raw (n : Nat)
deriving DecidableEq, Repr

/-- the conversions of C -/
structure Conv (R D : Type) where
  ofInt : Int → D
  widen : R → D
  round : D → R

/-- a header item by its tag; `other` has another tag (16 or 64 bit integers, complex, binary, text) -/
inductive Item (R D : Type)
  | chars (s : List Nat)
  | int (l : List Int)
  | real (l : List R)
  | dble (l : List D)
  | other

/-- a variable, uvio.c 372-376: `buf`, `flength`, `callno`, and whether `UVF_OVERRIDE` is set -/
structure Var (R D : Type) where
  ty : VTy
  over : Bool
  buf : Option (List (Elem R D))
  flen : Nat
  callno : Nat

variable {R D : Type}

/-- a C string: up to the first zero byte -/
def cstr (s : List Nat) : List Nat := s.takeWhile (· != 0)

/-- what `uv_override` does with an item: a fatal error, a warning, or new contents -/
inductive Verdict (R D : Type)
  | fatal
  | keep
  | by (b : List (Elem R D))

/-- the body of the loop of `uv_override`, uvio.c 1153-1183, with `hdprobe_c`, headio.c 729-845, and `rdhdi_c`, `rdhdr_c`, `rdhdd_c`, headio.c
342-536.  `hdprobe_c` copies at most 1023 characters and is fatal for more than 127; an item without contents has type `unknown`;
`rdhdi_c` is fatal for anything but integers. -/
def verdict (c : Conv R D) (ty : VTy) : Item R D → Verdict R D
  | .chars s =>
    if s = [] then .keep
    else if 127 < (cstr (s.take 1023)).length then .fatal
    else if ty = .byte then .by ((cstr (s.take 1023)).map .byte)
    else .keep
  | .int [x] =>
    match ty with
    | .int => .by [.int x]
    | .real => .by [.real (c.round (c.ofInt x))]
    | .dble => .by [.dble (c.ofInt x)]
    | _ => .keep
  | .real [x] =>
    match ty with
    | .int => .fatal
    | .real => .by [.real (c.round (c.widen x))]
    | .dble => .by [.dble (c.widen x)]
    | _ => .keep
  | .dble [x] =>
    match ty with
    | .int => .fatal
    | .real => .by [.real (c.round x)]
    | .dble => .by [.dble x]
    | _ => .keep
  | _ => .keep

/-- `uv_override`, uvio.c 1136-1190; `none` is the fatal error -/
def override (c : Conv R D) : List (Name × Item R D) → List (Name × Var R D) → Option (List (Name × Var R D))
  | [], vs => some vs
  | (k, it) :: r, vs =>
    match dget k vs with
    | none => override c r vs
    | some v =>
      match verdict c v.ty it with
      | .fatal => none
      | .keep => override c r vs
      | .by b => override c r (dset k { v with over := true, buf := some b, callno := 1 } vs)

/-- a variable of the table before anything is read, uvio.c 1192-1220 -/
def fresh (ty : VTy) : Var R D := ⟨ty, false, none, 0, 0⟩

/-- an open file -/
structure UV (R D : Type) where
  vars : List (Name × Var R D)
  callno : Nat
  mark : Nat

/-- `uvopen_c` for reading, uvio.c 763-764 -/
def openUv (c : Conv R D) (table : List (Name × VTy)) (items : List (Name × Item R D)) : Option (UV R D) :=
  (override c items (table.map fun p => (p.1, fresh p.2))).map fun vs => ⟨vs, 0, 0⟩

/-- a record of the stream other than the end of a block -/
inductive Ev (R D : Type)
  | size (k : Name) (n : Nat)
  | data (k : Name) (xs : List (Elem R D))

/-- `Realloc` -/
def resize (g : Elem R D) (n : Nat) (b : List (Elem R D)) : List (Elem R D) := (b ++ List.replicate n g).take n

/-- a record, uvio.c 1887-1948.  `none` is an error or a record that does not fit: an unknown variable, no elements, or data of another
length than announced. -/
def step (g : Elem R D) (cn : Nat) (vs : List (Name × Var R D)) : Ev R D → Option (List (Name × Var R D))
  | .size k n =>
    match dget k vs with
    | none => none
    | some v =>
      if n = 0 then none
      else if v.over = true ∧ v.ty = .byte then some (dset k { v with flen := n } vs)
      else
        let b := resize g n (v.buf.getD [])
        some (dset k { v with flen := n, callno := cn, buf := some (if v.over then List.replicate n (b.headD g) else b) } vs)
  | .data k xs =>
    match dget k vs with
    | none => none
    | some v =>
      if xs = [] ∨ xs.length ≠ v.flen then none
      else if v.over then some vs
      else some (dset k { v with buf := some xs, callno := cn } vs)

/-- the records of a block -/
def steps (g : Elem R D) (cn : Nat) : List (Ev R D) → List (Name × Var R D) → Option (List (Name × Var R D))
  | [], vs => some vs
  | e :: es, vs =>
    match step g cn vs e with
    | none => none
    | some vs' => steps g cn es vs'

/-- one `uvread_c` without selection: `mark` and `callno`, uvio.c 2845 and 1874, and the records up to the end of the block -/
def readBlock (g : Elem R D) (u : UV R D) (es : List (Ev R D)) : Option (UV R D) :=
  match steps g (u.callno + 1) es u.vars with
  | none => none
  | some vs => some ⟨vs, u.callno + 1, u.callno + 1⟩

/-- reading block after block -/
def readAll (g : Elem R D) : List (List (Ev R D)) → UV R D → Option (UV R D)
  | [], u => some u
  | es :: r, u =>
    match readBlock g u es with
    | none => none
    | some u' => readAll g r u'

/-- `uvgetvr_c`, uvio.c 1575-1631 -/
def value (u : UV R D) (k : Name) : Option (List (Elem R D)) := (dget k u.vars).bind Var.buf

/-- `uvprobvr_c`, uvio.c 1633-1677: `updated` -/
def updated (u : UV R D) (k : Name) : Bool :=
  match dget k u.vars with
  | none => false
  | some v => decide (u.mark ≤ v.callno)

/-! ## Specification -/

/-- the number an item of one number stands for, as a number of the type of the variable; an integer variable takes integers only -/
inductive Means (c : Conv R D) : Item R D → VTy → Elem R D → Prop
  | ii (x) : Means c (.int [x]) .int (.int x)
  | ir (x) : Means c (.int [x]) .real (.real (c.round (c.ofInt x)))
  | id (x) : Means c (.int [x]) .dble (.dble (c.ofInt x))
  | rr (x) : Means c (.real [x]) .real (.real (c.round (c.widen x)))
  | rd (x) : Means c (.real [x]) .dble (.dble (c.widen x))
  | dr (x) : Means c (.dble [x]) .real (.real (c.round x))
  | dd (x) : Means c (.dble [x]) .dble (.dble x)

/-- the length last announced for a variable, one if there was none -/
def lastSize (k : Name) : List (Ev R D) → Nat → Nat
  | [], n => n
  | .size k' m :: es, n => lastSize k es (if k' = k then m else n)
  | .data _ _ :: es, n => lastSize k es n

/-- an item that makes a file unreadable if a variable of this type has its name -/
def Spoils (ty : VTy) : Item R D → Prop
  | .chars s => 127 < ((s.take 1023).takeWhile (· != 0)).length
  | .real l => ty = .int ∧ l.length = 1
  | .dble l => ty = .int ∧ l.length = 1
  | _ => False

/-! ## Lemmas -/

theorem verdict_means {c : Conv R D} {it : Item R D} {ty : VTy} {x : Elem R D} (h : Means c it ty x) :
    verdict c ty it = .by [x] := by
  cases h <;> rfl

theorem verdict_fatal (c : Conv R D) (ty : VTy) (it : Item R D) : verdict c ty it = .fatal ↔ Spoils ty it := by
  match it with
  | .chars s =>
    rw [verdict, Spoils]
    by_cases hs : s = []
    · subst hs; simp
    · rw [if_neg hs]
      show (if 127 < ((s.take 1023).takeWhile (· != 0)).length then _ else _) = _ ↔ _
      by_cases hl : 127 < ((s.take 1023).takeWhile (· != 0)).length
      · rw [if_pos hl]; exact ⟨fun _ => hl, fun _ => rfl⟩
      · rw [if_neg hl]
        refine ⟨fun h => ?_, fun h => absurd h hl⟩
        split at h <;> cases h
  | .int [] => simp [verdict, Spoils]
  | .int [_] => cases ty <;> simp [verdict, Spoils]
  | .int (_ :: _ :: _) => simp [verdict, Spoils]
  | .real [] => simp [verdict, Spoils]
  | .real [_] => cases ty <;> simp [verdict, Spoils]
  | .real (_ :: _ :: _) => simp [verdict, Spoils]
  | .dble [] => simp [verdict, Spoils]
  | .dble [_] => cases ty <;> simp [verdict, Spoils]
  | .dble (_ :: _ :: _) => simp [verdict, Spoils]
  | .other => simp [verdict, Spoils]

/-- what becomes of a variable when the file is opened -/
def after (c : Conv R D) (items : List (Name × Item R D)) (k : Name) (v : Var R D) : Var R D :=
  match dget k items with
  | none => v
  | some it =>
    match verdict c v.ty it with
    | .by b => { v with over := true, buf := some b, callno := 1 }
    | _ => v

theorem override_get (c : Conv R D) (items : List (Name × Item R D)) (hn : (items.map Prod.fst).Nodup) (vs vs' : List (Name × Var R D))
    (h : override c items vs = some vs') (k : Name) : dget k vs' = (dget k vs).map (after c items k) := by
  induction items generalizing vs with
  | nil =>
    cases h
    cases dget k vs' <;> rfl
  | cons e r ih =>
    obtain ⟨k', it⟩ := e
    rw [List.map_cons, List.nodup_cons] at hn
    have hr : dget k' r = none := (dget_none k' r).2 hn.1
    rw [override] at h
    have hother : ∀ v, k' ≠ k → after c ((k', it) :: r) k v = after c r k v := by
      intro v hk; simp only [after, dget, if_neg hk]
    have hself : ∀ v : Var R D, after c r k' v = v := by intro v; simp only [after, hr]
    cases hv : dget k' vs with
    | none =>
      rw [hv] at h
      rw [ih hn.2 vs h]
      by_cases hk : k' = k
      · subst hk; rw [hv]; rfl
      · cases dget k vs with
        | none => rfl
        | some v => rw [Option.map_some, Option.map_some, hother v hk]
    | some v =>
      rw [hv] at h
      simp only at h
      cases hd : verdict c v.ty it with
      | fatal => rw [hd] at h; cases h
      | keep =>
        rw [hd] at h
        rw [ih hn.2 vs h]
        by_cases hk : k' = k
        · subst hk
          rw [hv, Option.map_some, Option.map_some, hself]
          simp only [after, dget, if_pos, hd]
        · cases dget k vs with
          | none => rfl
          | some w => rw [Option.map_some, Option.map_some, hother w hk]
      | «by» b =>
        rw [hd] at h
        rw [ih hn.2 _ h]
        by_cases hk : k' = k
        · subst hk
          rw [dget_dset_self, hv, Option.map_some, Option.map_some, hself]
          simp only [after, dget, if_pos, hd]
        · rw [dget_dset_ne hk]
          cases dget k vs with
          | none => rfl
          | some w => rw [Option.map_some, Option.map_some, hother w hk]

theorem dget_map_fresh (table : List (Name × VTy)) (k : Name) :
    dget k (table.map fun p => (p.1, (fresh p.2 : Var R D))) = (dget k table).map fresh := by
  induction table with
  | nil => rfl
  | cons p t ih =>
    obtain ⟨a, b⟩ := p
    simp only [List.map_cons, dget, ih]
    split <;> rfl

theorem open_get {c : Conv R D} {table : List (Name × VTy)} {items : List (Name × Item R D)} (hn : (items.map Prod.fst).Nodup)
    {u : UV R D} (h : openUv c table items = some u) (k : Name) :
    dget k u.vars = (dget k table).map fun ty => after c items k (fresh ty) := by
  rw [openUv, Option.map_eq_some_iff] at h
  obtain ⟨vs, h1, rfl⟩ := h
  rw [override_get c items hn _ _ h1, dget_map_fresh]
  cases dget k table <;> rfl

/-- an invariant of one variable under the records -/
theorem steps_inv (g : Elem R D) (cn : Nat) (k : Name) (P : List (Ev R D) → Var R D → Prop)
    (hstep : ∀ e v vs vs' done, dget k vs = some v → P done v → step g cn vs e = some vs' → ∃ v', dget k vs' = some v' ∧ P (done ++ [e]) v')
    (es : List (Ev R D)) : ∀ vs vs' v done, dget k vs = some v → P done v → steps g cn es vs = some vs' →
      ∃ v', dget k vs' = some v' ∧ P (done ++ es) v' := by
  induction es with
  | nil => intro vs vs' v done hv hp h; cases h; exact ⟨v, hv, by rwa [List.append_nil]⟩
  | cons e es ih =>
    intro vs vs' v done hv hp h
    rw [steps] at h
    cases hs : step g cn vs e with
    | none => rw [hs] at h; cases h
    | some w =>
      rw [hs] at h
      obtain ⟨v1, h1, h2⟩ := hstep e v vs w done hv hp hs
      obtain ⟨v2, h3, h4⟩ := ih w vs' v1 _ h1 h2 h
      exact ⟨v2, h3, by rwa [List.append_assoc, List.singleton_append] at h4⟩

theorem readAll_inv (g : Elem R D) (k : Name) (P : List (Ev R D) → Var R D → Prop)
    (hstep : ∀ cn e v vs vs' done, dget k vs = some v → P done v → step g cn vs e = some vs' →
      ∃ v', dget k vs' = some v' ∧ P (done ++ [e]) v')
    (bs : List (List (Ev R D))) : ∀ u u' v done, dget k u.vars = some v → P done v → readAll g bs u = some u' →
      ∃ v', dget k u'.vars = some v' ∧ P (done ++ bs.flatten) v' := by
  induction bs with
  | nil => intro u u' v done hv hp h; cases h; exact ⟨v, hv, by rwa [List.flatten_nil, List.append_nil]⟩
  | cons es r ih =>
    intro u u' v done hv hp h
    rw [readAll] at h
    cases hb : readBlock g u es with
    | none => rw [hb] at h; cases h
    | some w =>
      rw [hb] at h
      rw [readBlock] at hb
      cases hs : steps g (u.callno + 1) es u.vars with
      | none => rw [hs] at hb; cases hb
      | some vs =>
        rw [hs] at hb
        cases hb
        obtain ⟨v1, h1, h2⟩ := steps_inv g _ k P (hstep _) es u.vars vs v done hv hp hs
        obtain ⟨v2, h3, h4⟩ := ih _ u' v1 _ h1 h2 h
        exact ⟨v2, h3, by rwa [List.append_assoc, ← List.flatten_cons] at h4⟩

theorem lastSize_append (k : Name) (es : List (Ev R D)) (e : Ev R D) (n : Nat) :
    lastSize k (es ++ [e]) n = lastSize k [e] (lastSize k es n) := by
  induction es generalizing n with
  | nil => rfl
  | cons a es ih =>
    cases a with
    | size k' m => rw [List.cons_append, lastSize, lastSize, ih]
    | data k' xs => rw [List.cons_append, lastSize, lastSize, ih]

theorem resize_headD (g x : Elem R D) (n m : Nat) (hm : m ≠ 0) :
    (resize g m (List.replicate n x)).headD g = if n = 0 then g else x := by
  cases m with
  | zero => exact absurd rfl hm
  | succ m =>
    cases n with
    | zero => simp [resize, List.replicate_succ]
    | succ n => simp [resize, List.replicate_succ]

theorem takeWhile_take {α : Type} (p : α → Bool) (n : Nat) (l : List α) : (l.take n).takeWhile p = (l.takeWhile p).take n := by
  induction l generalizing n with
  | nil => simp
  | cons a l ih =>
    cases n with
    | zero => simp
    | succ n =>
      rw [List.take_succ_cons, List.takeWhile_cons, List.takeWhile_cons]
      cases p a
      · simp
      · simp [ih]

theorem override_some (c : Conv R D) (items : List (Name × Item R D)) (vs : List (Name × Var R D)) :
    (override c items vs).isSome = true ↔ ∀ k it v, (k, it) ∈ items → dget k vs = some v → ¬ Spoils v.ty it := by
  induction items generalizing vs with
  | nil => exact ⟨(fun _ _ _ _ h => by cases h), (fun _ => rfl)⟩
  | cons e r ih =>
    obtain ⟨k', it'⟩ := e
    rw [override]
    cases hv : dget k' vs with
    | none =>
      simp only []
      rw [ih]
      constructor
      · intro h k it v hm hk
        rcases List.mem_cons.1 hm with he | hm
        · cases he; rw [hv] at hk; cases hk
        · exact h k it v hm hk
      · exact fun h k it v hm => h k it v (List.mem_cons_of_mem _ hm)
    | some w =>
      simp only []
      cases hd : verdict c w.ty it' with
      | fatal =>
        simp only [Option.isSome_none, Bool.false_eq_true, false_iff]
        exact fun h => h k' it' w List.mem_cons_self hv ((verdict_fatal c w.ty it').1 hd)
      | keep =>
        simp only []
        rw [ih]
        constructor
        · intro h k it v hm hk
          rcases List.mem_cons.1 hm with he | hm
          · cases he
            rw [hv] at hk; cases hk
            intro hs
            rw [(verdict_fatal c w.ty it').2 hs] at hd; cases hd
          · exact h k it v hm hk
        · exact fun h k it v hm => h k it v (List.mem_cons_of_mem _ hm)
      | «by» b =>
        simp only []
        rw [ih]
        constructor
        · intro h k it v hm hk
          rcases List.mem_cons.1 hm with he | hm
          · cases he
            rw [hv] at hk; cases hk
            intro hs
            rw [(verdict_fatal c w.ty it').2 hs] at hd; cases hd
          · by_cases hkk : k' = k
            · subst hkk
              rw [hv] at hk; cases hk
              exact h k' it { w with over := true, buf := some b, callno := 1 } hm (dget_dset_self _ _ _)
            · exact h k it v hm (by rwa [dget_dset_ne hkk])
        · intro h k it v hm hk
          by_cases hkk : k' = k
          · subst hkk
            rw [dget_dset_self] at hk; cases hk
            exact h k' it w (List.mem_cons_of_mem _ hm) hv
          · rw [dget_dset_ne hkk] at hk
            exact h k it v (List.mem_cons_of_mem _ hm) hk

theorem readAll_mark (g : Elem R D) (bs : List (List (Ev R D))) (u u' : UV R D) (h : readAll g bs u = some u') (hb : bs ≠ []) :
    u'.mark = u.callno + bs.length := by
  induction bs generalizing u with
  | nil => exact absurd rfl hb
  | cons es r ih =>
    rw [readAll] at h
    cases hs : readBlock g u es with
    | none => rw [hs] at h; cases h
    | some w =>
      rw [hs] at h
      rw [readBlock] at hs
      cases hs' : steps g (u.callno + 1) es u.vars with
      | none => rw [hs'] at hs; cases hs
      | some vs =>
        rw [hs'] at hs; cases hs
        by_cases hr : r = []
        · subst hr; cases h; rfl
        · rw [ih _ h hr, List.length_cons]
          show u.callno + 1 + _ = _
          omega

/-- the variable a record is about -/
def Ev.key : Ev R D → Name
  | .size k _ => k
  | .data k _ => k

/-- the effect of a record on its variable -/
def stepVar (g : Elem R D) (cn : Nat) (v : Var R D) : Ev R D → Option (Var R D)
  | .size _ n =>
    if n = 0 then none
    else if v.over = true ∧ v.ty = .byte then some { v with flen := n }
    else
      let b := resize g n (v.buf.getD [])
      some { v with flen := n, callno := cn, buf := some (if v.over then List.replicate n (b.headD g) else b) }
  | .data _ xs =>
    if xs = [] ∨ xs.length ≠ v.flen then none
    else if v.over then some v
    else some { v with buf := some xs, callno := cn }

theorem step_get (g : Elem R D) (cn : Nat) (vs : List (Name × Var R D)) (e : Ev R D) :
    match (dget e.key vs).bind (fun v => stepVar g cn v e) with
    | none => step g cn vs e = none
    | some v => ∃ vs', step g cn vs e = some vs' ∧ dget e.key vs' = some v ∧ ∀ j, j ≠ e.key → dget j vs' = dget j vs := by
  have dne : ∀ (k : Name) (v : Var R D) (j : Name), j ≠ k → dget j (dset k v vs) = dget j vs := fun k v j h => dget_dset_ne (Ne.symm h) v vs
  cases e with
  | size k n =>
    simp only [Ev.key, step]
    cases hv : dget k vs with
    | none => rfl
    | some v =>
      simp only [Option.bind_some, stepVar]
      by_cases h1 : n = 0
      · simp only [if_pos h1]
      · simp only [if_neg h1]
        by_cases h2 : v.over = true ∧ v.ty = .byte
        · simp only [if_pos h2]
          exact ⟨_, rfl, dget_dset_self _ _ _, dne _ _⟩
        · simp only [if_neg h2]
          exact ⟨_, rfl, dget_dset_self _ _ _, dne _ _⟩
  | data k xs =>
    simp only [Ev.key, step]
    cases hv : dget k vs with
    | none => rfl
    | some v =>
      simp only [Option.bind_some, stepVar]
      by_cases h1 : xs = [] ∨ xs.length ≠ v.flen
      · simp only [if_pos h1]
      · simp only [if_neg h1]
        cases h2 : v.over with
        | true =>
          simp only [if_true]
          exact ⟨_, rfl, hv, fun _ _ => rfl⟩
        | false =>
          simp only [Bool.false_eq_true, if_false]
          exact ⟨_, rfl, dget_dset_self _ _ _, dne _ _⟩

theorem stepVar_flen (g : Elem R D) (cn : Nat) (v w : Var R D) (h : v.flen = w.flen) (e : Ev R D) :
    (stepVar g cn v e).map Var.flen = (stepVar g cn w e).map Var.flen := by
  cases e with
  | size k n =>
    simp only [stepVar]
    by_cases h1 : n = 0
    · simp only [if_pos h1]
    · simp only [if_neg h1]
      by_cases h2 : v.over = true ∧ v.ty = .byte <;> by_cases h3 : w.over = true ∧ w.ty = .byte <;> simp only [h2, h3, if_true, if_false] <;> rfl
  | data k xs =>
    simp only [stepVar, h]
    by_cases h1 : xs = [] ∨ xs.length ≠ w.flen
    · simp only [if_pos h1]
    · simp only [if_neg h1]
      split <;> split <;> simp [h]

/-- two states with the same lengths, and the same variable `k` if one is given -/
def Rel (k : Option Name) (vs ws : List (Name × Var R D)) : Prop :=
  (∀ j, (dget j vs).map Var.flen = (dget j ws).map Var.flen) ∧ ∀ j, k = some j → dget j vs = dget j ws

theorem step_rel (g : Elem R D) (cn : Nat) (k : Option Name) (vs ws : List (Name × Var R D)) (h : Rel k vs ws) (e : Ev R D) :
    (step g cn vs e = none ∧ step g cn ws e = none) ∨
    ∃ vs' ws', step g cn vs e = some vs' ∧ step g cn ws e = some ws' ∧ Rel k vs' ws' := by
  have a := step_get g cn vs e
  have b := step_get g cn ws e
  have hk := h.1 e.key
  cases hv : dget e.key vs with
  | none =>
    rw [hv] at a hk
    cases hw : dget e.key ws with
    | none => rw [hw] at b; exact .inl ⟨a, b⟩
    | some w => rw [hw] at hk; cases hk
  | some v =>
    cases hw : dget e.key ws with
    | none => rw [hv, hw] at hk; cases hk
    | some w =>
      rw [hv, hw] at hk
      rw [hv, Option.bind_some] at a
      rw [hw, Option.bind_some] at b
      have hf := stepVar_flen g cn v w (Option.some.inj hk) e
      cases hv' : stepVar g cn v e with
      | none =>
        cases hw' : stepVar g cn w e with
        | none => rw [hv'] at a; rw [hw'] at b; exact .inl ⟨a, b⟩
        | some w' => rw [hv', hw'] at hf; cases hf
      | some v' =>
        cases hw' : stepVar g cn w e with
        | none => rw [hv', hw'] at hf; cases hf
        | some w' =>
          rw [hv'] at a; rw [hw'] at b
          obtain ⟨vs', a1, a2, a3⟩ := a
          obtain ⟨ws', b1, b2, b3⟩ := b
          refine .inr ⟨vs', ws', a1, b1, fun j => ?_, fun j hj => ?_⟩
          · by_cases hje : j = e.key
            · rw [hje, a2, b2, ← hv', ← hw']; exact hf
            · rw [a3 j hje, b3 j hje]; exact h.1 j
          · by_cases hje : j = e.key
            · have := h.2 j hj
              rw [hje, hv, hw] at this
              cases this
              rw [hv'] at hw'; cases hw'
              rw [hje, a2, b2]
            · rw [a3 j hje, b3 j hje]; exact h.2 j hj

theorem steps_rel (g : Elem R D) (cn : Nat) (k : Option Name) (es : List (Ev R D)) : ∀ vs ws : List (Name × Var R D), Rel k vs ws →
    (steps g cn es vs = none ∧ steps g cn es ws = none) ∨
    ∃ vs' ws', steps g cn es vs = some vs' ∧ steps g cn es ws = some ws' ∧ Rel k vs' ws' := by
  induction es with
  | nil => exact fun vs ws h => .inr ⟨vs, ws, rfl, rfl, h⟩
  | cons e es ih =>
    intro vs ws h
    rcases step_rel g cn k vs ws h e with ⟨a, b⟩ | ⟨vs', ws', a, b, h'⟩
    · left; rw [steps, steps, a, b]; exact ⟨rfl, rfl⟩
    · rw [steps, steps, a, b]; exact ih vs' ws' h'

theorem readAll_rel (g : Elem R D) (k : Option Name) (bs : List (List (Ev R D))) : ∀ u w : UV R D, u.callno = w.callno ∧ u.mark = w.mark →
    (∀ j, (dget j u.vars).map Var.flen = (dget j w.vars).map Var.flen) → (∀ j, k = some j → dget j u.vars = dget j w.vars) →
    (readAll g bs u).isSome = (readAll g bs w).isSome ∧
    ∀ u' w', readAll g bs u = some u' → readAll g bs w = some w' → u'.mark = w'.mark ∧ ∀ j, k = some j → dget j u'.vars = dget j w'.vars := by
  induction bs with
  | nil =>
    intro u w h1 h2 h3
    refine ⟨rfl, fun u' w' a b => ?_⟩
    cases a; cases b
    exact ⟨h1.2, h3⟩
  | cons es r ih =>
    intro u w h1 h2 h3
    rcases steps_rel g (u.callno + 1) k es u.vars w.vars ⟨h2, h3⟩ with ⟨a, b⟩ | ⟨vs', ws', a, b, h'⟩
    · have ha : readAll g (es :: r) u = none := by simp only [readAll, readBlock, a]
      have hb : readAll g (es :: r) w = none := by simp only [readAll, readBlock, ← h1.1, b]
      rw [ha, hb]
      exact ⟨rfl, fun _ _ h => by cases h⟩
    · have ha : readAll g (es :: r) u = readAll g r ⟨vs', u.callno + 1, u.callno + 1⟩ := by simp only [readAll, readBlock, a]
      have hb : readAll g (es :: r) w = readAll g r ⟨ws', w.callno + 1, w.callno + 1⟩ := by
        rw [h1.1] at b
        simp only [readAll, readBlock, b]
      rw [ha, hb]
      exact ih _ _ ⟨by show u.callno + 1 = _; rw [h1.1], by show u.callno + 1 = _; rw [h1.1]⟩ h'.1 h'.2

/-! ## Theorems -/

/-- **C155** (numbers): a variable with an item of one number under its name has that number in all of its elements, whatever the records
say; there are as many as last announced, and one before that -/
theorem c155_numeric (c : Conv R D) (g : Elem R D) (table : List (Name × VTy)) (items : List (Name × Item R D))
    (hn : (items.map Prod.fst).Nodup) (k : Name) (ty : VTy) (it : Item R D) (x : Elem R D) (hk : dget k table = some ty)
    (hi : dget k items = some it) (hm : Means c it ty x) (u u' : UV R D) (ho : openUv c table items = some u)
    (bs : List (List (Ev R D))) (hr : readAll g bs u = some u') :
    value u' k = some (List.replicate (lastSize k bs.flatten 1) x) := by
  have h0 := open_get hn ho k
  rw [hk, Option.map_some] at h0
  have ha : after c items k (fresh ty) = { (fresh ty : Var R D) with over := true, buf := some [x], callno := 1 } := by
    simp only [after, hi]
    show (match verdict c ty it with | .by b => _ | _ => _) = _
    rw [verdict_means hm]
  rw [ha] at h0
  have hty : ty ≠ .byte := by cases hm <;> decide
  let P : List (Ev R D) → Var R D → Prop := fun done v =>
    v.over = true ∧ v.ty = ty ∧ lastSize k done 1 ≠ 0 ∧ v.buf = some (List.replicate (lastSize k done 1) x)
  have hstep : ∀ cn e v vs vs' done, dget k vs = some v → P done v → step g cn vs e = some vs' →
      ∃ v', dget k vs' = some v' ∧ P (done ++ [e]) v' := by
    rintro cn e v vs vs' done hv ⟨p1, p2, p3, p4⟩ hs
    cases e with
    | data k' xs =>
      have hl : lastSize k (done ++ [.data k' xs]) 1 = lastSize k done 1 := by rw [lastSize_append]; rfl
      rw [step] at hs
      cases hv' : dget k' vs with
      | none => rw [hv'] at hs; cases hs
      | some w =>
        rw [hv'] at hs
        simp only at hs
        split at hs
        · cases hs
        · by_cases hkk : k' = k
          · subst hkk
            rw [hv'] at hv; cases hv
            rw [if_pos p1] at hs; cases hs
            exact ⟨v, hv', p1, p2, by rwa [hl], by rwa [hl]⟩
          · split at hs
            · cases hs; exact ⟨v, hv, p1, p2, by rwa [hl], by rwa [hl]⟩
            · cases hs; exact ⟨v, by rwa [dget_dset_ne hkk], p1, p2, by rwa [hl], by rwa [hl]⟩
    | size k' m =>
      rw [step] at hs
      cases hv' : dget k' vs with
      | none => rw [hv'] at hs; cases hs
      | some w =>
        rw [hv'] at hs
        simp only at hs
        split at hs
        · cases hs
        · rename_i hm0
          by_cases hkk : k' = k
          · subst hkk
            have hl : lastSize k' (done ++ [.size k' m]) 1 = m := by rw [lastSize_append]; simp [lastSize]
            rw [hv'] at hv; cases hv
            rw [if_neg (by rw [p2]; exact fun h => hty h.2)] at hs
            cases hs
            refine ⟨_, dget_dset_self _ _ _, p1, p2, by rwa [hl], ?_⟩
            rw [hl, p4, Option.getD_some, if_pos p1, resize_headD g x _ m hm0, if_neg p3]
          · have hl : lastSize k (done ++ [.size k' m]) 1 = lastSize k done 1 := by rw [lastSize_append]; simp [lastSize, hkk]
            split at hs
            · cases hs; exact ⟨v, by rwa [dget_dset_ne hkk], p1, p2, by rwa [hl], by rwa [hl]⟩
            · cases hs; exact ⟨v, by rwa [dget_dset_ne hkk], p1, p2, by rwa [hl], by rwa [hl]⟩
  obtain ⟨v, h1, h2⟩ := readAll_inv g k P hstep bs u u' _ [] h0 ⟨rfl, rfl, by simp [lastSize], rfl⟩ hr
  rw [value, h1, Option.bind_some]
  exact h2.2.2.2

/-- the numbers used in the examples: everything exact -/
def plain : Conv Int Int := ⟨id, id, id⟩

/-- an item `ra` of type double for a variable of type real -/
example : let table := [("ra".toList, VTy.real), ("time".toList, VTy.dble)]
    let items : List (Name × Item Int Int) := [("ra".toList, .dble [7])]
    (items.map Prod.fst).Nodup ∧ dget "ra".toList table = some .real ∧ dget "ra".toList items = some (.dble [7]) ∧
    Means plain (.dble [7]) .real (.real (plain.round 7)) ∧
    ((openUv plain table items).bind (readAll (.raw 0) [[.size "ra".toList 2, .data "ra".toList [.real 1, .real 2]]])).isSome = true := by
  refine ⟨by decide +kernel, by decide +kernel, by simp [dget], .dr 7, by decide +kernel⟩

/-- **C155** (strings): a string variable with a string item under its name is that string, up to the first zero byte, whatever the records
say; it counts as updated in the first block only -/
theorem c155_string (c : Conv R D) (g : Elem R D) (table : List (Name × VTy)) (items : List (Name × Item R D))
    (hn : (items.map Prod.fst).Nodup) (k : Name) (s : List Nat) (hk : dget k table = some .byte)
    (hi : dget k items = some (.chars s)) (hs0 : s ≠ []) (u u' : UV R D) (ho : openUv c table items = some u)
    (bs : List (List (Ev R D))) (hr : readAll g bs u = some u') :
    value u' k = some ((s.takeWhile (· != 0)).map .byte) ∧ (bs ≠ [] → updated u' k = decide (bs.length = 1)) := by
  have h0 := open_get hn ho k
  rw [hk, Option.map_some] at h0
  have hnf : verdict c .byte (.chars s) ≠ .fatal := fun hf => by
    rw [openUv, Option.map_eq_some_iff] at ho
    obtain ⟨vs, h1, _⟩ := ho
    have := (override_some c items (table.map fun p => (p.1, fresh p.2))).1 (by rw [h1]; rfl) k (.chars s) (fresh .byte) (dget_mem hi)
      (by rw [dget_map_fresh, hk]; rfl)
    exact this ((verdict_fatal c .byte (.chars s)).1 hf)
  have hlen : (cstr (s.take 1023)).length ≤ 127 := Nat.le_of_not_lt fun hl => hnf (by rw [verdict, if_neg hs0, if_pos hl])
  have hcut : cstr (s.take 1023) = s.takeWhile (· != 0) := by
    have e : cstr (s.take 1023) = (s.takeWhile (· != 0)).take 1023 := takeWhile_take _ _ _
    rw [e, List.length_take] at hlen
    rw [e, List.take_of_length_le (by omega)]
  have ha : after c items k (fresh .byte) =
      { (fresh .byte : Var R D) with over := true, buf := some ((s.takeWhile (· != 0)).map .byte), callno := 1 } := by
    simp only [after, hi]
    show (match verdict c .byte (.chars s) with | .by b => _ | _ => _) = _
    rw [verdict, if_neg hs0, if_neg (by omega), if_pos rfl, hcut]
  rw [ha] at h0
  let P : List (Ev R D) → Var R D → Prop := fun _ v =>
    v.over = true ∧ v.ty = .byte ∧ v.callno = 1 ∧ v.buf = some ((s.takeWhile (· != 0)).map .byte)
  obtain ⟨v, h1, h2⟩ := readAll_inv g k P (by
    rintro cn e v vs vs' done hv ⟨p1, p2, p3, p4⟩ hs
    cases e with
    | data k' xs =>
      rw [step] at hs
      cases hv' : dget k' vs with
      | none => rw [hv'] at hs; cases hs
      | some w =>
        rw [hv'] at hs
        simp only at hs
        split at hs
        · cases hs
        · split at hs
          · cases hs; exact ⟨v, hv, p1, p2, p3, p4⟩
          · rename_i hov
            cases hs
            by_cases hkk : k' = k
            · subst hkk; rw [hv'] at hv; cases hv; exact absurd p1 hov
            · exact ⟨v, by rwa [dget_dset_ne hkk], p1, p2, p3, p4⟩
    | size k' m =>
      rw [step] at hs
      cases hv' : dget k' vs with
      | none => rw [hv'] at hs; cases hs
      | some w =>
        rw [hv'] at hs
        simp only at hs
        split at hs
        · cases hs
        · by_cases hkk : k' = k
          · subst hkk
            rw [hv'] at hv; cases hv
            rw [if_pos ⟨p1, p2⟩] at hs
            cases hs
            exact ⟨_, dget_dset_self _ _ _, p1, p2, p3, p4⟩
          · split at hs
            · cases hs; exact ⟨v, by rwa [dget_dset_ne hkk], p1, p2, p3, p4⟩
            · cases hs; exact ⟨v, by rwa [dget_dset_ne hkk], p1, p2, p3, p4⟩) bs u u' _ [] h0 ⟨rfl, rfl, rfl, rfl⟩ hr
  refine ⟨by rw [value, h1, Option.bind_some]; exact h2.2.2.2, fun hb => ?_⟩
  have hmark := readAll_mark g bs u u' hr hb
  have hc0 : u.callno = 0 := by
    rw [openUv, Option.map_eq_some_iff] at ho
    obtain ⟨vs, _, rfl⟩ := ho
    rfl
  have hl : 0 < bs.length := List.length_pos_iff.2 hb
  simp only [updated, h1, h2.2.2.1, hmark, hc0]
  congr 1
  apply propext
  omega

/-- an item `source` of a file with a variable of that name -/
example : let table := [("source".toList, VTy.byte)]
    let items : List (Name × Item Int Int) := [("source".toList, .chars [99, 121, 103])]
    (items.map Prod.fst).Nodup ∧ dget "source".toList table = some .byte ∧ dget "source".toList items = some (.chars [99, 121, 103]) ∧
    ((openUv plain table items).bind (readAll (.raw 0) [[.size "source".toList 1, .data "source".toList [.byte 1]], []])).isSome = true := by
  refine ⟨by decide +kernel, by decide +kernel, by simp [dget], by decide +kernel⟩

/-- **C155** (others): items change nothing else: what can be read is the same as without them, and so is every variable without an item, or
with one that has no value for it -/
theorem c155_untouched (c : Conv R D) (g : Elem R D) (table : List (Name × VTy)) (items : List (Name × Item R D))
    (hn : (items.map Prod.fst).Nodup) (u u0 : UV R D) (ho : openUv c table items = some u) (ho0 : openUv c table [] = some u0)
    (bs : List (List (Ev R D))) :
    (readAll g bs u).isSome = (readAll g bs u0).isSome ∧
    ∀ k, (dget k items = none ∨ dget k items = some .other ∨ (∃ l, dget k items = some (.int l) ∧ l.length ≠ 1) ∨
        (∃ l, dget k items = some (.real l) ∧ l.length ≠ 1) ∨ (∃ l, dget k items = some (.dble l) ∧ l.length ≠ 1) ∨
        (∃ s, dget k items = some (.chars s) ∧ (s = [] ∨ dget k table ≠ some .byte)) ∨
        (∃ ty, dget k table = some ty ∧ (∀ s, dget k items ≠ some (.chars s)) ∧ ty ≠ .int ∧ ty ≠ .real ∧ ty ≠ .dble)) →
      ∀ u' u0', readAll g bs u = some u' → readAll g bs u0 = some u0' → value u' k = value u0' k ∧ updated u' k = updated u0' k := by
  have hcn : u.callno = u0.callno ∧ u.mark = u0.mark := by
    rw [openUv, Option.map_eq_some_iff] at ho ho0
    obtain ⟨_, _, rfl⟩ := ho
    obtain ⟨_, _, rfl⟩ := ho0
    exact ⟨rfl, rfl⟩
  have hg := open_get hn ho
  have hg0 := open_get (items := []) List.nodup_nil ho0
  have hfl : ∀ j, (dget j u.vars).map Var.flen = (dget j u0.vars).map Var.flen := by
    intro j
    rw [hg, hg0]
    cases dget j table with
    | none => rfl
    | some ty =>
      simp only [Option.map_some, after, dget]
      congr 1
      split
      · rfl
      · split <;> rfl
  refine ⟨(readAll_rel g none bs u u0 hcn hfl (fun _ h => by cases h)).1, fun k hk u' u0' hu hu0 => ?_⟩
  have hsame : dget k u.vars = dget k u0.vars := by
    rw [hg, hg0]
    cases ht : dget k table with
    | none => rfl
    | some ty =>
      simp only [Option.map_some]
      congr 1
      have hkeep : ∀ it, dget k items = some it → verdict c ty it = .fatal ∨ verdict c ty it = .keep := by
        intro it hit
        rcases hk with h | h | ⟨l, h, hl⟩ | ⟨l, h, hl⟩ | ⟨l, h, hl⟩ | ⟨s, h, hs⟩ | ⟨ty', h, hs, h1, h2, h3⟩
        · rw [h] at hit; cases hit
        · rw [h] at hit; cases hit; exact .inr rfl
        · rw [h] at hit; cases hit
          match l, hl with
          | [], _ => exact .inr rfl
          | _ :: _ :: _, _ => exact .inr rfl
        · rw [h] at hit; cases hit
          match l, hl with
          | [], _ => exact .inr rfl
          | _ :: _ :: _, _ => exact .inr rfl
        · rw [h] at hit; cases hit
          match l, hl with
          | [], _ => exact .inr rfl
          | _ :: _ :: _, _ => exact .inr rfl
        · rw [h] at hit; cases hit
          rw [verdict]
          rcases hs with rfl | hs
          · exact .inr rfl
          · split
            · exact .inr rfl
            · split
              · exact .inl rfl
              · rw [if_neg (fun e => hs (by rw [ht, e]))]; exact .inr rfl
        · rw [ht] at h; cases h
          match it, hit with
          | .chars s, hit => exact absurd hit (hs s)
          | .int [], _ => exact .inr rfl
          | .int [_], _ => cases ty <;> first | exact .inr rfl | exact absurd rfl h1 | exact absurd rfl h2 | exact absurd rfl h3
          | .int (_ :: _ :: _), _ => exact .inr rfl
          | .real [], _ => exact .inr rfl
          | .real [_], _ => cases ty <;> first | exact .inr rfl | exact absurd rfl h1 | exact absurd rfl h2 | exact absurd rfl h3
          | .real (_ :: _ :: _), _ => exact .inr rfl
          | .dble [], _ => exact .inr rfl
          | .dble [_], _ => cases ty <;> first | exact .inr rfl | exact absurd rfl h1 | exact absurd rfl h2 | exact absurd rfl h3
          | .dble (_ :: _ :: _), _ => exact .inr rfl
          | .other, _ => exact .inr rfl
      simp only [after, dget]
      cases hit : dget k items with
      | none => rfl
      | some it =>
        show (match verdict c ty it with | .by b => _ | _ => _) = _
        rcases hkeep it hit with h | h <;> rw [h]
  have := (readAll_rel g (some k) bs u u0 hcn hfl (fun j h => by cases h; exact hsame)).2 u' u0' hu hu0
  exact ⟨by rw [value, value, this.2 k rfl], by rw [updated, updated, this.2 k rfl, this.1]⟩

/-- a variable without an item next to one with -/
example : let table := [("ra".toList, VTy.real), ("time".toList, VTy.dble)]
    let items : List (Name × Item Int Int) := [("ra".toList, .dble [7])]
    (items.map Prod.fst).Nodup ∧ (openUv plain table items).isSome = true ∧ (openUv plain table []).isSome = true ∧ dget "time".toList items = none := by
  refine ⟨by decide +kernel, by decide +kernel, by decide +kernel, by simp [dget]⟩

/-- **C155** (opening): a file can be opened exactly if no item spoils a variable of its name: no long strings, and no floating point numbers
for integers -/
theorem c155_opens (c : Conv R D) (table : List (Name × VTy)) (items : List (Name × Item R D)) :
    (openUv c table items).isSome = true ↔ ∀ k it ty, (k, it) ∈ items → dget k table = some ty → ¬ Spoils ty it := by
  rw [openUv, Option.isSome_map, override_some]
  constructor
  · intro h k it ty hm ht
    exact h k it (fresh ty) hm (by rw [dget_map_fresh, ht]; rfl)
  · intro h k it v hm hv
    rw [dget_map_fresh, Option.map_eq_some_iff] at hv
    obtain ⟨ty, ht, rfl⟩ := hv
    exact h k it ty hm ht

/-- a file that opens -/
example : (openUv plain [("nchan".toList, VTy.int)] [("nchan".toList, .int [4]), ("history".toList, .other)]).isSome = true := by decide +kernel

/-- **C155** (violated): a number for an integer variable that was not written as an integer makes the file unreadable, as does a string of
128 characters, also for a variable that is not a string -/
theorem c155_open_violated (c : Conv R D) (k : Name) (x : D) (y : R) (ty : VTy) :
    openUv c [(k, .int)] [(k, .dble [x])] = none ∧ openUv c [(k, .int)] [(k, .real [y])] = none ∧
    openUv c [(k, ty)] [(k, .chars (List.replicate 128 65))] = none ∧ (openUv c [(k, ty)] []).isSome = true := by
  have aux : ∀ (t : VTy) (it : Item R D), Spoils t it → openUv c [(k, t)] [(k, it)] = none := by
    intro t it h
    cases ho : openUv c [(k, t)] [(k, it)] with
    | none => rfl
    | some u => exact absurd h ((c155_opens c [(k, t)] [(k, it)]).1 (by rw [ho]; rfl) k it t List.mem_cons_self (by rw [dget, if_pos rfl]))
  exact ⟨aux _ _ ⟨rfl, rfl⟩, aux _ _ ⟨rfl, rfl⟩, aux _ _ (by show 127 < _; decide +kernel), rfl⟩

/-- **C155** (violated): a variable called `obstype` is not read as it was written: files with data have an item of this name, uvio.c 911-916.
(The items `ncorr`, `nwcorr` and `vislen` are 64 bit integers and do no harm.) -/
theorem c155_obstype_violated : ∃ u u', openUv plain [("obstype".toList, .byte)]
      [("vislen".toList, .other), ("obstype".toList, .chars ("crosscorrelation".toList.map Char.toNat))] = some u ∧
    readAll (.raw 0) [[.size "obstype".toList 2, .data "obstype".toList [.byte 104, .byte 105]]] u = some u' ∧
    value u' "obstype".toList = some ("crosscorrelation".toList.map fun x => .byte x.toNat) ∧
    value u' "obstype".toList ≠ some [.byte 104, .byte 105] := by
  refine ⟨_, _, rfl, rfl, ?_, ?_⟩ <;> decide +kernel

end Verif.Mir.Override
