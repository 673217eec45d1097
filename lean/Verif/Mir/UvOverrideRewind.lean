import Verif.Mir.UvOverride
/-!
# Items that replace variables, after a rewind (C155)

`uvrewind_c` of `/repo/aipy/_miriad/mir/uvio.c` with the model of `Verif.Mir.UvOverride`.
-/
namespace Verif.Mir.Override
open Verif.Util

variable {R D : Type}

/-! ## Model -/

/-- `uvrewind_c`, uvio.c 1308-1338, as far as variables are concerned.  The records are read from the start because the caller gives them
again; handles of tracked variables are left out. -/
def rewind (u : UV R D) : UV R D :=
  ⟨u.vars.map fun p => (p.1, { p.2 with callno := if p.2.over then 1 else 0 }), 0, 0⟩

/-! ## Lemmas -/

theorem dget_map_val {α β : Type} (f : α → β) (k : Name) (l : List (Name × α)) :
    dget k (l.map fun p => (p.1, f p.2)) = (dget k l).map f := by
  induction l with
  | nil => rfl
  | cons p l ih =>
    obtain ⟨j, a⟩ := p
    rw [List.map_cons]
    by_cases h : j = k
    · simp [dget, h]
    · simp only [dget, if_neg h]; exact ih

theorem rewind_get (u : UV R D) (k : Name) :
    dget k (rewind u).vars = (dget k u.vars).map fun v => { v with callno := if v.over then 1 else 0 } :=
  dget_map_val (fun v : Var R D => ({ v with callno := if v.over then 1 else 0 } : Var R D)) k u.vars

theorem stepVar_over {g : Elem R D} {cn : Nat} {v v' : Var R D} {e : Ev R D} (h : stepVar g cn v e = some v') (ho : v.over = true)
    (ht : v.ty ≠ .byte) (x : Elem R D) (n : Nat) (hn : n ≠ 0) (hb : v.buf = some (List.replicate n x)) :
    v'.over = true ∧ v'.ty = v.ty ∧
      match e with
      | .size _ m => v'.callno = cn ∧ m ≠ 0 ∧ v'.buf = some (List.replicate m x)
      | .data _ _ => v'.callno = v.callno ∧ v'.buf = v.buf := by
  cases e with
  | size k m =>
    rw [stepVar] at h
    by_cases hm : m = 0
    · rw [if_pos hm] at h; cases h
    · rw [if_neg hm, if_neg (fun hh => ht hh.2)] at h
      cases h
      refine ⟨ho, rfl, rfl, hm, ?_⟩
      rw [hb, Option.getD_some, if_pos ho, resize_headD g x n m hm, if_neg hn]
  | data k xs =>
    rw [stepVar] at h
    by_cases hx : xs = [] ∨ xs.length ≠ v.flen
    · rw [if_pos hx] at h; cases h
    · rw [if_neg hx, if_pos ho] at h
      cases h
      exact ⟨ho, rfl, rfl, rfl⟩

/-- a replaced variable: its length, its number and when it was last announced -/
def Inv (k : Name) (ty : VTy) (x : Elem R D) (vs : List (Name × Var R D)) (n cn : Nat) : Prop :=
  ∃ v, dget k vs = some v ∧ v.over = true ∧ v.ty = ty ∧ n ≠ 0 ∧ v.buf = some (List.replicate n x) ∧ v.callno = cn

theorem step_Inv {g : Elem R D} {cn : Nat} {k : Name} {ty : VTy} {x : Elem R D} {vs vs' : List (Name × Var R D)} {n c0 : Nat} (ht : ty ≠ .byte)
    (hi : Inv k ty x vs n c0) {e : Ev R D} (h : step g cn vs e = some vs') :
    (∃ m, e = .size k m ∧ Inv k ty x vs' m cn) ∨ ((∀ m, e ≠ .size k m) ∧ Inv k ty x vs' n c0) := by
  obtain ⟨v, h1, h2, h3, h4, h5, h6⟩ := hi
  have a := step_get g cn vs e
  cases hb : (dget e.key vs).bind (fun v => stepVar g cn v e) with
  | none => rw [hb] at a; rw [a] at h; cases h
  | some w =>
    rw [hb] at a
    obtain ⟨ws, a1, a2, a3⟩ := a
    rw [a1] at h; cases h
    by_cases hk : e.key = k
    · rw [hk, h1, Option.bind_some] at hb
      rw [hk] at a2
      have hs := stepVar_over hb h2 (by rw [h3]; exact ht) x n h4 h5
      cases e with
      | size k' m =>
        cases hk
        exact .inl ⟨m, rfl, w, a2, hs.1, hs.2.1.trans h3, hs.2.2.2.1, hs.2.2.2.2, hs.2.2.1⟩
      | data k' xs =>
        exact .inr ⟨(fun m hm => by cases hm), w, a2, hs.1, hs.2.1.trans h3, h4, hs.2.2.2.trans h5, hs.2.2.1.trans h6⟩
    · exact .inr ⟨fun m hm => hk (by rw [hm]; rfl), v, by rw [a3 k (Ne.symm hk)]; exact h1, h2, h3, h4, h5, h6⟩

theorem steps_Inv {g : Elem R D} {cn : Nat} {k : Name} {ty : VTy} {x : Elem R D} (ht : ty ≠ .byte) (es : List (Ev R D)) :
    ∀ (vs vs' : List (Name × Var R D)) (n c0 : Nat), Inv k ty x vs n c0 → steps g cn es vs = some vs' →
      ∃ c1, Inv k ty x vs' (lastSize k es n) c1 ∧ ((∃ m, Ev.size k m ∈ es) → c1 = cn) ∧ ((¬ ∃ m, Ev.size k m ∈ es) → c1 = c0) := by
  induction es with
  | nil => intro vs vs' n c0 hi h; cases h; exact ⟨c0, hi, (fun ⟨m, hm⟩ => by cases hm), fun _ => rfl⟩
  | cons e es ih =>
    intro vs vs' n c0 hi h
    rw [steps] at h
    cases hs : step g cn vs e with
    | none => rw [hs] at h; cases h
    | some ws =>
      rw [hs] at h
      rcases step_Inv ht hi hs with ⟨m, rfl, hi'⟩ | ⟨hne, hi'⟩
      · obtain ⟨c1, h1, h2, h3⟩ := ih ws vs' m cn hi' h
        refine ⟨c1, by rw [lastSize, if_pos rfl]; exact h1, fun _ => ?_, fun hn => absurd ⟨m, List.mem_cons_self⟩ hn⟩
        by_cases hx : ∃ m, Ev.size k m ∈ es
        · exact h2 hx
        · exact h3 hx
      · obtain ⟨c1, h1, h2, h3⟩ := ih ws vs' n c0 hi' h
        have hl : lastSize k (e :: es) n = lastSize k es n := by
          cases e with
          | size k' m =>
            rw [lastSize, if_neg]
            intro hk; exact hne m (by rw [hk])
          | data k' xs => rfl
        refine ⟨c1, by rw [hl]; exact h1, fun ⟨m, hm⟩ => ?_, fun hn => h3 fun ⟨m, hm⟩ => hn ⟨m, List.mem_cons_of_mem _ hm⟩⟩
        rcases List.mem_cons.1 hm with h' | h'
        · exact absurd h'.symm (hne m)
        · exact h2 ⟨m, h'⟩

theorem readBlock_Inv {g : Elem R D} {k : Name} {ty : VTy} {x : Elem R D} (ht : ty ≠ .byte) {u u' : UV R D} {n c0 : Nat} {es : List (Ev R D)}
    (hi : Inv k ty x u.vars n c0) (h : readBlock g u es = some u') :
    u'.callno = u.callno + 1 ∧ u'.mark = u.callno + 1 ∧ ∃ c1, Inv k ty x u'.vars (lastSize k es n) c1 ∧
      ((∃ m, Ev.size k m ∈ es) → c1 = u.callno + 1) ∧ ((¬ ∃ m, Ev.size k m ∈ es) → c1 = c0) := by
  rw [readBlock] at h
  cases hs : steps g (u.callno + 1) es u.vars with
  | none => rw [hs] at h; cases h
  | some vs =>
    rw [hs] at h; cases h
    exact ⟨rfl, rfl, steps_Inv ht es u.vars vs n c0 hi hs⟩

theorem lastSize_app (k : Name) (a b : List (Ev R D)) (n : Nat) : lastSize k (a ++ b) n = lastSize k b (lastSize k a n) := by
  induction a generalizing n with
  | nil => rfl
  | cons e a ih => cases e <;> rw [List.cons_append, lastSize, lastSize, ih]

theorem readAll_Inv {g : Elem R D} {k : Name} {ty : VTy} {x : Elem R D} (ht : ty ≠ .byte) (bs : List (List (Ev R D))) :
    ∀ (u u' : UV R D) (n c0 : Nat), Inv k ty x u.vars n c0 → readAll g bs u = some u' → ∃ c1, Inv k ty x u'.vars (lastSize k bs.flatten n) c1 := by
  induction bs with
  | nil => intro u u' n c0 hi h; cases h; exact ⟨c0, hi⟩
  | cons es r ih =>
    intro u u' n c0 hi h
    rw [readAll] at h
    cases hb : readBlock g u es with
    | none => rw [hb] at h; cases h
    | some w =>
      rw [hb] at h
      obtain ⟨_, _, c1, h1, _, _⟩ := readBlock_Inv ht hi hb
      rw [List.flatten_cons, lastSize_app]
      exact ih w u' _ c1 h1 h

theorem Inv_updated {k : Name} {ty : VTy} {x : Elem R D} {u : UV R D} {n c : Nat} (h : Inv k ty x u.vars n c) :
    updated u k = true ↔ u.mark ≤ c := by
  obtain ⟨v, h1, _, _, _, _, rfl⟩ := h
  simp [updated, h1]

theorem last_updated {g : Elem R D} {k : Name} {ty : VTy} {x : Elem R D} (ht : ty ≠ .byte) (es : List (Ev R D)) (bs : List (List (Ev R D))) :
    ∀ (u u' : UV R D) (n c0 : Nat), Inv k ty x u.vars n c0 → 1 ≤ c0 → c0 ≤ max 1 u.callno → readAll g (bs ++ [es]) u = some u' →
      (updated u' k = true ↔ (bs = [] ∧ u.callno = 0) ∨ ∃ m, Ev.size k m ∈ es) := by
  induction bs with
  | nil =>
    intro u u' n c0 hi h1 h2 h
    rw [List.nil_append, readAll] at h
    cases hb : readBlock g u es with
    | none => rw [hb] at h; cases h
    | some w =>
      rw [hb] at h
      cases h
      obtain ⟨_, a, c1, b, c, d⟩ := readBlock_Inv ht hi hb
      rw [Inv_updated b, a]
      by_cases hx : ∃ m, Ev.size k m ∈ es
      · rw [c hx]; exact ⟨fun _ => .inr hx, fun _ => Nat.le_refl _⟩
      · rw [d hx]
        refine ⟨fun hle => .inl ⟨rfl, by omega⟩, fun hh => ?_⟩
        rcases hh with hh | hh
        · omega
        · exact absurd hh hx
  | cons fs bs ih =>
    intro u u' n c0 hi h1 h2 h
    rw [List.cons_append, readAll] at h
    cases hb : readBlock g u fs with
    | none => rw [hb] at h; cases h
    | some w =>
      rw [hb] at h
      obtain ⟨a, _, c1, b, c, d⟩ := readBlock_Inv ht hi hb
      have hc1 : 1 ≤ c1 ∧ c1 ≤ max 1 w.callno := by
        by_cases hx : ∃ m, Ev.size k m ∈ fs
        · rw [c hx]; omega
        · rw [d hx]; omega
      rw [ih w u' _ c1 b hc1.1 hc1.2 h]
      constructor
      · rintro (⟨_, h0⟩ | hh)
        · omega
        · exact .inr hh
      · rintro (⟨h0, _⟩ | hh)
        · cases h0
        · exact .inr hh

theorem open_Inv {c : Conv R D} {table : List (Name × VTy)} {items : List (Name × Item R D)} (hn : (items.map Prod.fst).Nodup) {k : Name} {ty : VTy}
    {it : Item R D} {x : Elem R D} (hk : dget k table = some ty) (hi : dget k items = some it) (hm : Means c it ty x) {u : UV R D}
    (ho : openUv c table items = some u) : Inv k ty x u.vars 1 1 ∧ u.callno = 0 := by
  have h0 := open_get hn ho k
  rw [hk, Option.map_some] at h0
  have ha : after c items k (fresh ty) = { (fresh ty : Var R D) with over := true, buf := some [x], callno := 1 } := by
    simp only [after, hi]
    show (match verdict c ty it with | .by b => _ | _ => _) = _
    rw [verdict_means hm]
  rw [ha] at h0
  refine ⟨⟨_, h0, rfl, rfl, by decide, rfl, rfl⟩, ?_⟩
  rw [openUv, Option.map_eq_some_iff] at ho
  obtain ⟨_, _, rfl⟩ := ho
  rfl

theorem step_str {g : Elem R D} {cn : Nat} {k : Name} {vs vs' : List (Name × Var R D)} {v : Var R D} (h1 : dget k vs = some v)
    (ho : v.over = true) (ht : v.ty = .byte) {e : Ev R D} (h : step g cn vs e = some vs') :
    ∃ v', dget k vs' = some v' ∧ v'.over = true ∧ v'.ty = .byte ∧ v'.buf = v.buf ∧ v'.callno = v.callno := by
  have a := step_get g cn vs e
  cases hb : (dget e.key vs).bind (fun v => stepVar g cn v e) with
  | none => rw [hb] at a; rw [a] at h; cases h
  | some w =>
    rw [hb] at a
    obtain ⟨ws, a1, a2, a3⟩ := a
    rw [a1] at h; cases h
    by_cases hk : e.key = k
    · rw [hk, h1, Option.bind_some] at hb
      rw [hk] at a2
      cases e with
      | size k' m =>
        rw [stepVar] at hb
        by_cases hm : m = 0
        · rw [if_pos hm] at hb; cases hb
        · rw [if_neg hm, if_pos ⟨ho, ht⟩] at hb
          cases hb
          exact ⟨_, a2, ho, ht, rfl, rfl⟩
      | data k' xs =>
        rw [stepVar] at hb
        by_cases hx : xs = [] ∨ xs.length ≠ v.flen
        · rw [if_pos hx] at hb; cases hb
        · rw [if_neg hx, if_pos ho] at hb
          cases hb
          exact ⟨_, a2, ho, ht, rfl, rfl⟩
    · exact ⟨v, by rw [a3 k (Ne.symm hk)]; exact h1, ho, ht, rfl, rfl⟩

theorem steps_str {g : Elem R D} {cn : Nat} {k : Name} (es : List (Ev R D)) : ∀ (vs vs' : List (Name × Var R D)) (v : Var R D),
    dget k vs = some v → v.over = true → v.ty = .byte → steps g cn es vs = some vs' →
    ∃ v', dget k vs' = some v' ∧ v'.over = true ∧ v'.ty = .byte ∧ v'.buf = v.buf ∧ v'.callno = v.callno := by
  induction es with
  | nil => intro vs vs' v h1 h2 h3 h; cases h; exact ⟨v, h1, h2, h3, rfl, rfl⟩
  | cons e es ih =>
    intro vs vs' v h1 h2 h3 h
    rw [steps] at h
    cases hs : step g cn vs e with
    | none => rw [hs] at h; cases h
    | some ws =>
      rw [hs] at h
      obtain ⟨w, a1, a2, a3, a4, a5⟩ := step_str h1 h2 h3 hs
      obtain ⟨x, b1, b2, b3, b4, b5⟩ := ih ws vs' w a1 a2 a3 h
      exact ⟨x, b1, b2, b3, b4.trans a4, b5.trans a5⟩

theorem readAll_str {g : Elem R D} {k : Name} (bs : List (List (Ev R D))) : ∀ (u u' : UV R D) (v : Var R D),
    dget k u.vars = some v → v.over = true → v.ty = .byte → readAll g bs u = some u' →
    ∃ v', dget k u'.vars = some v' ∧ v'.over = true ∧ v'.ty = .byte ∧ v'.buf = v.buf ∧ v'.callno = v.callno := by
  induction bs with
  | nil => intro u u' v h1 h2 h3 h; cases h; exact ⟨v, h1, h2, h3, rfl, rfl⟩
  | cons es r ih =>
    intro u u' v h1 h2 h3 h
    rw [readAll, readBlock] at h
    cases hs : steps g (u.callno + 1) es u.vars with
    | none => rw [hs] at h; cases h
    | some ws =>
      rw [hs] at h
      obtain ⟨w, a1, a2, a3, a4, a5⟩ := steps_str es u.vars ws v h1 h2 h3 hs
      obtain ⟨x, b1, b2, b3, b4, b5⟩ := ih _ u' w a1 a2 a3 h
      exact ⟨x, b1, b2, b3, b4.trans a4, b5.trans a5⟩

/-! ## Theorems -/

/-- **C155** (numbers, updates): a variable with an item of one number under its name counts as updated in the first block and in the blocks
that announce its length, in no others -/
theorem c155_updates (c : Conv R D) (g : Elem R D) (table : List (Name × VTy)) (items : List (Name × Item R D))
    (hn : (items.map Prod.fst).Nodup) (k : Name) (ty : VTy) (it : Item R D) (x : Elem R D) (hk : dget k table = some ty)
    (hi : dget k items = some it) (hm : Means c it ty x) (u u' : UV R D) (ho : openUv c table items = some u)
    (bs : List (List (Ev R D))) (es : List (Ev R D)) (hr : readAll g (bs ++ [es]) u = some u') :
    updated u' k = true ↔ bs = [] ∨ ∃ m, Ev.size k m ∈ es := by
  obtain ⟨h1, h2⟩ := open_Inv hn hk hi hm ho
  have hty : ty ≠ .byte := by cases hm <;> decide
  rw [last_updated hty es bs u u' 1 1 h1 (by omega) (by omega) hr, h2]
  simp

/-- **C155** (rewinding): after a rewind, whatever was read before, such a variable still has its number in all of its elements, and counts as
updated in the first block again -/
theorem c155_rewind (c : Conv R D) (g : Elem R D) (table : List (Name × VTy)) (items : List (Name × Item R D))
    (hn : (items.map Prod.fst).Nodup) (k : Name) (ty : VTy) (it : Item R D) (x : Elem R D) (hk : dget k table = some ty)
    (hi : dget k items = some it) (hm : Means c it ty x) (u u' u'' : UV R D) (ho : openUv c table items = some u)
    (as bs : List (List (Ev R D))) (es : List (Ev R D)) (ha : readAll g as u = some u') (hr : readAll g (bs ++ [es]) (rewind u') = some u'') :
    value u'' k = some (List.replicate (lastSize k (as.flatten ++ bs.flatten ++ es) 1) x) ∧
    (updated u'' k = true ↔ bs = [] ∨ ∃ m, Ev.size k m ∈ es) := by
  obtain ⟨h1, _⟩ := open_Inv hn hk hi hm ho
  have hty : ty ≠ .byte := by cases hm <;> decide
  obtain ⟨c1, v, a1, a2, a3, a4, a5, _⟩ := readAll_Inv hty as u u' 1 1 h1 ha
  have hw : Inv k ty x (rewind u').vars (lastSize k as.flatten 1) 1 :=
    ⟨{ v with callno := if v.over then 1 else 0 }, by rw [rewind_get, a1, Option.map_some], a2, a3, a4, a5, by simp [a2]⟩
  constructor
  · obtain ⟨_, v, b1, _, _, _, b5, _⟩ := readAll_Inv hty (bs ++ [es]) (rewind u') u'' _ 1 hw hr
    rw [value, b1, Option.bind_some, b5, List.append_assoc, lastSize_app k as.flatten]
    simp
  · rw [last_updated hty es bs (rewind u') u'' _ 1 hw (by omega) (by simp [rewind]) hr]
    simp [rewind]

/-- the item `ra` read twice -/
example : let table := [("ra".toList, VTy.real)]
    let items : List (Name × Item Int Int) := [("ra".toList, .dble [7])]
    let bs : List (List (Ev Int Int)) := [[.size "ra".toList 2, .data "ra".toList [.real 1, .real 2]], []]
    (items.map Prod.fst).Nodup ∧ dget "ra".toList table = some .real ∧ dget "ra".toList items = some (.dble [7]) ∧
    Means plain (.dble [7] : Item Int Int) .real (.real 7) ∧
    (((openUv plain table items).bind (readAll (.raw 0) bs)).bind fun u => readAll (.raw 0) bs (rewind u)).isSome = true := by
  refine ⟨by decide +kernel, by decide +kernel, by simp [dget], .dr 7, by decide +kernel⟩

/-- **C155** (strings, rewinding): after a rewind, whatever was read before, a string variable with a string item under its name is still that
string, and counts as updated in the first block only -/
theorem c155_rewind_string (c : Conv R D) (g : Elem R D) (table : List (Name × VTy)) (items : List (Name × Item R D))
    (hn : (items.map Prod.fst).Nodup) (k : Name) (s : List Nat) (hk : dget k table = some .byte)
    (hi : dget k items = some (.chars s)) (hs0 : s ≠ []) (u u' u'' : UV R D) (ho : openUv c table items = some u)
    (as bs : List (List (Ev R D))) (ha : readAll g as u = some u') (hr : readAll g bs (rewind u') = some u'') :
    value u'' k = some ((s.takeWhile (· != 0)).map .byte) ∧ (bs ≠ [] → updated u'' k = decide (bs.length = 1)) := by
  have hv := (c155_string c g table items hn k s hk hi hs0 u u' ho as ha).1
  have h0 := open_get hn ho k
  rw [hk, Option.map_some] at h0
  have hov : (after c items k (fresh .byte : Var R D)).over = true := by
    have hb := (c155_string c g table items hn k s hk hi hs0 u u ho [] rfl).1
    rw [value, h0, Option.bind_some] at hb
    simp only [after, hi] at hb ⊢
    revert hb
    show (match verdict c .byte (.chars s) with | .by b => _ | _ => _ : Var R D).buf = _ →
      (match verdict c .byte (.chars s) with | .by b => _ | _ => _ : Var R D).over = true
    cases verdict c .byte (.chars s) with
    | fatal => intro hb; cases hb
    | keep => intro hb; cases hb
    | «by» b => intro _; rfl
  have hty : (after c items k (fresh .byte : Var R D)).ty = .byte := by
    simp only [after, hi]
    show (match verdict c .byte (.chars s) with | .by b => _ | _ => _ : Var R D).ty = .byte
    cases verdict c .byte (.chars s) <;> rfl
  obtain ⟨v, a1, a2, a3, _⟩ := readAll_str as u u' _ h0 hov hty ha
  rw [value, a1, Option.bind_some] at hv
  have hw : dget k (rewind u').vars = some { v with callno := 1 } := by
    rw [rewind_get, a1, Option.map_some, a2]; rfl
  obtain ⟨w, b1, _, _, b4, b5⟩ := readAll_str bs (rewind u') u'' _ hw a2 a3 hr
  refine ⟨by rw [value, b1, Option.bind_some, b4]; exact hv, fun hb => ?_⟩
  have hmark := readAll_mark g bs (rewind u') u'' hr hb
  have hl : 0 < bs.length := List.length_pos_iff.2 hb
  simp only [updated, b1, b5, hmark]
  show decide (0 + bs.length ≤ 1) = _
  congr 1
  apply propext
  omega

/-- the item `source` read twice -/
example : let table := [("source".toList, VTy.byte)]
    let items : List (Name × Item Int Int) := [("source".toList, .chars [99, 121, 103])]
    let bs : List (List (Ev Int Int)) := [[.size "source".toList 1, .data "source".toList [.byte 1]], []]
    (items.map Prod.fst).Nodup ∧ dget "source".toList table = some .byte ∧ dget "source".toList items = some (.chars [99, 121, 103]) ∧
    (((openUv plain table items).bind (readAll (.raw 0) bs)).bind fun u => readAll (.raw 0) bs (rewind u)).isSome = true := by
  refine ⟨by decide +kernel, by decide +kernel, by simp [dget], by decide +kernel⟩

end Verif.Mir.Override
