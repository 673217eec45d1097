import Verif.Mir.UvVis

/-!
# Property C48 : visibility records read back as written
-/
namespace Verif.Mir.Uv

open Verif.Mir.Hio (Byte)
open Verif.Mir.Mask (Mask mkreadFlags mkopen Op Flags)

/-! ## Specification -/

/-- equality of floating point numbers is symmetric and transitive (not reflexive: NaN) -/
structure FpLaws (o : FpOps) : Prop where
  dsymm : ∀ a b, o.deq a b = true → o.deq b a = true
  dtrans : ∀ a b c, o.deq a b = true → o.deq b c = true → o.deq a c = true
  fsymm : ∀ a b, o.feq a b = true → o.feq b a = true
  ftrans : ∀ a b c, o.feq a b = true → o.feq b c = true → o.feq a c = true

/-- the same number: the same bits, or equal as numbers (`0.0` and `-0.0`) -/
def SameD (o : FpOps) (a b : Nat) : Prop := a = b ∨ o.deq a b = true
def SameF (o : FpOps) (a b : Nat) : Prop := a = b ∨ o.feq a b = true

/-- a visibility of at least one channel, with as many data as flags -/
structure VisOk (x : Vis) : Prop where
  u : x.u < 2 ^ 64
  v : x.v < 2 ^ 64
  w : x.w < 2 ^ 64
  time : x.time < 2 ^ 64
  bl : x.bl < 2 ^ 32
  one : 0 < x.flags.length
  data : x.data.length = 8 * x.flags.length
  small : 8 * x.flags.length < 2 ^ 31

/-- the scaling of whole channels gives one 16 bit integer for every number -/
structure QuantOk (q : Quant) : Prop where
  len : ∀ d, d.length % 8 = 0 → (q.ints d).length = d.length
  fits : ∀ d, d.length % 8 = 0 → Fits16 (q.ints d)
  scale : ∀ d, q.scale d < 2 ^ 32

/-- the value that some assignments give to a variable: the last one that is not empty -/
def lastGiven : List User → Name → Option (List Byte)
  | [], _ => none
  | p :: ps, nm =>
    match lastGiven ps nm with
    | some d => some d
    | none => if p.name = nm ∧ p.data ≠ [] then some p.data else none

/-- variables of the preamble that are assigned before a visibility is written have the right types, and in the end the
value they have in its preamble -/
structure Agrees (b : Block) : Prop where
  types : ∀ p ∈ b.users, p.data ≠ [] →
    (p.name = nmCoord → p.ty = .dble) ∧ (p.name = nmTime → p.ty = .dble) ∧ (p.name = nmBl → p.ty = .real)
  coord : ∀ d, lastGiven b.users nmCoord = some d → d = coordBytes b.vis
  time : ∀ d, lastGiven b.users nmTime = some d → d = be64 b.vis.time
  bl : ∀ d, lastGiven b.users nmBl = some d → d = be32 b.vis.bl

structure BlockOk (b : Block) : Prop where
  vis : VisOk b.vis
  users : ∀ p ∈ b.users, EvOk p.ev
  agrees : Agrees b

/-- the variable is assigned in these assignments -/
def Sets (ps : List User) (name : Name) : Prop := ∃ p ∈ ps, p.name = name ∧ p.data ≠ []

/-- the numbers that stand for "not written yet" are not the ones of the first preamble -/
structure Fresh (o : FpOps) (b : Block) : Prop where
  coord : ¬ Sets b.users nmCoord → o.deq (o.add1000 b.vis.u) b.vis.u = false
  time : ¬ Sets b.users nmTime → o.deq b.vis.time (o.add1000 b.vis.w) = false
  bl : ¬ Sets b.users nmBl → o.feq b.vis.bl (o.bl1000 b.vis.time) = false

/-- the data that should be read -/
def dataOf (q : Quant) (mode : Ty) (v : Vis) : Data :=
  if mode = .int2 then .scaled (q.scale v.data) (q.ints v.data) else .plain v.data

/-- what is read is what was written -/
structure Matches (o : FpOps) (q : Quant) (mode : Ty) (out : Out) (x : Vis) : Prop where
  u : SameD o out.u x.u
  v : SameD o out.v x.v
  w : ∃ z, out.w = some z ∧ SameD o z x.w
  time : SameD o out.time x.time
  bl : SameF o out.bl x.bl
  data : out.data = dataOf q mode x
  flags : out.flags = x.flags

/-! ## The values in the stream -/

theorem lastGiven_sets (nm : Name) (ps : List User) : Sets ps nm ↔ ∃ d, lastGiven ps nm = some d := by
  induction ps with
  | nil => exact ⟨fun ⟨p, hp, _⟩ => by simp at hp, fun ⟨d, hd⟩ => by simp [lastGiven] at hd⟩
  | cons p ps ih =>
    unfold lastGiven
    cases hl : lastGiven ps nm with
    | some d =>
      obtain ⟨p', hp', h⟩ := ih.2 ⟨d, hl⟩
      exact ⟨fun _ => ⟨d, rfl⟩, fun _ => ⟨p', List.mem_cons_of_mem _ hp', h⟩⟩
    | none =>
      simp only
      constructor
      · rintro ⟨p', hp', h⟩
        rcases List.mem_cons.1 hp' with rfl | hp'
        · exact ⟨p'.data, by rw [if_pos h]⟩
        · obtain ⟨d, hd⟩ := ih.1 ⟨p', hp', h⟩
          rw [hl] at hd
          exact absurd hd (by simp)
      · rintro ⟨d, hd⟩
        by_cases h : p.name = nm ∧ p.data ≠ []
        · exact ⟨p, List.mem_cons_self, h⟩
        · rw [if_neg h] at hd
          exact absurd hd (by simp)

theorem lastGiven_fold (nm : Name) (ps : List User) (acc : Option (List Byte)) :
    (ps.map User.ev).foldl (assign nm) acc = (lastGiven ps nm).orElse (fun _ => acc) := by
  induction ps generalizing acc with
  | nil => rfl
  | cons p ps ih =>
    simp only [List.map_cons, List.foldl_cons]
    rw [ih]
    have e : lastGiven (p :: ps) nm = match lastGiven ps nm with
      | some d => some d
      | none => if p.name = nm ∧ p.data ≠ [] then some p.data else none := rfl
    rw [e]
    cases hl : lastGiven ps nm with
    | some d => rfl
    | none =>
      show (if p.name = nm ∧ p.data ≠ [] then some p.data else acc) = _
      simp only
      split <;> rfl

theorem users_fold (nm : Name) (d : List Byte) (ps : List User)
    (h : ∀ d', lastGiven ps nm = some d' → d' = d) (acc : Option (List Byte)) :
    (Sets ps nm → (ps.map User.ev).foldl (assign nm) acc = some d) ∧
    (¬ Sets ps nm → (ps.map User.ev).foldl (assign nm) acc = acc) := by
  rw [lastGiven_fold]
  constructor
  · intro hs
    obtain ⟨d', hd'⟩ := (lastGiven_sets nm ps).1 hs
    rw [hd', h d' hd']
    rfl
  · intro hs
    cases hl : lastGiven ps nm with
    | none => rfl
    | some d' => exact absurd ((lastGiven_sets nm ps).2 ⟨d', hl⟩) hs

theorem coordBytes_ne (v : Vis) : coordBytes v ≠ [] := by simp [coordBytes, be64, be32]
theorem be64_ne (n : Nat) : be64 n ≠ [] := by simp [be64, be32]
theorem be32_ne (n : Nat) : be32 n ≠ [] := by simp [be32]

theorem assign_put (nm : Name) (acc : Option (List Byte)) (n : Name) (ty : Ty) (d : List Byte) :
    assign nm acc (.put n ty d) = if n = nm ∧ d ≠ [] then some d else acc := rfl

theorem assign_noCheck (nm : Name) (acc : Option (List Byte)) (n : Name) (ty : Ty) :
    assign nm acc (.noCheck n ty) = acc := rfl

theorem assign_next (nm : Name) (acc : Option (List Byte)) : assign nm acc .next = acc := rfl

theorem vis_coord (o : FpOps) (q : Quant) (mode : Ty) (first : Bool) (n0 : Nat) (c : Cache) (v : Vis)
    (acc : Option (List Byte)) : (visEvs o q mode first n0 c v).foldl (assign nmCoord) acc =
      if coordEq o c v then acc else some (coordBytes v) := by
  unfold visEvs corrEvs
  cases first <;> by_cases h1 : v.flags.length ≠ n0 <;> by_cases h2 : mode = .int2 <;> by_cases h3 : coordEq o c v = true <;>
    by_cases h4 : o.deq v.time c.time = true <;> by_cases h5 : o.feq v.bl c.bl = true <;>
    simp [h1, h2, h3, h4, h5, assign_put, assign_noCheck, assign_next, nmCoord, nmTime, nmBl, nmNchan, nmCorr, nmTscale,
      coordBytes_ne]

theorem vis_time (o : FpOps) (q : Quant) (mode : Ty) (first : Bool) (n0 : Nat) (c : Cache) (v : Vis)
    (acc : Option (List Byte)) : (visEvs o q mode first n0 c v).foldl (assign nmTime) acc =
      if o.deq v.time c.time then acc else some (be64 v.time) := by
  unfold visEvs corrEvs
  cases first <;> by_cases h1 : v.flags.length ≠ n0 <;> by_cases h2 : mode = .int2 <;> by_cases h3 : coordEq o c v = true <;>
    by_cases h4 : o.deq v.time c.time = true <;> by_cases h5 : o.feq v.bl c.bl = true <;>
    simp [h1, h2, h3, h4, h5, assign_put, assign_noCheck, assign_next, nmCoord, nmTime, nmBl, nmNchan, nmCorr, nmTscale,
      be64_ne]

theorem vis_bl (o : FpOps) (q : Quant) (mode : Ty) (first : Bool) (n0 : Nat) (c : Cache) (v : Vis)
    (acc : Option (List Byte)) : (visEvs o q mode first n0 c v).foldl (assign nmBl) acc =
      if o.feq v.bl c.bl then acc else some (be32 v.bl) := by
  unfold visEvs corrEvs
  cases first <;> by_cases h1 : v.flags.length ≠ n0 <;> by_cases h2 : mode = .int2 <;> by_cases h3 : coordEq o c v = true <;>
    by_cases h4 : o.deq v.time c.time = true <;> by_cases h5 : o.feq v.bl c.bl = true <;>
    simp [h1, h2, h3, h4, h5, assign_put, assign_noCheck, assign_next, nmCoord, nmTime, nmBl, nmNchan, nmCorr, nmTscale,
      be32_ne]

/-- the bytes of `corr` -/
def corrBytes (q : Quant) (mode : Ty) (v : Vis) : List Byte := if mode = .int2 then q.ints v.data else v.data

theorem vis_corr (o : FpOps) (q : Quant) (mode : Ty) (first : Bool) (n0 : Nat) (c : Cache) (v : Vis)
    (acc : Option (List Byte)) (hne : corrBytes q mode v ≠ []) :
    (visEvs o q mode first n0 c v).foldl (assign nmCorr) acc = some (corrBytes q mode v) := by
  unfold visEvs corrEvs
  unfold corrBytes at hne ⊢
  cases first <;> by_cases h1 : v.flags.length ≠ n0 <;> by_cases h2 : mode = .int2 <;> by_cases h3 : coordEq o c v = true <;>
    by_cases h4 : o.deq v.time c.time = true <;> by_cases h5 : o.feq v.bl c.bl = true <;>
    simp [h2] at hne <;>
    simp [h1, h2, h3, h4, h5, assign_put, assign_noCheck, assign_next, nmCoord, nmTime, nmBl, nmNchan, nmCorr, nmTscale,
      hne]

theorem vis_tscale (o : FpOps) (q : Quant) (first : Bool) (n0 : Nat) (c : Cache) (v : Vis)
    (acc : Option (List Byte)) :
    (visEvs o q .int2 first n0 c v).foldl (assign nmTscale) acc = some (be32 (q.scale v.data)) := by
  unfold visEvs corrEvs
  cases first <;> by_cases h1 : v.flags.length ≠ n0 <;> by_cases h3 : coordEq o c v = true <;>
    by_cases h4 : o.deq v.time c.time = true <;> by_cases h5 : o.feq v.bl c.bl = true <;>
    simp [h1, h3, h4, h5, assign_put, assign_noCheck, assign_next, nmCoord, nmTime, nmBl, nmNchan, nmCorr, nmTscale,
      be32_ne]

/-! ## The buffers of variables that are not assigned -/

theorem find_set (nm : Name) (l : List WVar) (i : Nat) (v v' : WVar) (hv : l[i]? = some v) (h1 : v.name ≠ nm)
    (h2 : v'.name ≠ nm) : (l.set i v').find? (fun x => x.name = nm) = l.find? (fun x => x.name = nm) := by
  induction l generalizing i with
  | nil => rfl
  | cons a l ih =>
    cases i with
    | zero =>
      simp only [List.getElem?_cons_zero, Option.some.injEq] at hv
      subst hv
      simp [h1, h2]
    | succ i =>
      simp only [List.getElem?_cons_succ] at hv
      simp only [List.set_cons_succ, List.find?_cons, ih i hv]

theorem mkvar_find {w w1 : Writer} {name : Name} {ty : Ty} {i : Nat} (h : mkvar w name ty = some (w1, i)) :
    (∃ v, w1.vars[i]? = some v ∧ v.name = name) ∧
    (∀ nm, nm ≠ name → w1.vars.find? (fun x => x.name = nm) = w.vars.find? (fun x => x.name = nm)) ∧
    w1.offset = w.offset ∧ w1.out = w.out := by
  unfold mkvar at h
  cases hl : locvar w.vars name with
  | some k =>
    rw [hl] at h
    simp only [Option.some.injEq, Prod.mk.injEq] at h
    obtain ⟨rfl, rfl⟩ := h
    obtain ⟨v, h1, h2⟩ := locvar_some hl
    exact ⟨⟨v, h1, h2⟩, fun _ _ => rfl, rfl, rfl⟩
  | none =>
    rw [hl] at h
    simp only at h
    by_cases c1 : MAXNAM < name.length
    · rw [if_pos c1] at h; exact absurd h (by simp)
    rw [if_neg c1] at h
    by_cases c2 : MAXVAR ≤ w.vars.length
    · rw [if_pos c2] at h; exact absurd h (by simp)
    rw [if_neg c2] at h
    simp only [Option.some.injEq, Prod.mk.injEq] at h
    obtain ⟨rfl, rfl⟩ := h
    refine ⟨⟨⟨name, ty, 0, [], 0, false⟩, by simp, rfl⟩, fun nm hnm => ?_, rfl, rfl⟩
    simp only [List.find?_append]
    have : [(⟨name, ty, 0, [], 0, false⟩ : WVar)].find? (fun x => x.name = nm) = none := by
      simp [Ne.symm hnm]
    rw [this, Option.or_none]

theorem wstep_find {w w' : Writer} {e : Ev} (h : wstep w e = some w') (nm : Name)
    (hno : ∀ ty d, e ≠ .noCheck nm ty ∧ (e = .put nm ty d → d = [])) (hre : e ≠ .reopen) :
    w'.vars.find? (fun x => x.name = nm) = w.vars.find? (fun x => x.name = nm) := by
  cases e with
  | reopen => exact absurd rfl hre
  | next =>
    simp only [wstep, Option.some.injEq] at h
    subst h
    rfl
  | noCheck name ty =>
    have hne : nm ≠ name := by
      rintro rfl
      exact (hno ty []).1 rfl
    obtain ⟨w1, i, v, hm, hv, rfl⟩ := noCheck_some h
    obtain ⟨⟨v', hv', hn'⟩, hf, _⟩ := mkvar_find hm
    rw [hv, Option.some.injEq] at hv'
    subst hv'
    have := find_set nm w1.vars i v { v with nocheck := true } hv (by rw [hn']; exact hne.symm) (by
      show v.name ≠ nm
      rw [hn']; exact hne.symm)
    exact this.trans (hf nm hne)
  | put name ty d =>
    by_cases hn : d.length / ty.mem = 0
    · simp only [wstep, put, if_pos hn, Option.some.injEq] at h
      subst h
      rfl
    · have hne : nm ≠ name := by
        rintro rfl
        have := (hno ty d).2 rfl
        subst this
        simp at hn
      obtain ⟨w1, i, v, hm, hv, hty, rfl⟩ := put_some h hn
      obtain ⟨⟨v', hv', hn'⟩, hf, _⟩ := mkvar_find hm
      rw [hv, Option.some.injEq] at hv'
      subst hv'
      have := find_set nm w1.vars i v (putVar w1 i v d (d.length / ty.mem)).2 hv (by rw [hn']; exact hne.symm) (by
        rw [(putVar_frame w1 i v d _).2.1, hn']; exact hne.symm)
      exact this.trans (hf nm hne)

theorem wrun_find {w w' : Writer} {h : List Ev} (hr : wrun w h = some w') (nm : Name)
    (hno : ∀ e ∈ h, ∀ ty d, e ≠ .noCheck nm ty ∧ (e = .put nm ty d → d = [])) (hre : ∀ e ∈ h, e ≠ .reopen) :
    w'.vars.find? (fun x => x.name = nm) = w.vars.find? (fun x => x.name = nm) := by
  induction h generalizing w with
  | nil =>
    simp only [wrun, Option.some.injEq] at hr
    subst hr
    rfl
  | cons e es ih =>
    simp only [wrun] at hr
    cases h1 : wstep w e with
    | none => rw [h1] at hr; simp at hr
    | some w1 =>
      rw [h1] at hr
      exact (ih hr (fun e' he' => hno e' (List.mem_cons_of_mem _ he')) (fun e' he' => hre e' (List.mem_cons_of_mem _ he'))).trans
        (wstep_find h1 nm (hno e List.mem_cons_self) (hre e List.mem_cons_self))

theorem openVis_some (mode : Ty) : openVis mode = some ⟨⟨[⟨nmCorr, mode, 0, [], 0, true⟩], 0, []⟩, none, 0, [],
    [.noCheck nmCorr mode]⟩ := rfl

/-- a variable that no assignment set has no buffer when the first visibility is written -/
theorem users_buf {s0 s : VisW} {ps : List User} (h : assignAll s0 ps = some s) (nm : Name)
    (h0 : bufOf s0.w nm = none) (hs : ¬ Sets ps nm) : bufOf s.w nm = none := by
  unfold assignAll at h
  cases hw : wrun s0.w (ps.map User.ev) with
  | none => rw [hw] at h; simp at h
  | some w =>
    rw [hw] at h
    simp only [Option.map_some, Option.some.injEq] at h
    subst h
    have := wrun_find hw nm (by
      intro e he ty d
      obtain ⟨p, hp, rfl⟩ := List.mem_map.1 he
      refine ⟨by simp [User.ev], fun he => ?_⟩
      simp only [User.ev, Ev.put.injEq] at he
      apply Classical.byContradiction
      intro hd
      exact hs ⟨p, hp, he.1, by rw [he.2.2]; exact hd⟩) (by
      intro e he
      obtain ⟨p, hp, rfl⟩ := List.mem_map.1 he
      simp [User.ev])
    unfold bufOf at h0 ⊢
    show (match w.vars.find? (fun v => v.name = nm) with | none => none | some v => if v.buf = [] then none else some v.buf) = none
    rw [this]
    exact h0

/-! ## One block -/

structure Held (o : FpOps) (q : Quant) (mode : Ty) (s : VisW) (v : Vis) (c : Cache) : Prop where
  cache : s.cache = some c
  coord : ∃ x y z, x < 2 ^ 64 ∧ y < 2 ^ 64 ∧ z < 2 ^ 64 ∧
    valueAfter s.evs nmCoord = some (be64 x ++ be64 y ++ be64 z) ∧
    (SameD o x c.c0 ∧ SameD o y c.c1 ∧ SameD o z c.c2) ∧ SameD o x v.u ∧ SameD o y v.v ∧ SameD o z v.w
  time : ∃ t, t < 2 ^ 64 ∧ valueAfter s.evs nmTime = some (be64 t) ∧ SameD o t c.time ∧ SameD o t v.time
  bl : ∃ b, b < 2 ^ 32 ∧ valueAfter s.evs nmBl = some (be32 b) ∧ SameF o b c.bl ∧ SameF o b v.bl
  corr : valueAfter s.evs nmCorr = some (corrBytes q mode v)
  tscale : mode = .int2 → valueAfter s.evs nmTscale = some (be32 (q.scale v.data))

theorem SameD.trans {o : FpOps} (hl : FpLaws o) {a b c : Nat} (h : SameD o a b) (h' : o.deq b c = true) :
    SameD o a c := by
  rcases h with rfl | h
  · exact Or.inr h'
  · exact Or.inr (hl.dtrans _ _ _ h h')

theorem SameF.trans {o : FpOps} (hl : FpLaws o) {a b c : Nat} (h : SameF o a b) (h' : o.feq b c = true) :
    SameF o a c := by
  rcases h with rfl | h
  · exact Or.inr h'
  · exact Or.inr (hl.ftrans _ _ _ h h')

/-- what one call adds -/
theorem writeBlock_some {o q junk mode} {s s2 : VisW} {b : Block} (h : writeBlock o q junk mode s b = some s2) :
    ∃ s1, assignAll s b.users = some s1 ∧ s1.cache = s.cache ∧ s1.flagOff = s.flagOff ∧ s1.flagOps = s.flagOps ∧
      s1.evs = s.evs ++ b.users.map User.ev ∧ wrun s.w (b.users.map User.ev) = some s1.w ∧
      wrun s1.w (callEvs o q junk mode s1 b.vis) = some s2.w ∧
      s2.cache = some (newCache o (theCache o junk s1 b.vis) b.vis) ∧
      s2.flagOff = s.flagOff + b.vis.flags.length ∧ s2.flagOps = s.flagOps ++ [.write s.flagOff b.vis.flags] ∧
      s2.evs = s.evs ++ b.users.map User.ev ++ callEvs o q junk mode s1 b.vis := by
  unfold writeBlock at h
  cases ha : assignAll s b.users with
  | none => rw [ha] at h; simp at h
  | some s1 =>
    rw [ha] at h
    simp only [Option.bind_some] at h
    unfold assignAll at ha
    cases hw : wrun s.w (b.users.map User.ev) with
    | none => rw [hw] at ha; simp at ha
    | some w1 =>
      rw [hw] at ha
      simp only [Option.map_some, Option.some.injEq] at ha
      unfold uvwrite at h
      cases hw2 : wrun s1.w (callEvs o q junk mode s1 b.vis) with
      | none => rw [hw2] at h; simp at h
      | some w2 =>
        rw [hw2] at h
        simp only [Option.map_some, Option.some.injEq] at h
        subst h
        subst ha
        exact ⟨_, rfl, rfl, rfl, rfl, rfl, rfl, hw2, rfl, rfl, rfl, rfl⟩

/-- nothing is known of the preamble -/
structure Cold (s : VisW) : Prop where
  cache : s.cache = none
  coord : bufOf s.w nmCoord = none
  time : bufOf s.w nmTime = none
  bl : bufOf s.w nmBl = none

theorem open_cold {mode : Ty} {s : VisW} (h : openVis mode = some s) : Cold s := by
  rw [openVis_some, Option.some.injEq] at h
  subst h
  exact ⟨rfl, rfl, rfl, rfl⟩

/-- the state before a block: nothing written yet, or the stream holds what the cache holds -/
def Ready (o : FpOps) (q : Quant) (mode : Ty) (s : VisW) (b : Block) : Prop :=
  (Cold s ∧ Fresh o b) ∨ ∃ v c, Held o q mode s v c

theorem block_held {o q junk mode} (hl : FpLaws o) {s s2 : VisW} {b : Block} (hq : QuantOk q) (hb : BlockOk b)
    (hs : Ready o q mode s b) (h : writeBlock o q junk mode s b = some s2) : ∃ c, Held o q mode s2 b.vis c := by
  obtain ⟨s1, ha, e1, e2, e3, e4, hw1, hw2, e5, e6, e7, e8⟩ := writeBlock_some h
  have hv := hb.vis
  have hval : ∀ nm, valueAfter s2.evs nm = (callEvs o q junk mode s1 b.vis).foldl (assign nm)
      ((b.users.map User.ev).foldl (assign nm) (valueAfter s.evs nm)) := by
    intro nm
    unfold valueAfter
    rw [e8, List.foldl_append, List.foldl_append]
  have hne : corrBytes q mode b.vis ≠ [] := by
    have h1 := hv.data
    have h2 := hv.one
    have h3 : (corrBytes q mode b.vis).length = b.vis.data.length := by
      unfold corrBytes
      split
      · exact hq.len _ (by omega)
      · rfl
    intro hc
    rw [hc] at h3
    simp only [List.length_nil] at h3
    omega
  refine ⟨_, e5, ?_, ?_, ?_, ?_, ?_⟩
  · -- coord
    have hu := users_fold nmCoord (coordBytes b.vis) b.users
      hb.agrees.coord (valueAfter s.evs nmCoord)
    rw [hval]
    unfold callEvs
    rw [vis_coord]
    generalize hc : theCache o junk s1 b.vis = c
    by_cases heq : coordEq o c b.vis = true
    · have heq' := heq
      simp only [coordEq, Bool.and_eq_true] at heq'
      obtain ⟨⟨q1, q2⟩, q3⟩ := heq'
      rw [if_pos heq]
      simp only [newCache, heq, if_true]
      by_cases hset : Sets b.users nmCoord
      · rw [hu.1 hset]
        exact ⟨_, _, _, hv.u, hv.v, hv.w, rfl, ⟨Or.inr (hl.dsymm _ _ q1), Or.inr (hl.dsymm _ _ q2),
          Or.inr (hl.dsymm _ _ q3)⟩, Or.inl rfl, Or.inl rfl, Or.inl rfl⟩
      · rw [hu.2 hset]
        rcases hs with ⟨ho, hfr⟩ | ⟨v0, c0, hh⟩
        · exfalso
          have hbuf := users_buf ha nmCoord ho.coord hset
          have hcn : s.cache = none := ho.cache
          have : c.c0 = o.add1000 b.vis.u := by
            rw [← hc]
            unfold theCache
            rw [e1, hcn]
            simp only [initCache, hbuf]
          rw [this, hfr.coord hset] at q1
          exact absurd q1 (by simp)
        · have : c = c0 := by
            rw [← hc]
            unfold theCache
            rw [e1, hh.cache]
          subst this
          obtain ⟨x, y, z, hx, hy, hz, hvv, ⟨s1', s2', s3'⟩, _⟩ := hh.coord
          exact ⟨x, y, z, hx, hy, hz, hvv, ⟨s1', s2', s3'⟩, s1'.trans hl q1, s2'.trans hl q2, s3'.trans hl q3⟩
    · rw [if_neg heq]
      simp only [newCache, heq]
      exact ⟨_, _, _, hv.u, hv.v, hv.w, rfl, ⟨Or.inl rfl, Or.inl rfl, Or.inl rfl⟩, Or.inl rfl, Or.inl rfl, Or.inl rfl⟩
  · -- time
    have hu := users_fold nmTime (be64 b.vis.time) b.users
      hb.agrees.time (valueAfter s.evs nmTime)
    rw [hval]
    unfold callEvs
    rw [vis_time]
    generalize hc : theCache o junk s1 b.vis = c
    by_cases heq : o.deq b.vis.time c.time = true
    · rw [if_pos heq]
      simp only [newCache, heq, if_true]
      by_cases hset : Sets b.users nmTime
      · rw [hu.1 hset]
        exact ⟨_, hv.time, rfl, Or.inr heq, Or.inl rfl⟩
      · rw [hu.2 hset]
        rcases hs with ⟨ho, hfr⟩ | ⟨v0, c0, hh⟩
        · exfalso
          have hbuf := users_buf ha nmTime ho.time hset
          have hcn : s.cache = none := ho.cache
          have : c.time = o.add1000 b.vis.w := by
            rw [← hc]
            unfold theCache
            rw [e1, hcn]
            simp only [initCache, hbuf]
          rw [this, hfr.time hset] at heq
          exact absurd heq (by simp)
        · have : c = c0 := by
            rw [← hc]
            unfold theCache
            rw [e1, hh.cache]
          subst this
          obtain ⟨t, ht, hvv, s1', _⟩ := hh.time
          exact ⟨t, ht, hvv, s1', s1'.trans hl (hl.dsymm _ _ heq)⟩
    · rw [if_neg heq]
      simp only [newCache, heq]
      exact ⟨_, hv.time, rfl, Or.inl rfl, Or.inl rfl⟩
  · -- baseline
    have hu := users_fold nmBl (be32 b.vis.bl) b.users
      hb.agrees.bl (valueAfter s.evs nmBl)
    rw [hval]
    unfold callEvs
    rw [vis_bl]
    generalize hc : theCache o junk s1 b.vis = c
    by_cases heq : o.feq b.vis.bl c.bl = true
    · rw [if_pos heq]
      simp only [newCache, heq, if_true]
      by_cases hset : Sets b.users nmBl
      · rw [hu.1 hset]
        exact ⟨_, hv.bl, rfl, Or.inr heq, Or.inl rfl⟩
      · rw [hu.2 hset]
        rcases hs with ⟨ho, hfr⟩ | ⟨v0, c0, hh⟩
        · exfalso
          have hbuf := users_buf ha nmBl ho.bl hset
          have hcn : s.cache = none := ho.cache
          have : c.bl = o.bl1000 b.vis.time := by
            rw [← hc]
            unfold theCache
            rw [e1, hcn]
            simp only [initCache, hbuf]
          rw [this, hfr.bl hset] at heq
          exact absurd heq (by simp)
        · have : c = c0 := by
            rw [← hc]
            unfold theCache
            rw [e1, hh.cache]
          subst this
          obtain ⟨t, ht, hvv, s1', _⟩ := hh.bl
          exact ⟨t, ht, hvv, s1', s1'.trans hl (hl.fsymm _ _ heq)⟩
    · rw [if_neg heq]
      simp only [newCache, heq]
      exact ⟨_, hv.bl, rfl, Or.inl rfl, Or.inl rfl⟩
  · rw [hval]
    unfold callEvs
    exact vis_corr o q mode _ _ _ _ _ hne
  · intro hm
    subst hm
    rw [hval]
    unfold callEvs
    exact vis_tscale o q _ _ _ _ _

end Verif.Mir.Uv
