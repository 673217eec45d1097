import Verif.Mir.UvVisProps

/-!
# Property C48 : reading visibility records
-/
namespace Verif.Mir.Uv

open Verif.Mir.Hio (Byte)
open Verif.Mir.Mask (Mask mkreadFlags mkopen Op Flags run step OpsOk)

/-! ## Histories -/

theorem upTo_rec (a b : List Ev) (k : Nat) (h : records a = k) : upTo (k + 1) (a ++ .next :: b) = a ++ [.next] := by
  induction a generalizing k with
  | nil =>
    simp only [records] at h
    subst h
    simp only [List.nil_append, upTo]
  | cons e es ih =>
    cases e with
    | next =>
      simp only [records] at h
      subst h
      simp only [List.cons_append, upTo, ih _ rfl]
    | put n t d =>
      simp only [records] at h
      simp only [List.cons_append, upTo, ih k h]
    | noCheck n t =>
      simp only [records] at h
      simp only [List.cons_append, upTo, ih k h]
    | reopen =>
      simp only [records] at h
      simp only [List.cons_append, upTo, ih k h]

theorem upTo_prefix (a b : List Ev) (k : Nat) (h : records a = k) : ∃ c, a = upTo k (a ++ b) ++ c := by
  induction a generalizing k with
  | nil =>
    simp only [records] at h
    subst h
    exact ⟨[], by cases b <;> rfl⟩
  | cons e es ih =>
    cases e with
    | next =>
      simp only [records] at h
      subst h
      obtain ⟨c, hc⟩ := ih _ rfl
      exact ⟨c, by simp only [List.cons_append, upTo, ← hc]⟩
    | put n t d =>
      simp only [records] at h
      obtain ⟨c, hc⟩ := ih k h
      cases k with
      | zero => exact ⟨_, rfl⟩
      | succ k => exact ⟨c, by simp only [List.cons_append, upTo, ← hc]⟩
    | noCheck n t =>
      simp only [records] at h
      obtain ⟨c, hc⟩ := ih k h
      cases k with
      | zero => exact ⟨_, rfl⟩
      | succ k => exact ⟨c, by simp only [List.cons_append, upTo, ← hc]⟩
    | reopen =>
      simp only [records] at h
      obtain ⟨c, hc⟩ := ih k h
      cases k with
      | zero => exact ⟨_, rfl⟩
      | succ k => exact ⟨c, by simp only [List.cons_append, upTo, ← hc]⟩

theorem records_append (a b : List Ev) : records (a ++ b) = records a + records b := by
  induction a with
  | nil => simp [records]
  | cons e es ih =>
    cases e with
    | next => simp only [List.cons_append, records, ih]; omega
    | put => simpa only [List.cons_append, records] using ih
    | noCheck => simpa only [List.cons_append, records] using ih
    | reopen => simpa only [List.cons_append, records] using ih

theorem records_none (a : List Ev) (h : ∀ e ∈ a, e ≠ .next) : records a = 0 := by
  induction a with
  | nil => rfl
  | cons e es ih =>
    have ih' := ih (fun e' he' => h e' (List.mem_cons_of_mem _ he'))
    cases e with
    | next => exact absurd rfl (h .next List.mem_cons_self)
    | put => exact ih'
    | noCheck => exact ih'
    | reopen => exact ih'

theorem valueAfter_mem (h : List Ev) (nm : Name) (d : List Byte) (hv : valueAfter h nm = some d) :
    ∃ ty, Ev.put nm ty d ∈ h ∧ d ≠ [] := by
  have key : ∀ (h : List Ev) (acc : Option (List Byte)), h.foldl (assign nm) acc = some d →
      acc = some d ∨ ∃ ty, Ev.put nm ty d ∈ h ∧ d ≠ [] := by
    intro h
    induction h with
    | nil => intro acc hh; exact Or.inl hh
    | cons e es ih =>
      intro acc hh
      rcases ih _ hh with h1 | ⟨ty, h1, h2⟩
      · cases e with
        | next => exact Or.inl h1
        | noCheck n t => exact Or.inl h1
        | reopen => exact Or.inl h1
        | put n t x =>
          rw [assign_put] at h1
          by_cases hc : n = nm ∧ x ≠ []
          · rw [if_pos hc, Option.some.injEq] at h1
            obtain ⟨rfl, hx⟩ := hc
            subst h1
            exact Or.inr ⟨t, List.mem_cons_self, hx⟩
          · rw [if_neg hc] at h1
            exact Or.inl h1
      · exact Or.inr ⟨ty, List.mem_cons_of_mem _ h1, h2⟩
  rcases key h none hv with h1 | h1
  · simp at h1
  · exact h1

/-! ## The variable `corr` is never checked for changes -/

def Unchecked (w : Writer) (nm : Name) : Prop := ∃ v ∈ w.vars, v.name = nm ∧ v.nocheck = true

theorem putVar_nocheck (w : Writer) (i : Nat) (v : WVar) (d : List Byte) (n : Nat) (h : v.nocheck = true) :
    (putVar w i v d n).2.nocheck = true := by
  by_cases h1 : v.length ≠ v.ty.ext * n
  · simp only [putVar, h1, if_true, true_or, ne_eq, not_false_eq_true, putSize, putData, h]
    split <;> rfl
  · simp only [putVar, h1, if_false, false_or, h, true_or, if_true, putData]
    split <;> rfl

theorem unchecked_set {vars : List WVar} {nm : Name} {i : Nat} {v v' : WVar} (hv : vars[i]? = some v)
    (hn : v'.name = v.name) (hc : v.nocheck = true → v'.nocheck = true)
    (h : ∃ x ∈ vars, x.name = nm ∧ x.nocheck = true) : ∃ x ∈ vars.set i v', x.name = nm ∧ x.nocheck = true := by
  obtain ⟨x, hx, h1, h2⟩ := h
  obtain ⟨j, hj⟩ := List.getElem?_of_mem hx
  by_cases hij : i = j
  · subst hij
    rw [hv, Option.some.injEq] at hj
    subst hj
    exact ⟨v', List.mem_of_getElem? (List.getElem?_set_self (List.getElem?_eq_some_iff.1 hv).1), by rw [hn, h1], hc h2⟩
  · exact ⟨x, List.mem_of_getElem? (by rw [List.getElem?_set_ne hij]; exact hj), h1, h2⟩

theorem wstep_unchecked {w w' : Writer} {e : Ev} (h : wstep w e = some w') (nm : Name) (hu : Unchecked w nm)
    (hre : e ≠ .reopen) : Unchecked w' nm := by
  have mk : ∀ {w1 : Writer} {name : Name} {ty : Ty} {i : Nat}, mkvar w name ty = some (w1, i) → Unchecked w1 nm := by
    intro w1 name ty i hm
    obtain ⟨x, hx, h1, h2⟩ := hu
    obtain ⟨j, hj⟩ := List.getElem?_of_mem hx
    exact ⟨x, List.mem_of_getElem? (mkvar_keeps hm j x hj), h1, h2⟩
  cases e with
  | reopen => exact absurd rfl hre
  | next =>
    simp only [wstep, Option.some.injEq] at h
    subst h
    exact hu
  | noCheck name ty =>
    obtain ⟨w1, i, v, hm, hv, rfl⟩ := noCheck_some h
    exact unchecked_set (v' := { v with nocheck := true }) hv rfl (fun _ => rfl) (mk hm)
  | put name ty d =>
    by_cases hn : d.length / ty.mem = 0
    · simp only [wstep, put, if_pos hn, Option.some.injEq] at h
      subst h
      exact hu
    · obtain ⟨w1, i, v, hm, hv, hty, rfl⟩ := put_some h hn
      exact unchecked_set hv (putVar_frame w1 i v d _).2.1 (putVar_nocheck w1 i v d _) (mk hm)

theorem wrun_unchecked {w w' : Writer} {h : List Ev} (hr : wrun w h = some w') (nm : Name) (hu : Unchecked w nm)
    (hre : ∀ e ∈ h, e ≠ .reopen) : Unchecked w' nm := by
  induction h generalizing w with
  | nil =>
    simp only [wrun, Option.some.injEq] at hr
    subst hr
    exact hu
  | cons e es ih =>
    simp only [wrun] at hr
    cases h1 : wstep w e with
    | none => rw [h1] at hr; simp at hr
    | some w1 =>
      rw [h1] at hr
      exact ih hr (wstep_unchecked h1 nm hu (hre e List.mem_cons_self)) (fun e' he' => hre e' (List.mem_cons_of_mem _ he'))

/-! ## The end of the file, from any beginning -/

theorem end_all {h : List Ev} {w : Writer} {f : Nat → Byte} {size : Nat} {r0 r : Reader} (hr : wrun newWriter h = some w)
    (hok : HistOk h) (h128 : (table w).length ≤ 128) (hf : Holds f size w.out)
    (hrt : rtable r0.vars = table w) (h0 : r0.offset = 0) (hm : r0.maxOffset = w.offset)
    (hread : readN f size (records h) r0 = some r) : ∃ r', rnext f size r = .eof r' := by
  have hp : table w <+: rtable r0.vars := by rw [hrt]; exact List.prefix_rfl
  have hlen : r0.vars.length ≤ 128 := by
    have : (rtable r0.vars).length = r0.vars.length := by simp [rtable]
    rw [← this, hrt]; exact h128
  obtain ⟨r1, w1, h', a1, a2, a3, a4, a5, a6, a7, a8, a9, a10⟩ := readN_all hr hok h128 hf hrt h0 hm (Nat.le_refl _)
  rw [hread, Option.some.injEq] at a1
  subst a1
  have hz : records h' = 0 := by omega
  have hb : ∀ e ∈ h', e ≠ .next := by
    clear a2 a3 a4 hr hok hread
    induction h' with
    | nil => simp
    | cons e es ih =>
      cases e with
      | next => simp [records] at hz
      | put n t d =>
        intro e' he'
        rcases List.mem_cons.1 he' with rfl | he'
        · simp
        · exact ih hz e' he'
      | noCheck n t =>
        intro e' he'
        rcases List.mem_cons.1 he' with rfl | he'
        · simp
        · exact ih hz e' he'
      | reopen =>
        intro e' he'
        rcases List.mem_cons.1 he' with rfl | he'
        · simp
        · exact ih hz e' he'
  have hok' : HistOk h' := by
    intro e he
    apply hok e
    rw [a2]
    exact List.mem_append_right _ he
  obtain ⟨ts, b1, b2, b3, b4, b5⟩ := block_ok a5 hb hok' a4 hp hlen (r.callno + 1)
  have hf2 : Holds f size (layout r.offset ts) := by
    rw [b3] at hf
    rw [a6]
    exact (Holds.append.1 hf).2
  have hfin : finL r.offset ts = r.maxOffset := by rw [a6, ← b4, a7]
  have := scanLoop_tail f size { r with mark := r.callno + 1, copy := false } (r.callno + 1) ts
    (r.maxOffset - r.offset + 1) ⟨r.vars, r.offset, false⟩ (fun t ht => (b1 t ht).1) b2 hf2 hfin (by
      have := finL_ge r.offset ts
      show ts.length < r.maxOffset - r.offset + 1
      omega)
  exact ⟨_, this⟩

/-! ## One record with data -/

theorem rlocvar_at (vars : List RVar) (nm : Name) (i : Nat) (u : RVar) (hnd : ((rtable vars).map (·.1)).Nodup)
    (hu : vars[i]? = some u) (hun : u.name = nm) : rlocvar vars nm = some u := by
  unfold rlocvar
  rw [List.find?_eq_some_iff_getElem]
  refine ⟨by simpa using hun, i, (List.getElem?_eq_some_iff.1 hu).1, (List.getElem?_eq_some_iff.1 hu).2, ?_⟩
  intro j hj
  simp only [Bool.not_eq_true', decide_eq_false_iff_not]
  intro hc
  have hi := (List.getElem?_eq_some_iff.1 hu).1
  have hlen : ((rtable vars).map (·.1)).length = vars.length := by simp [rtable]
  have e : ((rtable vars).map (·.1))[j]? = ((rtable vars).map (·.1))[i]? := by
    simp only [rtable, List.map_map, List.getElem?_map, hu, List.getElem?_eq_getElem (show j < vars.length by omega),
      Option.map_some, Function.comp, hc, hun]
  have := (List.getElem?_inj (by omega) hnd).1 e
  omega

/-- the next record is read, and `findCorr` stops at it -/
theorem read_step {h : List Ev} {w : Writer} {f : Nat → Byte} {size : Nat} {r0 r : Reader}
    (hr : wrun newWriter h = some w) (hok : HistOk h) (h128 : (table w).length ≤ 128) (hf : Holds f size w.out)
    (hrt : rtable r0.vars = table w) (h0 : r0.offset = 0) (hm : r0.maxOffset = w.offset)
    {k : Nat} (hread : readN f size k r0 = some r) {A B rest : List Ev} {ty : Ty} {d : List Byte} {wA : Writer}
    (hh : h = A ++ .put nmCorr ty d :: B ++ .next :: rest) (hA : records A = k) (hB : ∀ e ∈ B, e ≠ .next) (hd : d ≠ [])
    (hwA : wrun newWriter A = some wA) (hu : Unchecked wA nmCorr) :
    ∃ r', readN f size (k + 1) r0 = some r' ∧
      findCorr f size (r.maxOffset - r.offset + 1) { r with mark := r.callno + 1, copy := false } = .ok r' := by
  have hp : table w <+: rtable r0.vars := by rw [hrt]; exact List.prefix_rfl
  have hlen : r0.vars.length ≤ 128 := by
    have : (rtable r0.vars).length = r0.vars.length := by simp [rtable]
    rw [← this, hrt]; exact h128
  have hrec : records h = k + 1 + records rest := by
    rw [hh, records_append, records_append, hA]
    simp only [records, records_none B hB]
    omega
  obtain ⟨r1, w1, h', a1, a2, a3, a4, a5, a6, a7, a8, a9, a10⟩ := readN_all hr hok h128 hf hrt h0 hm
    (show k ≤ records h by omega)
  rw [hread, Option.some.injEq] at a1
  subst a1
  -- the block that is read
  obtain ⟨b1, hb1⟩ := upTo_prefix A (.put nmCorr ty d :: B ++ .next :: rest) k hA
  rw [← List.append_assoc, ← hh] at hb1
  have hh' : h' = (b1 ++ .put nmCorr ty d :: B) ++ .next :: rest := by
    have e : upTo k h ++ h' = upTo k h ++ ((b1 ++ .put nmCorr ty d :: B) ++ .next :: rest) := by
      rw [← a2]
      conv => lhs; rw [hh, hb1]
      simp
    exact List.append_cancel_left e
  have hb1n : ∀ e ∈ b1, e ≠ .next := by
    intro e he hc
    subst hc
    have h1 : records A = records (upTo k h) + records b1 := by rw [← records_append, ← hb1]
    have h2 : records h = records (upTo k h) + records h' := by
      conv => lhs; rw [a2]
      exact records_append _ _
    have h3 : records b1 ≠ 0 := by
      obtain ⟨x, y, rfl⟩ := List.append_of_mem he
      rw [records_append]
      simp [records]
    omega
  have hbn : ∀ e ∈ b1 ++ .put nmCorr ty d :: B, e ≠ .next := by
    intro e he
    rcases List.mem_append.1 he with he | he
    · exact hb1n e he
    · rcases List.mem_cons.1 he with rfl | he
      · simp
      · exact hB e he
  have hok' : HistOk h' := by
    intro e he
    apply hok e
    rw [a2]
    exact List.mem_append_right _ he
  obtain ⟨r', ts, w2, c1, c2, c3, c4, c5, c6, c7, c8, c9, c10, c11, c12⟩ := rnext_ok (r := r) (h' := rest) a5 a6 hbn
    (fun e he => hok' e (by rw [hh']; exact List.mem_append_left _ he)) (by rw [← hh']; exact a4) hp hlen hf
    (by rw [a7]; exact Nat.le_refl _)
  have hr1 : readN f size (k + 1) r0 = some r' := by rw [readN_succ, hread, Option.bind_some, c1]
  refine ⟨r', hr1, ?_⟩
  obtain ⟨x1, _, _, y1, _, _, _, y5, _, _, _, y9, _⟩ := readN_all (n := k + 1) hr hok h128 hf hrt h0 hm (by omega)
  rw [hr1, Option.some.injEq] at y1
  subst y1
  -- `corr` is in it
  have hwb : wrun w1 b1 = some wA := by
    rw [hb1, wrun_append, a10] at hwA
    exact hwA
  obtain ⟨t, ht, u0, hu0, hun⟩ := c11 b1 nmCorr ty d B wA rfl hd hwb hu
  have hlr : r.vars.length = r0.vars.length := a5.len
  obtain ⟨u, hu1, hu2⟩ := fold_touched (r.callno + 1) ts r.vars t.var
    (by rw [hlr]; exact (List.getElem?_eq_some_iff.1 hu0).1) (fun t' ht' => (c9 t' ht').1) ⟨t, ht, rfl⟩
  rw [← c10] at hu1
  have hname : u.name = nmCorr := by
    have e1 : (rtable r'.vars)[t.var]? = some (u.name, u.ty) := by
      simp only [rtable, List.getElem?_map, hu1, Option.map_some]
    have e2 : (rtable r0.vars)[t.var]? = some (u0.name, u0.ty) := by
      simp only [rtable, List.getElem?_map, hu0, Option.map_some]
    rw [y9, ← hrt, e2, Option.some.injEq, Prod.mk.injEq] at e1
    rw [← e1.1, hun]
  have hloc : rlocvar r'.vars nmCorr = some u :=
    rlocvar_at r'.vars nmCorr t.var u (by rw [y9]; exact table_nodup hr hok h128) hu1 hname
  have hscan : scan f size { r with mark := r.callno + 1, copy := false } = .ok r' := c1
  simp only [findCorr, hscan, hloc]
  rw [if_pos (by rw [hu2, c6])]

/-- and at the end of the file -/
theorem findCorr_eof {f : Nat → Byte} {size : Nat} {r r' : Reader} (h : rnext f size r = .eof r') :
    findCorr f size (r.maxOffset - r.offset + 1) { r with mark := r.callno + 1, copy := false } = .eof r' := by
  have hscan : scan f size { r with mark := r.callno + 1, copy := false } = .eof r' := h
  simp only [findCorr, hscan]

/-! ## The writer's history -/

structure Reach (s : VisW) (n : Nat) : Prop where
  run : wrun newWriter s.evs = some s.w
  ok : HistOk s.evs
  recs : records s.evs = n
  corr : Unchecked s.w nmCorr
  coord : ∀ ty d, Ev.put nmCoord ty d ∈ s.evs → d ≠ [] → ty = .dble
  time : ∀ ty d, Ev.put nmTime ty d ∈ s.evs → d ≠ [] → ty = .dble
  bl : ∀ ty d, Ev.put nmBl ty d ∈ s.evs → d ≠ [] → ty = .real

theorem reach_open {mode : Ty} {s : VisW} (h : openVis mode = some s) : Reach s 0 := by
  rw [openVis_some, Option.some.injEq] at h
  subst h
  exact ⟨rfl, fun e he => by rw [List.mem_singleton.1 he]; exact trivial, rfl, ⟨_, List.mem_singleton.2 rfl, rfl, rfl⟩,
    by simp, by simp, by simp⟩

theorem visEvs_split (o : FpOps) (q : Quant) (mode : Ty) (first : Bool) (n0 : Nat) (c : Cache) (v : Vis) :
    ∃ pre post, visEvs o q mode first n0 c v = pre ++ .put nmCorr mode (corrBytes q mode v) :: post ++ [.next] ∧
      (∀ e ∈ pre, e ≠ .next) ∧ (∀ e ∈ post, e ≠ .next) := by
  refine ⟨(if first then [.noCheck nmCoord .dble, .noCheck nmTime .dble, .noCheck nmBl .real] else []) ++
      (if v.flags.length ≠ n0 then [.put nmNchan .int (be32 v.flags.length)] else []) ++
      (if mode = .int2 then [.put nmTscale .real (be32 (q.scale v.data))] else []),
    (if coordEq o c v then [] else [.put nmCoord .dble (coordBytes v)]) ++
      (if o.deq v.time c.time then [] else [.put nmTime .dble (be64 v.time)]) ++
      (if o.feq v.bl c.bl then [] else [.put nmBl .real (be32 v.bl)]), ?_, ?_, ?_⟩
  · unfold visEvs corrEvs corrBytes
    by_cases hm : mode = .int2
    · subst hm
      simp
    · simp only [if_neg hm]
      simp
  · intro e he
    simp only [List.mem_append] at he
    rcases he with (he | he) | he <;> split at he <;> simp at he
    · rcases he with rfl | rfl | rfl <;> simp
    · subst he; simp
    · subst he; simp
  · intro e he
    simp only [List.mem_append] at he
    rcases he with (he | he) | he <;> split at he <;> simp at he <;> subst he <;> simp

theorem visEvs_open (o : FpOps) (q : Quant) (mode : Ty) (first : Bool) (n0 : Nat) (c : Cache) (v : Vis) :
    ∀ e ∈ visEvs o q mode first n0 c v, e ≠ .reopen := by
  intro e he
  unfold visEvs corrEvs at he
  simp only [List.mem_append] at he
  rcases he with (((((he | he) | he) | he) | he) | he) | he
  · split at he <;> simp at he
    rcases he with rfl | rfl | rfl <;> simp
  · split at he <;> simp at he
    subst he; simp
  · split at he <;> simp at he
    · rcases he with rfl | rfl <;> simp
    · subst he; simp
  · split at he <;> simp at he
    subst he; simp
  · split at he <;> simp at he
    subst he; simp
  · split at he <;> simp at he
    subst he; simp
  · rw [List.mem_singleton] at he
    subst he; simp

theorem users_open (ps : List User) : ∀ e ∈ ps.map User.ev, e ≠ .reopen := by
  intro e he
  obtain ⟨p, _, rfl⟩ := List.mem_map.1 he
  simp [User.ev]

theorem be64_length (n : Nat) : (be64 n).length = 8 := by simp [be64, be32]
theorem be32_length (n : Nat) : (be32 n).length = 4 := rfl
theorem coordBytes_length (v : Vis) : (coordBytes v).length = 24 := by simp [coordBytes, be64_length]

theorem corrBytes_length {q : Quant} (hq : QuantOk q) (mode : Ty) {v : Vis} (hv : VisOk v) :
    (corrBytes q mode v).length = 8 * v.flags.length := by
  unfold corrBytes
  split
  · rw [hq.len _ (by rw [hv.data]; omega), hv.data]
  · exact hv.data

theorem visEvs_ok {o : FpOps} {q : Quant} {mode : Ty} (hq : QuantOk q) (hmode : mode = .real ∨ mode = .int2)
    (first : Bool) (n0 : Nat) (c : Cache) {v : Vis} (hv : VisOk v) :
    ∀ e ∈ visEvs o q mode first n0 c v, EvOk e ∧
      (∀ ty d, e = .put nmCoord ty d → ty = .dble) ∧ (∀ ty d, e = .put nmTime ty d → ty = .dble) ∧
      (∀ ty d, e = .put nmBl ty d → ty = .real) := by
  have hlen := hv.data
  have hsm := hv.small
  intro e he
  unfold visEvs at he
  simp only [List.mem_append] at he
  rcases he with (((((he | he) | he) | he) | he) | he) | he
  · split at he <;> simp at he
    rcases he with rfl | rfl | rfl <;> exact ⟨trivial, by simp, by simp, by simp⟩
  · split at he <;> simp at he
    subst he
    exact ⟨⟨by rw [be32_length]; rfl, by rw [be32_length]; omega, by simp⟩, by simp [nmNchan, nmCoord],
      by simp [nmNchan, nmTime], by simp [nmNchan, nmBl]⟩
  · unfold corrEvs at he
    split at he
    · simp only [List.mem_cons, List.not_mem_nil, or_false] at he
      rcases he with rfl | rfl
      · exact ⟨⟨by rw [be32_length]; rfl, by rw [be32_length]; omega, by simp⟩, by simp [nmTscale, nmCoord],
          by simp [nmTscale, nmTime], by simp [nmTscale, nmBl]⟩
      · refine ⟨⟨?_, ?_, fun _ => hq.fits _ (by omega)⟩, by simp [nmCorr, nmCoord], by simp [nmCorr, nmTime], by simp [nmCorr, nmBl]⟩
        · rw [hq.len _ (by omega), hlen]; show 8 * _ % 4 = 0; omega
        · rw [hq.len _ (by omega), hlen]; omega
    · rename_i hm
      have hr : mode = .real := by
        rcases hmode with h | h
        · exact h
        · exact absurd h hm
      subst hr
      rw [List.mem_singleton] at he
      subst he
      refine ⟨⟨?_, ?_, by simp⟩, by simp [nmCorr, nmCoord], by simp [nmCorr, nmTime], by simp [nmCorr, nmBl]⟩
      · rw [hlen]; show 8 * _ % 4 = 0; omega
      · rw [hlen]; omega
  · split at he <;> simp at he
    subst he
    refine ⟨⟨by rw [coordBytes_length]; rfl, by rw [coordBytes_length]; omega, by simp⟩, ?_, by simp [nmTime, nmCoord],
      by simp [nmBl, nmCoord]⟩
    rintro ty d h
    simp only [Ev.put.injEq] at h
    exact h.2.1.symm
  · split at he <;> simp at he
    subst he
    refine ⟨⟨by rw [be64_length]; rfl, by rw [be64_length]; omega, by simp⟩, by simp [nmTime, nmCoord], ?_,
      by simp [nmBl, nmTime]⟩
    rintro ty d h
    simp only [Ev.put.injEq] at h
    exact h.2.1.symm
  · split at he <;> simp at he
    subst he
    refine ⟨⟨by rw [be32_length]; rfl, by rw [be32_length]; omega, by simp⟩, by simp [nmBl, nmCoord],
      by simp [nmBl, nmTime], ?_⟩
    rintro ty d h
    simp only [Ev.put.injEq] at h
    exact h.2.1.symm
  · rw [List.mem_singleton] at he
    subst he
    exact ⟨trivial, by simp, by simp, by simp⟩

theorem wrun_left {w w' : Writer} {a b : List Ev} (h : wrun w (a ++ b) = some w') : ∃ w1, wrun w a = some w1 ∧
    wrun w1 b = some w' := by
  rw [wrun_append] at h
  cases hw : wrun w a with
  | none => rw [hw] at h; simp at h
  | some w1 => rw [hw] at h; exact ⟨w1, rfl, h⟩

theorem reach_block {o q junk mode} (hq : QuantOk q) (hmode : mode = .real ∨ mode = .int2) {s s2 : VisW} {n : Nat}
    {b : Block} (hs : Reach s n) (hb : BlockOk b) (h : writeBlock o q junk mode s b = some s2) :
    Reach s2 (n + 1) ∧ ∃ A B wA, s2.evs = A ++ .put nmCorr mode (corrBytes q mode b.vis) :: B ++ [.next] ∧
      records A = n ∧ (∀ e ∈ B, e ≠ .next) ∧ wrun newWriter A = some wA ∧ Unchecked wA nmCorr ∧
      (mode = .int2 → Ev.put nmTscale .real (be32 (q.scale b.vis.data)) ∈ s2.evs) := by
  obtain ⟨s1, ha, e1, e2, e3, e4, hw1, hw2, e5, e6, e7, e8⟩ := writeBlock_some h
  have hun : ∀ e ∈ b.users.map User.ev, e ≠ .next := by
    intro e he
    obtain ⟨p, _, rfl⟩ := List.mem_map.1 he
    simp [User.ev]
  have hrun : wrun newWriter (s.evs ++ b.users.map User.ev) = some s1.w := by
    rw [wrun_append, hs.run]
    exact hw1
  have hrun2 : wrun newWriter s2.evs = some s2.w := by
    rw [e8, wrun_append, hrun]
    exact hw2
  have hvo := visEvs_ok (o := o) hq hmode s1.cache.isNone (numchan s1.w) (theCache o junk s1 b.vis) hb.vis
  obtain ⟨pre, post, hsp, hpre, hpost⟩ := visEvs_split o q mode s1.cache.isNone (numchan s1.w) (theCache o junk s1 b.vis) b.vis
  have hsp' : s2.evs = (s.evs ++ b.users.map User.ev ++ pre) ++ .put nmCorr mode (corrBytes q mode b.vis) :: post ++ [.next] := by
    rw [e8]
    unfold callEvs
    rw [hsp]
    simp
  have hrecA : records (s.evs ++ b.users.map User.ev ++ pre) = n := by
    rw [records_append, records_append, hs.recs, records_none _ hun, records_none _ hpre]
    rfl
  have mem : ∀ e ∈ s2.evs, e ∈ s.evs ∨ (∃ p ∈ b.users, e = p.ev) ∨
      e ∈ visEvs o q mode s1.cache.isNone (numchan s1.w) (theCache o junk s1 b.vis) b.vis := by
    intro e he
    rw [e8] at he
    rcases List.mem_append.1 he with he | he
    · rcases List.mem_append.1 he with he | he
      · exact Or.inl he
      · obtain ⟨p, hp, rfl⟩ := List.mem_map.1 he
        exact Or.inr (Or.inl ⟨p, hp, rfl⟩)
    · exact Or.inr (Or.inr he)
  refine ⟨⟨hrun2, ?_, ?_, ?_, ?_, ?_, ?_⟩, s.evs ++ b.users.map User.ev ++ pre, post, ?_⟩
  · intro e he
    rcases mem e he with he | ⟨p, hp, rfl⟩ | he
    · exact hs.ok e he
    · exact hb.users p hp
    · exact (hvo e he).1
  · rw [hsp', records_append, records_append, hrecA]
    simp only [records, records_none _ hpost]
  · exact wrun_unchecked hw2 _ (wrun_unchecked hw1 _ hs.corr (users_open _))
      (visEvs_open o q mode s1.cache.isNone (numchan s1.w) (theCache o junk s1 b.vis) b.vis)
  · intro ty d he hd
    rcases mem _ he with he | ⟨p, hp, he⟩ | he
    · exact hs.coord ty d he hd
    · simp only [User.ev, Ev.put.injEq] at he
      obtain ⟨hn, hty, hdd⟩ := he
      rw [hty]
      exact (hb.agrees.types p hp (by rw [← hdd]; exact hd)).1 hn.symm
    · exact (hvo _ he).2.1 ty d rfl
  · intro ty d he hd
    rcases mem _ he with he | ⟨p, hp, he⟩ | he
    · exact hs.time ty d he hd
    · simp only [User.ev, Ev.put.injEq] at he
      obtain ⟨hn, hty, hdd⟩ := he
      rw [hty]
      exact (hb.agrees.types p hp (by rw [← hdd]; exact hd)).2.1 hn.symm
    · exact (hvo _ he).2.2.1 ty d rfl
  · intro ty d he hd
    rcases mem _ he with he | ⟨p, hp, he⟩ | he
    · exact hs.bl ty d he hd
    · simp only [User.ev, Ev.put.injEq] at he
      obtain ⟨hn, hty, hdd⟩ := he
      rw [hty]
      exact (hb.agrees.types p hp (by rw [← hdd]; exact hd)).2.2 hn.symm
    · exact (hvo _ he).2.2.2 ty d rfl
  · have hwA : ∃ wA, wrun newWriter (s.evs ++ b.users.map User.ev ++ pre) = some wA := by
      rw [hsp', List.append_assoc] at hrun2
      obtain ⟨wA, h1, _⟩ := wrun_left hrun2
      exact ⟨wA, h1⟩
    obtain ⟨wA, hwA⟩ := hwA
    refine ⟨wA, hsp', hrecA, hpost, hwA, ?_, ?_⟩
    · rw [wrun_append, hrun] at hwA
      refine wrun_unchecked hwA _ (wrun_unchecked hw1 _ hs.corr (users_open _)) (fun e he => ?_)
      have := visEvs_open o q mode s1.cache.isNone (numchan s1.w) (theCache o junk s1 b.vis) b.vis
      rw [hsp] at this
      exact this e (by simp [he])
    · rintro rfl
      rw [e8]
      refine List.mem_append_right _ ?_
      unfold callEvs visEvs corrEvs
      simp

theorem writeBlocks_append (o : FpOps) (q : Quant) (junk : Nat → Nat) (mode : Ty) (s : VisW) (a b : List Block) :
    writeBlocks o q junk mode s (a ++ b) =
      (writeBlocks o q junk mode s a).bind (fun s' => writeBlocks o q junk mode s' b) := by
  induction a generalizing s with
  | nil => rfl
  | cons x a ih =>
    simp only [List.cons_append, writeBlocks]
    cases writeBlock o q junk mode s x with
    | none => rfl
    | some s1 => exact ih s1

theorem reach_blocks {o q junk mode} (hq : QuantOk q) (hmode : mode = .real ∨ mode = .int2) {bs : List Block} :
    ∀ {s s2 : VisW} {n : Nat}, Reach s n → (∀ b ∈ bs, BlockOk b) → writeBlocks o q junk mode s bs = some s2 →
      Reach s2 (n + bs.length) := by
  induction bs with
  | nil =>
    intro s s2 n hs _ h
    simp only [writeBlocks, Option.some.injEq] at h
    subst h
    exact hs
  | cons b bs ih =>
    intro s s2 n hs hb h
    simp only [writeBlocks] at h
    cases h1 : writeBlock o q junk mode s b with
    | none => rw [h1] at h; simp at h
    | some s1 =>
      rw [h1] at h
      have := ih (reach_block hq hmode hs (hb b List.mem_cons_self) h1).1
        (fun b' hb' => hb b' (List.mem_cons_of_mem _ hb')) h
      rw [List.length_cons, show n + (bs.length + 1) = n + 1 + bs.length by omega]
      exact this

theorem held_blocks {o q junk mode} (hl : FpLaws o) (hq : QuantOk q) {bs : List Block} :
    ∀ {s s2 : VisW} {v : Vis} {c : Cache}, Held o q mode s v c → (∀ b ∈ bs, BlockOk b) →
      writeBlocks o q junk mode s bs = some s2 → ∃ v c, Held o q mode s2 v c := by
  induction bs with
  | nil =>
    intro s s2 v c hs _ h
    simp only [writeBlocks, Option.some.injEq] at h
    subst h
    exact ⟨v, c, hs⟩
  | cons b bs ih =>
    intro s s2 v c hs hb h
    simp only [writeBlocks] at h
    cases h1 : writeBlock o q junk mode s b with
    | none => rw [h1] at h; simp at h
    | some s1 =>
      rw [h1] at h
      obtain ⟨c1, hc1⟩ := block_held hl hq (hb b List.mem_cons_self) (Or.inr ⟨v, c, hs⟩) h1
      exact ih hc1 (fun b' hb' => hb b' (List.mem_cons_of_mem _ hb')) h

/-- before every block the stream is in step with the cache -/
theorem ready_blocks {o q junk mode} (hl : FpLaws o) (hq : QuantOk q) {bs : List Block} {b : Block} {s s2 : VisW}
    (h0 : openVis mode = some s) (hfr : ∀ b', (bs ++ [b]).head? = some b' → Fresh o b') (hb : ∀ b ∈ bs, BlockOk b)
    (h : writeBlocks o q junk mode s bs = some s2) : Ready o q mode s2 b := by
  cases bs with
  | nil =>
    simp only [writeBlocks, Option.some.injEq] at h
    subst h
    exact Or.inl ⟨open_cold h0, hfr b rfl⟩
  | cons b0 bs =>
    simp only [writeBlocks] at h
    cases h1 : writeBlock o q junk mode s b0 with
    | none => rw [h1] at h; simp at h
    | some s1 =>
      rw [h1] at h
      obtain ⟨c1, hc1⟩ := block_held hl hq (hb b0 List.mem_cons_self) (Or.inl ⟨open_cold h0, hfr b0 rfl⟩) h1
      exact Or.inr (held_blocks hl hq hc1 (fun b' hb' => hb b' (List.mem_cons_of_mem _ hb')) h)

/-! ## The flags -/

/-- a call on the flag file that writes nothing -/
def Quiet : Op → Prop
  | .write _ _ => False
  | .writeRuns _ _ _ => False
  | _ => True

theorem Quiet.step {op : Op} (h : Quiet op) (T : Flags) : Flags.step T op = T := by
  cases op with
  | write => exact absurd h (by simp [Quiet])
  | writeRuns => exact absurd h (by simp [Quiet])
  | _ => rfl

theorem quiet_fold (ops : List Op) (h : ∀ op ∈ ops, Quiet op) (T : Flags) : ops.foldl Flags.step T = T := by
  induction ops generalizing T with
  | nil => rfl
  | cons x ops ih =>
    rw [List.foldl_cons, (h x List.mem_cons_self).step T]
    exact ih (fun op hop => h op (List.mem_cons_of_mem _ hop)) T

theorem write_at (T : Flags) (off : Nat) (fl : List Bool) (j : Nat) (hj : j < fl.length) :
    Flags.step T (.write off fl) (off + j) = some fl[j] := by
  show (if off ≤ off + j ∧ off + j < off + fl.length then fl[off + j - off]? else T (off + j)) = _
  rw [if_pos ⟨by omega, by omega⟩, show off + j - off = j by omega, List.getElem?_eq_getElem hj]

theorem write_below (T : Flags) (off : Nat) (fl : List Bool) (p : Nat) (hp : p < off) :
    Flags.step T (.write off fl) p = T p := by
  show (if off ≤ p ∧ p < off + fl.length then fl[p - off]? else T p) = _
  rw [if_neg (by omega)]

/-- later blocks leave the history and the flags of earlier ones alone -/
theorem blocks_extend {o q junk mode} {bs : List Block} : ∀ {s s2 : VisW}, writeBlocks o q junk mode s bs = some s2 →
    (∃ x, s2.evs = s.evs ++ x) ∧
    (∃ ops, s2.flagOps = s.flagOps ++ ops ∧ (∀ op ∈ ops, ∃ a b, op = Op.write a b) ∧
      ∀ (T : Flags) (p : Nat), p < s.flagOff → ops.foldl Flags.step T p = T p) := by
  induction bs with
  | nil =>
    intro s s2 h
    simp only [writeBlocks, Option.some.injEq] at h
    subst h
    exact ⟨⟨[], by simp⟩, [], by simp, by simp, fun _ _ _ => rfl⟩
  | cons b bs ih =>
    intro s s2 h
    simp only [writeBlocks] at h
    cases h1 : writeBlock o q junk mode s b with
    | none => rw [h1] at h; simp at h
    | some s1 =>
      rw [h1] at h
      obtain ⟨_, _, _, _, _, _, _, _, _, e6, e7, e8⟩ := writeBlock_some h1
      obtain ⟨⟨x, hx⟩, ops, ho, hw, hp⟩ := ih h
      refine ⟨⟨_, by rw [hx, e8, List.append_assoc, List.append_assoc]⟩,
        .write s.flagOff b.vis.flags :: ops, by rw [ho, e7]; simp, ?_, ?_⟩
      · intro op hop
        rcases List.mem_cons.1 hop with rfl | hop
        · exact ⟨_, _, rfl⟩
        · exact hw op hop
      · intro T p hlt
        rw [List.foldl_cons, hp _ p (by omega), write_below _ _ _ _ hlt]

theorem run_snoc (m0 m m' : Mask) (ops : List Op) (op : Op) (h : run m0 ops = .ok m) (h2 : step m op = .ok m') :
    run m0 (ops ++ [op]) = .ok m' := by
  induction ops generalizing m0 with
  | nil =>
    simp only [run, Except.ok.injEq] at h
    subst h
    simp only [List.nil_append, run, h2]
  | cons x ops ih =>
    simp only [List.cons_append, run] at h ⊢
    cases hs : step m0 x with
    | error e => rw [hs] at h; cases h
    | ok m1 => rw [hs] at h; exact ih m1 h

theorem uvreadN_snoc (f : Nat → Byte) (size nsize n : Nat) (s s1 s2 : VisR) (outs : List Out) (out : Out)
    (h : uvreadN f size nsize n s = some (s1, outs)) (h2 : uvread f size nsize s1 = .ok s2 out) :
    uvreadN f size nsize (n + 1) s = some (s2, outs ++ [out]) := by
  induction n generalizing s outs with
  | zero =>
    simp only [uvreadN, Option.some.injEq, Prod.mk.injEq] at h
    obtain ⟨rfl, rfl⟩ := h
    simp only [uvreadN, h2, Option.map_some, List.nil_append]
  | succ n ih =>
    rw [uvreadN] at h ⊢
    cases hu : uvread f size nsize s with
    | eof x => rw [hu] at h; simp at h
    | bad => rw [hu] at h; simp at h
    | ok s' out' =>
      rw [hu] at h
      simp only at h ⊢
      cases hn : uvreadN f size nsize n s' with
      | none => rw [hn] at h; simp at h
      | some p =>
        rw [hn] at h
        simp only [Option.map_some, Option.some.injEq, Prod.mk.injEq] at h
        obtain ⟨h3, h4⟩ := h
        have := ih s' p.2 (by rw [hn, ← h3])
        rw [this, ← h4]
        rfl

/-! ## Theorems -/

/-- a reader at the beginning of the data set: just opened, or rewound -/
structure AtStart (s : VisW) (r : Reader) : Prop where
  vars : rtable r.vars = table s.w
  offset : r.offset = 0
  maxOffset : r.maxOffset = s.w.offset

theorem open_atStart (s : VisW) : AtStart s (openReader (table s.w) s.w.offset) := ⟨open_rtable _ _, rfl, rfl⟩

/-- a data set that was written: blocks of assignments and visibilities, and some more assignments -/
structure Written (o : FpOps) (q : Quant) (junk : Nat → Nat) (mode : Ty) (bs : List Block) (s : VisW) : Prop where
  laws : FpLaws o
  quant : QuantOk q
  corr : mode = .real ∨ mode = .int2
  ran : ∃ s0 s1 tail, openVis mode = some s0 ∧ writeBlocks o q junk mode s0 bs = some s1 ∧ assignAll s1 tail = some s ∧
    ∀ p ∈ tail, EvOk p.ev
  blocks : ∀ b ∈ bs, BlockOk b
  fresh : ∀ b, bs.head? = some b → Fresh o b
  vars : (table s.w).length ≤ 128

/-- the flag file: written by `uvwrite_c`, and then flushed, closed, opened and read -/
def FlagFile (s : VisW) (m : Mask) : Prop :=
  ∃ file buf words ops, (∀ op ∈ ops, Quiet op) ∧ run (mkopen file buf words) (s.flagOps ++ ops) = .ok m

theorem take_same {b d : List Byte} {L n : Nat} (h : b.take L = d) (hd : d.length = n) : b.take n = d := by
  subst hd
  subst h
  rw [List.length_take, ← List.take_eq_take_min]

/-- the words of a preamble -/
theorem pairs_one (t : Nat) (h : t < 2 ^ 64) : pairsBig (words (be64 t)) = [t] := by
  have := pairsBig_flatMap [t] (by simpa using h)
  simpa using this

theorem pairs_three (x y z : Nat) (hx : x < 2 ^ 64) (hy : y < 2 ^ 64) (hz : z < 2 ^ 64) :
    pairsBig (words (be64 x ++ be64 y ++ be64 z)) = [x, y, z] := by
  have := pairsBig_flatMap [x, y, z] (by
    intro a ha
    simp only [List.mem_cons, List.not_mem_nil, or_false] at ha
    rcases ha with rfl | rfl | rfl <;> assumption)
  simpa using this

theorem words_one (b : Nat) (h : b < 2 ^ 32) : words (be32 b) = [b] := by
  have := words_flatMap [b] (by simpa using h)
  simpa using this

/-! ## A data set, and reading it -/

/-- where the flags of the `k`-th visibility are -/
def flagPos : List Block → Nat → Nat
  | _, 0 => 0
  | [], _ + 1 => 0
  | b :: bs, k + 1 => b.vis.flags.length + flagPos bs k

theorem flagPos_succ {bs : List Block} {k : Nat} {b : Block} (h : bs[k]? = some b) :
    flagPos bs (k + 1) = flagPos bs k + b.vis.flags.length := by
  induction bs generalizing k with
  | nil => simp at h
  | cons x bs ih =>
    cases k with
    | zero =>
      simp only [List.getElem?_cons_zero, Option.some.injEq] at h
      subst h
      simp [flagPos]
    | succ k =>
      rw [List.getElem?_cons_succ] at h
      have := ih h
      simp only [flagPos]
      rw [show flagPos bs (k + 1) = flagPos bs k + b.vis.flags.length from this]
      omega

/-- the `k`-th record: `s2` is the state when it has been written, `s` the last one -/
structure RecAt (o : FpOps) (q : Quant) (mode : Ty) (s s2 : VisW) (k off : Nat) (b : Block) : Prop where
  ok : BlockOk b
  evs : ∃ A B wA, s2.evs = A ++ .put nmCorr mode (corrBytes q mode b.vis) :: B ++ [.next] ∧
      records A = k ∧ (∀ e ∈ B, e ≠ .next) ∧ wrun newWriter A = some wA ∧ Unchecked wA nmCorr ∧
      (mode = .int2 → Ev.put nmTscale .real (be32 (q.scale b.vis.data)) ∈ s2.evs)
  more : ∃ x, s.evs = s2.evs ++ x
  coord : ∀ ty d, Ev.put nmCoord ty d ∈ s2.evs → d ≠ [] → ty = .dble
  time : ∀ ty d, Ev.put nmTime ty d ∈ s2.evs → d ≠ [] → ty = .dble
  bl : ∀ ty d, Ev.put nmBl ty d ∈ s2.evs → d ≠ [] → ty = .real
  held : ∃ c, Held o q mode s2 b.vis c
  flags : ∀ (T : Flags) (j : Nat) (hj : j < b.vis.flags.length), s.flagOps.foldl Flags.step T (off + j) = some b.vis.flags[j]

/-- a data set that holds these visibilities -/
structure DataSet (o : FpOps) (q : Quant) (mode : Ty) (bs : List Block) (s : VisW) : Prop where
  quant : QuantOk q
  corr : mode = .real ∨ mode = .int2
  run : wrun newWriter s.evs = some s.w
  ok : HistOk s.evs
  recs : records s.evs = bs.length
  vars : (table s.w).length ≤ 128
  ops : ∀ op ∈ s.flagOps, (∃ a b, op = Op.write a b) ∨ Quiet op
  each : ∀ (k : Nat) (b : Block), bs[k]? = some b → ∃ s2, RecAt o q mode s s2 k (flagPos bs k) b

/-- the `k`-th record, read from the state after `k` of them -/
theorem dataset_step {o q mode} {bs : List Block} {s : VisW} (hw : DataSet o q mode bs s) {f : Nat → Byte}
    {size nsize : Nat} (hf : Holds f size s.w.out) (hn : ∀ b ∈ bs, b.vis.flags.length ≤ nsize) {r0 : Reader}
    (hr0 : AtStart s r0) {m : Mask} (hm : FlagFile s m) {k : Nat} {b : Block} (hbget : bs[k]? = some b) {r : Reader}
    (hread : readN f size k r0 = some r) :
    ∃ r' m' out, readN f size (k + 1) r0 = some r' ∧
      findCorr f size (r.maxOffset - r.offset + 1) { r with mark := r.callno + 1, copy := false } = .ok r' ∧
      (∃ cv, rlocvar r'.vars nmCorr = some cv ∧ cv.length / (2 * cv.ty.ext) = b.vis.flags.length) ∧
      readLine nsize ⟨r', flagPos bs k, m⟩ = .ok ⟨r', flagPos bs (k + 1), m'⟩ out ∧ FlagFile s m' ∧
      Matches o q mode out b.vis := by
  have hrun := hw.run
  have hok := hw.ok
  have hbm : b ∈ bs := List.mem_of_getElem? hbget
  obtain ⟨s2, hrec2⟩ := hw.each k b hbget
  have hbo := hrec2.ok
  obtain ⟨A, B, wA, a1, a2, a3, a4, a5, a6⟩ := hrec2.evs
  obtain ⟨c, hheld⟩ := hrec2.held
  obtain ⟨x, hx⟩ := hrec2.more
  have hevs : s.evs = A ++ .put nmCorr mode (corrBytes q mode b.vis) :: B ++ .next :: x := by
    rw [hx, a1]
    simp
  have hclen := corrBytes_length hw.quant mode hbo.vis
  have hone := hbo.vis.one
  have hcne : corrBytes q mode b.vis ≠ [] := by
    intro hc
    rw [hc] at hclen
    simp only [List.length_nil] at hclen
    omega
  obtain ⟨r', c1, c2⟩ := read_step hrun hok hw.vars hf hr0.vars hr0.offset hr0.maxOffset hread hevs a2 a3 hcne a4 a5
  have hup : upTo (k + 1) s.evs = s2.evs := by
    rw [hevs, a1]
    exact upTo_rec _ _ k (by
      rw [records_append, a2]
      simp only [records, records_none B a3]
      rfl)
  have hrec : k + 1 ≤ records s.evs := by
    rw [hevs, records_append, records_append, a2]
    simp only [records]
    omega
  have hin : ∀ e ∈ s2.evs, e ∈ s.evs := by
    intro e he
    rw [hx]
    exact List.mem_append_left _ he
  -- the values of the variables
  have get : ∀ (nm : Name) (ty : Ty) (d0 d : List Byte), Ev.put nm ty d0 ∈ s2.evs → d0 ≠ [] →
      valueAfter s2.evs nm = some d → getvr r' nm ty = some d ∧
        ∃ upd, probe r' nm = some (ty, d.length / ty.mem, upd) := by
    intro nm ty d0 d hp hd0 hv
    exact getvr_assigned hrun hok hw.vars hf hr0.vars hr0.offset hr0.maxOffset hrec c1 (hin _ hp) hd0
      (by rw [hup]; exact hv)
  obtain ⟨x0, y0, z0, bx, by', bz, hcv, _, hcx, hcy, hcz⟩ := hheld.coord
  obtain ⟨tt, bt, htv, _, hts⟩ := hheld.time
  obtain ⟨bb, bbl, hbv, _, hbs⟩ := hheld.bl
  have hcoord : getvr r' nmCoord .dble = some (be64 x0 ++ be64 y0 ++ be64 z0) := by
    obtain ⟨ty, hp, hd⟩ := valueAfter_mem _ _ _ hcv
    have := hrec2.coord ty _ hp hd
    subst this
    exact (get _ _ _ _ hp hd hcv).1
  have htime : getvr r' nmTime .dble = some (be64 tt) := by
    obtain ⟨ty, hp, hd⟩ := valueAfter_mem _ _ _ htv
    have := hrec2.time ty _ hp hd
    subst this
    exact (get _ _ _ _ hp hd htv).1
  have hbl : getvr r' nmBl .real = some (be32 bb) := by
    obtain ⟨ty, hp, hd⟩ := valueAfter_mem _ _ _ hbv
    have := hrec2.bl ty _ hp hd
    subst this
    exact (get _ _ _ _ hp hd hbv).1
  have hcorrIn : Ev.put nmCorr mode (corrBytes q mode b.vis) ∈ s2.evs := by
    rw [a1]
    simp
  obtain ⟨hcg, upd, hcp⟩ := get nmCorr mode _ _ hcorrIn hcne hheld.corr
  -- the variable `corr`
  have hloc : ∃ cv, rlocvar r'.vars nmCorr = some cv ∧ cv.ty = mode ∧
      cv.length / (2 * cv.ty.ext) = b.vis.flags.length ∧
      (cv.buf).map (fun x => x.take (8 * b.vis.flags.length)) = some (corrBytes q mode b.vis) := by
    unfold probe at hcp
    unfold getvr at hcg
    cases hlv : rlocvar r'.vars nmCorr with
    | none => rw [hlv] at hcp; simp at hcp
    | some cv =>
      rw [hlv] at hcp hcg
      simp only [Option.map_some, Option.some.injEq, Prod.mk.injEq] at hcp
      obtain ⟨p1, p2, _⟩ := hcp
      simp only at hcg
      refine ⟨cv, rfl, p1, ?_, ?_⟩
      · rw [Nat.mul_comm 2, ← Nat.div_div_eq_div_mul, p2, hclen]
        rcases hw.corr with rfl | rfl
        · show 8 * _ / 4 / 2 = _; omega
        · show 8 * _ / 4 / 2 = _; omega
      · rw [if_neg (by rw [p1]; simp)] at hcg
        cases hbuf : cv.buf with
        | none => rw [hbuf] at hcg; simp at hcg
        | some bf =>
          rw [hbuf] at hcg
          simp only [Option.map_some, Option.some.injEq] at hcg ⊢
          exact take_same hcg hclen
  obtain ⟨cv, l1, l2, l3, l4⟩ := hloc
  have hdata : readCorr r' cv b.vis.flags.length = some (dataOf q mode b.vis) := by
    unfold readCorr dataOf
    rw [l2]
    rcases hw.corr with rfl | rfl
    · simp only
      cases hbuf : cv.buf with
      | none => rw [hbuf] at l4; simp at l4
      | some bf =>
        rw [hbuf] at l4
        simp only [Option.map_some, Option.some.injEq] at l4 ⊢
        rw [l4]
        rfl
    · have hts' := (get nmTscale .real _ _ (a6 rfl) (be32_ne _) (hheld.tscale rfl)).1
      simp only [hts']
      cases hbuf : cv.buf with
      | none => rw [hbuf] at l4; simp at l4
      | some bf =>
        rw [hbuf] at l4
        simp only [Option.map_some, Option.some.injEq] at l4 ⊢
        rw [l4, words_one _ (hw.quant.scale _)]
        rfl
  have hpre : readPreamble r' = some (x0, y0, some z0, tt, bb) := by
    unfold readPreamble
    simp only [hcoord, htime, hbl, pairs_three x0 y0 z0 bx by' bz, pairs_one tt bt, words_one bb bbl, List.head?_cons]
  -- the flags
  obtain ⟨file, buf, wds, ops, hq1, hq2⟩ := hm
  have hopsOk : OpsOk (s.flagOps ++ ops) := by
    intro op hop off runs n he
    subst he
    exfalso
    rcases List.mem_append.1 hop with hop | hop
    · rcases hw.ops _ hop with ⟨_, _, he⟩ | he
      · simp at he
      · exact absurd he (by simp [Quiet])
    · exact absurd (hq1 _ hop) (by simp [Quiet])
  have hknown : ∀ j, (hj : j < b.vis.flags.length) →
      (s.flagOps ++ ops).foldl Flags.step (Flags.ofFile file wds) (flagPos bs k + j) = some b.vis.flags[j] := by
    intro j hj
    rw [List.foldl_append, quiet_fold ops hq1]
    exact hrec2.flags _ j hj
  obtain ⟨m', fl, hfl⟩ := Verif.Mir.Mask.c43_readable file buf wds _ hopsOk m hq2 (flagPos bs k) b.vis.flags.length
    (fun j hj => by rw [hknown j hj]; simp)
  obtain ⟨hfl1, hfl2⟩ := Verif.Mir.Mask.c43_last_written file buf wds _ hopsOk m m' hq2 (flagPos bs k) _ fl hfl
  have hfleq : fl = b.vis.flags := by
    apply List.ext_getElem?
    intro j
    by_cases hj : j < b.vis.flags.length
    · rw [hfl2 j _ hj (hknown j hj), List.getElem?_eq_getElem hj]
    · rw [List.getElem?_eq_none (by omega), List.getElem?_eq_none (by omega)]
  subst hfleq
  have hline : readLine nsize ⟨r', flagPos bs k, m⟩ = .ok ⟨r', flagPos bs k + b.vis.flags.length, m'⟩
      ⟨x0, y0, some z0, tt, bb, dataOf q mode b.vis, b.vis.flags⟩ := by
    unfold readLine
    simp only [l1, l3]
    rw [if_neg (by omega), if_neg (by have := hn b hbm; omega)]
    simp only [hfl, hdata, hpre]
  refine ⟨r', m', _, c1, c2, ⟨cv, l1, l3⟩, by rw [flagPos_succ hbget]; exact hline, ?_, ?_⟩
  · refine ⟨file, buf, wds, ops ++ [.read (flagPos bs k) b.vis.flags.length], ?_, ?_⟩
    · intro op hop
      rcases List.mem_append.1 hop with hop | hop
      · exact hq1 op hop
      · rw [List.mem_singleton.1 hop]; exact trivial
    · rw [← List.append_assoc]
      exact run_snoc _ _ _ _ _ hq2 (by simp only [step, hfl])
  · exact ⟨hcx, hcy, ⟨z0, rfl, hcz⟩, hts, hbs, rfl, rfl⟩

/-- the state after `k` calls -/
theorem dataset_reads {o q mode} {bs : List Block} {s : VisW} (hw : DataSet o q mode bs s) {f : Nat → Byte}
    {size nsize : Nat} (hf : Holds f size s.w.out) (hn : ∀ b ∈ bs, b.vis.flags.length ≤ nsize) {r0 : Reader}
    (hr0 : AtStart s r0) {m : Mask} (hm : FlagFile s m) (k : Nat) (hk : k ≤ bs.length) :
    ∃ R outs, uvreadN f size nsize k ⟨r0, 0, m⟩ = some (R, outs) ∧ readN f size k r0 = some R.r ∧
      R.flagOff = flagPos bs k ∧
      FlagFile s R.m ∧ outs.length = k ∧
      ∀ (i : Nat) (out : Out) (b : Block), outs[i]? = some out → bs[i]? = some b → Matches o q mode out b.vis := by
  induction k with
  | zero => exact ⟨_, [], rfl, rfl, by cases bs <;> rfl, hm, rfl, by simp⟩
  | succ k ih =>
    obtain ⟨R, outs, i1, i2, i5, i6, i7, i8⟩ := ih (by omega)
    have hbget : bs[k]? = some bs[k] := List.getElem?_eq_getElem hk
    generalize bs[k] = b at hbget
    obtain ⟨r', m', out', c1, c2, _, c4, c5, c6⟩ := dataset_step hw hf hn hr0 i6 hbget i2
    have hcall : uvread f size nsize R = .ok ⟨r', flagPos bs (k + 1), m'⟩ out' := by
      unfold uvread
      rw [c2]
      simp only
      rw [i5]
      exact c4
    refine ⟨_, _, uvreadN_snoc f size nsize k _ R _ outs _ i1 hcall, c1, rfl, c5, by simp [i7], ?_⟩
    intro i out b' hi hb'
    by_cases hik : i < outs.length
    · rw [List.getElem?_append_left hik] at hi
      exact i8 i out b' hi hb'
    · rw [List.getElem?_append_right (by omega)] at hi
      have hi0 : i = k := by
        have : i - outs.length < 1 := (List.getElem?_eq_some_iff.1 hi).1
        omega
      subst hi0
      rw [hbget, Option.some.injEq] at hb'
      subst hb'
      rw [i7, Nat.sub_self] at hi
      simp only [List.getElem?_cons_zero, Option.some.injEq] at hi
      subst hi
      exact c6

/-- all of it, to the end -/
theorem dataset_all {o q mode} {bs : List Block} {s : VisW} (hw : DataSet o q mode bs s) {f : Nat → Byte}
    {size nsize : Nat} (hf : Holds f size s.w.out) (hn : ∀ b ∈ bs, b.vis.flags.length ≤ nsize) {r0 : Reader}
    (hr0 : AtStart s r0) {m : Mask} (hm : FlagFile s m) :
    ∃ R outs, uvreadN f size nsize bs.length ⟨r0, 0, m⟩ = some (R, outs) ∧ outs.length = bs.length ∧
      (∀ (i : Nat) (out : Out) (b : Block), outs[i]? = some out → bs[i]? = some b → Matches o q mode out b.vis) ∧
      ∃ R', uvread f size nsize R = .eof R' := by
  obtain ⟨R, outs, i1, i2, _, _, i7, i8⟩ := dataset_reads hw hf hn hr0 hm bs.length (Nat.le_refl _)
  refine ⟨R, outs, i1, i7, i8, ?_⟩
  obtain ⟨r', hr'⟩ := end_all hw.run hw.ok hw.vars hf hr0.vars hr0.offset hr0.maxOffset (by rw [hw.recs]; exact i2)
  refine ⟨{ R with r := r' }, ?_⟩
  unfold uvread
  rw [findCorr_eof hr']

/-- a reader that is rewound is at the beginning -/
theorem dataset_rewind {o q mode} {bs : List Block} {s : VisW} (hw : DataSet o q mode bs s) {f : Nat → Byte}
    {size : Nat} (hf : Holds f size s.w.out) {r0 r : Reader} (hr0 : AtStart s r0) {k : Nat} (hk : k ≤ bs.length)
    (hr : readN f size k r0 = some r) : AtStart s (rewind r) := by
  obtain ⟨r1, _, _, a1, _, _, _, _, _, a7, _, a9, _⟩ := readN_all hw.run hw.ok hw.vars hf hr0.vars hr0.offset hr0.maxOffset
    (show k ≤ records s.evs by rw [hw.recs]; exact hk)
  rw [hr, Option.some.injEq] at a1
  subst a1
  refine ⟨?_, rfl, a7⟩
  rw [← a9]
  simp [rtable, rewind]

/-! ## What was written is such a data set -/

theorem flagPos_append (bs : List Block) (b : Block) (k : Nat) (hk : k ≤ bs.length) :
    flagPos (bs ++ [b]) k = flagPos bs k := by
  induction bs generalizing k with
  | nil =>
    have : k = 0 := by simpa using hk
    subst this
    rfl
  | cons x bs ih =>
    cases k with
    | zero => rfl
    | succ k =>
      simp only [List.cons_append, flagPos]
      rw [ih k (by simpa using hk)]

theorem flagPos_le {bs : List Block} : ∀ {k l : Nat}, k ≤ l → l ≤ bs.length → flagPos bs k ≤ flagPos bs l := by
  induction bs with
  | nil =>
    intro k l hk hl
    have : l = 0 := by simpa using hl
    have : k = 0 := by omega
    subst_vars
    exact Nat.le_refl _
  | cons x bs ih =>
    intro k l hk hl
    cases k with
    | zero => exact Nat.zero_le _
    | succ k =>
      cases l with
      | zero => omega
      | succ l =>
        have := ih (k := k) (l := l) (by omega) (by simpa using hl)
        simp only [flagPos]
        omega

/-- what has been written so far; `cold`: no visibility since the data set was opened -/
structure Soon (o : FpOps) (q : Quant) (mode : Ty) (cold : Bool) (bs : List Block) (s : VisW) : Prop where
  reach : Reach s bs.length
  off : s.flagOff = flagPos bs bs.length
  ops : ∀ op ∈ s.flagOps, (∃ a b, op = Op.write a b) ∨ Quiet op
  each : ∀ (k : Nat) (b : Block), bs[k]? = some b → ∃ s2, RecAt o q mode s s2 k (flagPos bs k) b
  head : (table s.w).head? = some (nmCorr, mode)
  blank : cold = true → Cold s
  hot : cold = false → ∃ v c, Held o q mode s v c

theorem RecAt.extend {o q mode} {s s' s2 : VisW} {k off bound : Nat} {b : Block} (h : RecAt o q mode s s2 k off b)
    {x : List Ev} (hx : s'.evs = s.evs ++ x) {ops : List Op} (ho : s'.flagOps = s.flagOps ++ ops)
    (hb : off + b.vis.flags.length ≤ bound) (hops : ∀ (T : Flags) (p : Nat), p < bound → ops.foldl Flags.step T p = T p) :
    RecAt o q mode s' s2 k off b := by
  obtain ⟨y, hy⟩ := h.more
  refine ⟨h.ok, h.evs, ⟨y ++ x, by rw [hx, hy, List.append_assoc]⟩, h.coord, h.time, h.bl, h.held, fun T j hj => ?_⟩
  rw [ho, List.foldl_append, hops _ _ (by omega)]
  exact h.flags T j hj

theorem soon_open {o q mode s} (h : openVis mode = some s) : Soon o q mode true [] s := by
  refine ⟨reach_open h, ?_, ?_, by simp, ?_, fun _ => open_cold h, by simp⟩ <;>
    (rw [openVis_some, Option.some.injEq] at h; subst h) <;> simp [flagPos, table]

theorem head_prefix {a b : List (Name × Ty)} {x : Name × Ty} (h : a <+: b) (hx : a.head? = some x) : b.head? = some x := by
  obtain ⟨c, rfl⟩ := h
  cases a with
  | nil => simp at hx
  | cons y a => simpa using hx

theorem soon_block {o q junk mode} (hl : FpLaws o) (hq : QuantOk q) (hmode : mode = .real ∨ mode = .int2) {cold : Bool}
    {bs : List Block} {b : Block} {s s2 : VisW} (hs : Soon o q mode cold bs s) (hb : BlockOk b)
    (hfr : cold = true → Fresh o b) (h : writeBlock o q junk mode s b = some s2) : Soon o q mode false (bs ++ [b]) s2 := by
  obtain ⟨hreach2, A, B, wA, a1, a2, a3, a4, a5, a6⟩ := reach_block hq hmode hs.reach hb h
  have hready : Ready o q mode s b := by
    cases cold with
    | true => exact Or.inl ⟨hs.blank rfl, hfr rfl⟩
    | false => exact Or.inr (hs.hot rfl)
  obtain ⟨c, hheld⟩ := block_held hl hq hb hready h
  obtain ⟨s1, ha, e1, e2, e3, e4, hw1, hw2, e5, e6, e7, e8⟩ := writeBlock_some h
  have hlen : (bs ++ [b])[bs.length]? = some b := by simp
  refine ⟨by simpa using hreach2, ?_, ?_, ?_, head_prefix (wrun_table hw2) (head_prefix (wrun_table hw1) hs.head), by simp,
    fun _ => ⟨_, c, hheld⟩⟩
  · rw [e6, hs.off, List.length_append, List.length_singleton, flagPos_succ hlen, flagPos_append _ _ _ (Nat.le_refl _)]
  · intro op hop
    rw [e7] at hop
    rcases List.mem_append.1 hop with hop | hop
    · exact hs.ops op hop
    · exact Or.inl ⟨_, _, List.mem_singleton.1 hop⟩
  · intro k b' hk
    by_cases hkl : k < bs.length
    · rw [List.getElem?_append_left hkl] at hk
      obtain ⟨s3, h3⟩ := hs.each k b' hk
      rw [flagPos_append _ _ _ (by omega)]
      refine ⟨s3, h3.extend (x := b.users.map User.ev ++ callEvs o q junk mode s1 b.vis) (by rw [e8, List.append_assoc]) e7
        (bound := s.flagOff) ?_ ?_⟩
      · rw [hs.off, ← flagPos_succ hk]
        exact flagPos_le hkl (Nat.le_refl _)
      · intro T p hp
        exact write_below _ _ _ _ hp
    · have : k = bs.length := by
        have := (List.getElem?_eq_some_iff.1 hk).1
        rw [List.length_append, List.length_singleton] at this
        omega
      subst this
      rw [hlen, Option.some.injEq] at hk
      subst hk
      refine ⟨s2, hb, ⟨A, B, wA, a1, a2, a3, a4, a5, a6⟩, ⟨[], by simp⟩, hreach2.coord, hreach2.time, hreach2.bl, ⟨c, hheld⟩, ?_⟩
      intro T j hj
      rw [e7, List.foldl_append, flagPos_append _ _ _ (Nat.le_refl _), ← hs.off]
      exact write_at _ _ _ j hj

theorem soon_blocks {o q junk mode} (hl : FpLaws o) (hq : QuantOk q) (hmode : mode = .real ∨ mode = .int2)
    {bs : List Block} : ∀ {cold : Bool} {bs0 : List Block} {s s2 : VisW}, Soon o q mode cold bs0 s → (∀ b ∈ bs, BlockOk b) →
      (cold = true → ∀ b, bs.head? = some b → Fresh o b) → writeBlocks o q junk mode s bs = some s2 →
      ∃ cold', Soon o q mode cold' (bs0 ++ bs) s2 := by
  induction bs with
  | nil =>
    intro cold bs0 s s2 hs _ _ h
    simp only [writeBlocks, Option.some.injEq] at h
    subst h
    exact ⟨cold, by simpa using hs⟩
  | cons b bs ih =>
    intro cold bs0 s s2 hs hb hfr h
    simp only [writeBlocks] at h
    cases h1 : writeBlock o q junk mode s b with
    | none => rw [h1] at h; simp at h
    | some s1 =>
      rw [h1] at h
      have := ih (soon_block hl hq hmode hs (hb b List.mem_cons_self) (fun hc => hfr hc b rfl) h1)
        (fun b' hb' => hb b' (List.mem_cons_of_mem _ hb')) (by simp) h
      simpa using this

theorem assignAll_some {s s2 : VisW} {ps : List User} (h : assignAll s ps = some s2) :
    s2.evs = s.evs ++ ps.map User.ev ∧ s2.flagOps = s.flagOps ∧ s2.flagOff = s.flagOff ∧ s2.cache = s.cache ∧
      wrun s.w (ps.map User.ev) = some s2.w := by
  unfold assignAll at h
  cases hx : wrun s.w (ps.map User.ev) with
  | none => rw [hx] at h; simp at h
  | some w1 =>
    rw [hx] at h
    simp only [Option.map_some, Option.some.injEq] at h
    subst h
    exact ⟨rfl, rfl, rfl, rfl, rfl⟩

/-- the end: some more assignments -/
theorem soon_dataset {o q mode cold} (hq : QuantOk q) (hmode : mode = .real ∨ mode = .int2) {bs : List Block}
    {s s2 : VisW} (hs : Soon o q mode cold bs s) {tail : List User} (ht : ∀ p ∈ tail, EvOk p.ev)
    (h : assignAll s tail = some s2) (hv : (table s2.w).length ≤ 128) : DataSet o q mode bs s2 := by
  obtain ⟨t1, t2, _, _, t3⟩ := assignAll_some h
  refine ⟨hq, hmode, ?_, ?_, ?_, hv, by rw [t2]; exact hs.ops, ?_⟩
  · rw [t1, wrun_append, hs.reach.run]
    exact t3
  · intro e he
    rw [t1] at he
    rcases List.mem_append.1 he with he | he
    · exact hs.reach.ok e he
    · obtain ⟨p, hp, rfl⟩ := List.mem_map.1 he
      exact ht p hp
  · rw [t1, records_append, hs.reach.recs, records_none (tail.map User.ev)]
    · rfl
    · intro e he
      obtain ⟨p, _, rfl⟩ := List.mem_map.1 he
      simp [User.ev]
  · intro k b hb
    obtain ⟨s3, h3⟩ := hs.each k b hb
    exact ⟨s3, h3.extend t1 (ops := []) (by rw [t2, List.append_nil]) (Nat.le_refl _) (fun _ _ _ => rfl)⟩

theorem Written.dataset {o q junk mode} {bs : List Block} {s : VisW} (hw : Written o q junk mode bs s) :
    DataSet o q mode bs s := by
  obtain ⟨s0, s1, tail, h0, h1, h2, h3⟩ := hw.ran
  obtain ⟨c, hs⟩ := soon_blocks hw.laws hw.quant hw.corr (soon_open h0) hw.blocks (fun _ => hw.fresh) h1
  exact soon_dataset hw.quant hw.corr (by simpa using hs) h3 h2 hw.vars

theorem reads_k {o q junk mode} {bs : List Block} {s : VisW} (hw : Written o q junk mode bs s) {f : Nat → Byte}
    {size nsize : Nat} (hf : Holds f size s.w.out) (hn : ∀ b ∈ bs, b.vis.flags.length ≤ nsize) {r0 : Reader}
    (hr0 : AtStart s r0) {m : Mask} (hm : FlagFile s m) (k : Nat) (hk : k ≤ bs.length) :
    ∃ R outs, uvreadN f size nsize k ⟨r0, 0, m⟩ = some (R, outs) ∧ readN f size k r0 = some R.r ∧
      R.flagOff = flagPos bs k ∧ FlagFile s R.m ∧ outs.length = k ∧
      ∀ (i : Nat) (out : Out) (b : Block), outs[i]? = some out → bs[i]? = some b → Matches o q mode out b.vis :=
  dataset_reads hw.dataset hf hn hr0 hm k hk

/-- **C48**: a data set gives back the visibilities that were written, in order: preamble, as many data as were written
and the flags.  Then it reports its end. -/
theorem c48_records {o q junk mode} {bs : List Block} {s : VisW} (hw : Written o q junk mode bs s) {f : Nat → Byte}
    {size nsize : Nat} (hf : Holds f size s.w.out) (hn : ∀ b ∈ bs, b.vis.flags.length ≤ nsize) {r0 : Reader}
    (hr0 : AtStart s r0) {m : Mask} (hm : FlagFile s m) :
    ∃ R outs, uvreadN f size nsize bs.length ⟨r0, 0, m⟩ = some (R, outs) ∧ outs.length = bs.length ∧
      (∀ (i : Nat) (out : Out) (b : Block), outs[i]? = some out → bs[i]? = some b → Matches o q mode out b.vis) ∧
      ∃ R', uvread f size nsize R = .eof R' :=
  dataset_all hw.dataset hf hn hr0 hm

/-- **C48**: and the same again after a rewind, wherever the reader was. -/
theorem c48_rewind {o q junk mode} {bs : List Block} {s : VisW} (hw : Written o q junk mode bs s) {f : Nat → Byte}
    {size nsize : Nat} (hf : Holds f size s.w.out) (hn : ∀ b ∈ bs, b.vis.flags.length ≤ nsize) {r0 : Reader}
    (hr0 : AtStart s r0) {m : Mask} (hm : FlagFile s m) (k : Nat) (hk : k ≤ bs.length) :
    ∃ R outs R' outs', uvreadN f size nsize k ⟨r0, 0, m⟩ = some (R, outs) ∧
      uvreadN f size nsize bs.length (rewindVis R) = some (R', outs') ∧ outs'.length = bs.length ∧
      (∀ (i : Nat) (out : Out) (b : Block), outs'[i]? = some out → bs[i]? = some b → Matches o q mode out b.vis) := by
  obtain ⟨R, outs, i1, i2, _, i6, _, _⟩ := reads_k hw hf hn hr0 hm k hk
  obtain ⟨R', outs', j1, _, _, _, j7, j8⟩ := reads_k hw hf hn (dataset_rewind hw.dataset hf hr0 hk i2) i6 bs.length
    (Nat.le_refl _)
  exact ⟨R, outs, R', outs', i1, j1, j7, j8⟩

/-! ## Examples -/

/-- numbers that are equal when their bits are -/
def demoOps : FpOps := ⟨fun a b => a == b, fun a b => a == b, fun a => a + 1000, fun a => a + 1000⟩

def demoQuant : Quant := ⟨fun _ => 7, fun d => d.map fun _ => 0⟩

theorem demo_laws : FpLaws demoOps := by
  refine ⟨?_, ?_, ?_, ?_⟩ <;> simp only [demoOps, beq_iff_eq] <;> intros <;> omega

def demoBlocks : List Block :=
  [⟨[⟨['s', 'r', 'c'], .byte, [65, 66]⟩], ⟨1, 2, 3, 4, 5, List.replicate 16 9, [true, false]⟩⟩,
   ⟨[⟨nmTime, .dble, be64 77⟩, ⟨nmTime, .dble, be64 6⟩], ⟨1, 2, 3, 6, 5, List.replicate 8 1, [true]⟩⟩,
   ⟨[], ⟨1, 2, 8, 6, 4, List.replicate 8 2, [false]⟩⟩]

/-- write some blocks -/
def writeAll (mode : Ty) (bs : List Block) : Option VisW :=
  (openVis mode).bind fun s => writeBlocks demoOps demoQuant (fun _ => 0) mode s bs

/-- and read `n` records -/
def readAll (s : VisW) (n : Nat) : Option (List Out) :=
  match run (mkopen (fun _ => 0) (fun _ => 0) 1) (s.flagOps ++ [.reopen (fun _ => 0)]) with
  | .error _ => none
  | .ok m => (uvreadN (content s.w.out) s.w.offset 10 n ⟨openReader (table s.w) s.w.offset, 0, m⟩).map (·.2)

theorem zeros_fit (n : Nat) : Fits16 (List.replicate (4 * n) 0) := by
  induction n with
  | zero => exact trivial
  | succ n ih =>
    rw [show 4 * (n + 1) = 4 * n + 1 + 1 + 1 + 1 by omega]
    exact ⟨by decide, by decide, ih⟩

theorem demo_quant : QuantOk demoQuant := by
  refine ⟨fun d _ => by simp [demoQuant], fun d hd => ?_, fun d => by simp [demoQuant]⟩
  have : demoQuant.ints d = List.replicate (4 * (d.length / 4)) 0 := by
    rw [show 4 * (d.length / 4) = d.length by omega]
    simp [demoQuant, List.map_const']
  rw [this]
  exact zeros_fit _

/-- the blocks meet the hypotheses, in both modes -/
theorem demo_written' (mode : Ty) (hm : mode = .real ∨ mode = .int2) : ∃ s, writeAll mode demoBlocks = some s ∧
    Written demoOps demoQuant (fun _ => 0) mode demoBlocks s ∧ Holds (content s.w.out) s.w.offset s.w.out ∧
    (∃ m, FlagFile s m) ∧ AtStart s (openReader (table s.w) s.w.offset) := by
  have hex : ∃ s0 s, openVis mode = some s0 ∧ writeBlocks demoOps demoQuant (fun _ => 0) mode s0 demoBlocks = some s ∧
      (table s.w).length ≤ 128 ∧ Holds (content s.w.out) s.w.offset s.w.out ∧
      s.flagOps = [.write 0 [true, false], .write 2 [true], .write 3 [false]] := by
    rcases hm with rfl | rfl
    · exact ⟨_, _, rfl, rfl, by decide +kernel, by unfold Holds; decide +kernel, rfl⟩
    · exact ⟨_, _, rfl, rfl, by decide +kernel, by unfold Holds; decide +kernel, rfl⟩
  obtain ⟨s0, s, h0, h1, h2, h3, h4⟩ := hex
  have hassign : assignAll s [] = some s := by
    cases s
    simp [assignAll, wrun]
  have hall : writeAll mode demoBlocks = some s := by
    unfold writeAll
    rw [h0]
    exact h1
  refine ⟨s, hall, ⟨demo_laws, demo_quant, hm, ⟨s0, s, [], h0, h1, hassign, by simp⟩, ?_, ?_, h2⟩, h3, ?_, open_atStart s⟩
  · intro b hb
    simp only [demoBlocks, List.mem_cons, List.not_mem_nil, or_false] at hb
    rcases hb with rfl | rfl | rfl
    · refine ⟨⟨by decide, by decide, by decide, by decide, by decide, by decide, by decide, by decide⟩, ?_, ?_⟩
      · intro p hp
        rw [List.mem_singleton.1 hp]
        exact ⟨by decide, by decide, by simp⟩
      · refine ⟨fun p hp _ => ?_, fun d hd => by simp [lastGiven, nmCoord] at hd, fun d hd => by simp [lastGiven, nmTime] at hd,
          fun d hd => by simp [lastGiven, nmBl] at hd⟩
        rw [List.mem_singleton.1 hp]
        exact ⟨by decide, by decide, by decide⟩
    · refine ⟨⟨by decide, by decide, by decide, by decide, by decide, by decide, by decide, by decide⟩, ?_, ?_⟩
      · intro p hp
        simp only [List.mem_cons, List.not_mem_nil, or_false] at hp
        rcases hp with rfl | rfl <;> exact ⟨by decide, by decide, by simp⟩
      · refine ⟨fun p hp _ => ?_, fun d hd => by simp [lastGiven, nmCoord, nmTime] at hd, fun d hd => ?_,
          fun d hd => by simp [lastGiven, nmBl, nmTime] at hd⟩
        · simp only [List.mem_cons, List.not_mem_nil, or_false] at hp
          rcases hp with rfl | rfl <;> exact ⟨by decide, fun _ => rfl, by decide⟩
        · simp only [lastGiven, be64_ne, ne_eq, not_false_eq_true, and_self, if_true, Option.some.injEq] at hd
          exact hd.symm
    · exact ⟨⟨by decide, by decide, by decide, by decide, by decide, by decide, by decide, by decide⟩, by simp,
        ⟨fun p hp => by simp at hp, fun d hd => by simp [lastGiven] at hd, fun d hd => by simp [lastGiven] at hd,
          fun d hd => by simp [lastGiven] at hd⟩⟩
  · intro b hb
    simp only [demoBlocks, List.head?_cons, Option.some.injEq] at hb
    subst hb
    exact ⟨fun _ => by decide, fun _ => by decide, fun _ => by decide⟩
  · have hr : ∃ m, run (mkopen (fun _ => 0) (fun _ => 0) 1) (s.flagOps ++ []) = .ok m := by
      rw [h4]
      exact ⟨_, rfl⟩
    obtain ⟨m, hr⟩ := hr
    exact ⟨m, fun _ => 0, fun _ => 0, 1, [], by simp, hr⟩

theorem demo_written (mode : Ty) (hm : mode = .real ∨ mode = .int2) : ∃ s,
    Written demoOps demoQuant (fun _ => 0) mode demoBlocks s ∧ Holds (content s.w.out) s.w.offset s.w.out ∧
    (∃ m, FlagFile s m) ∧ AtStart s (openReader (table s.w) s.w.offset) := by
  obtain ⟨s, _, h⟩ := demo_written' mode hm
  exact ⟨s, h⟩

/-- so that the theorems apply to them -/
example : ∃ (s : VisW) (R : VisR) (outs : List Out) (m : Mask), uvreadN (content s.w.out) s.w.offset 2 3 ⟨openReader (table s.w) s.w.offset, 0, m⟩ =
    some (R, outs) ∧ outs.length = 3 ∧ ∀ (i : Nat) (out : Out) (b : Block), outs[i]? = some out →
      demoBlocks[i]? = some b → Matches demoOps demoQuant .int2 out b.vis := by
  obtain ⟨s, h1, h2, ⟨m, h3⟩, h4⟩ := demo_written .int2 (Or.inr rfl)
  obtain ⟨R, outs, i1, i2, i3, _⟩ := c48_records h1 h2 (nsize := 2) (by decide) h4 h3
  exact ⟨s, R, outs, m, i1, i2, i3⟩

/-- three records of different lengths; the second sets its time itself, twice, as `pipe` does when it leaves out a record -/
example : (writeAll .real demoBlocks).bind (fun s => readAll s 3) = some
    [⟨1, 2, some 3, 4, 5, .plain (List.replicate 16 9), [true, false]⟩,
     ⟨1, 2, some 3, 6, 5, .plain (List.replicate 8 1), [true]⟩,
     ⟨1, 2, some 8, 6, 4, .plain (List.replicate 8 2), [false]⟩] := by decide +kernel

/-! ## Disagreements -/

/-- **C48, disagreement**: a first visibility whose time is `w + 1000` gets no time: the number that stands for "not
written yet" is computed from `preamble[2]`, which is `w`.  The record cannot be read. -/
theorem c48_first_time_lost : ∃ s, writeAll .real [⟨[], ⟨1, 2, 3, 1003, 5, List.replicate 8 9, [true]⟩⟩] = some s ∧
    valueAfter s.evs nmTime = none ∧ readAll s 1 = none := by
  refine ⟨_, rfl, ?_, ?_⟩ <;> decide +kernel

/-- **C48, disagreement**: `uvwrite_c` does not see assignments to `time`.  Two visibilities with the same time, and an
assignment of another time between them: the second is read with the time that was assigned, and not with its own. -/
theorem c48_preamble_lost : (writeAll .real
      [⟨[], ⟨1, 2, 3, 4, 5, List.replicate 8 9, [true]⟩⟩,
       ⟨[⟨nmTime, .dble, be64 77⟩], ⟨1, 2, 3, 4, 5, List.replicate 8 9, [true]⟩⟩]).bind (fun s => readAll s 2) = some
    [⟨1, 2, some 3, 4, 5, .plain (List.replicate 8 9), [true]⟩,
     ⟨1, 2, some 3, 77, 5, .plain (List.replicate 8 9), [true]⟩] := by decide +kernel

end Verif.Mir.Uv
