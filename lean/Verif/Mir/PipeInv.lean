import Verif.Mir.PipeProps

/-!
# Copying a data set: the variables of the copy follow those of the source (property C51)
-/
namespace Verif.Mir.Uv

open Verif.Mir.Hio (Byte)
open Verif.Mir.Mask (Mask)

/-! ## Bytes and numbers -/

theorem be32_ofBe32 (a b c d : Byte) : be32 (ofBe32 [a, b, c, d]) = [a, b, c, d] := by
  have ha := a.toNat_lt
  have hb := b.toNat_lt
  have hc := c.toNat_lt
  have hd := d.toNat_lt
  unfold be32 ofBe32
  simp only
  have key : ∀ (x : Byte) (n : Nat), n % 256 = x.toNat → UInt8.ofNat n = x := by
    intro x n h
    apply UInt8.toNat_inj.1
    rw [UInt8.toNat_ofNat']
    exact h
  rw [key a _ (by omega), key b _ (by omega), key c _ (by omega), key d _ (by omega)]

theorem ofBe32_lt (a b c d : Byte) : ofBe32 [a, b, c, d] < 2 ^ 32 := by
  have ha := a.toNat_lt
  have hb := b.toNat_lt
  have hc := c.toNat_lt
  have hd := d.toNat_lt
  unfold ofBe32
  simp only
  omega

theorem bytes4 (l : List Byte) (h : l.length = 4) : ∃ x, x < 2 ^ 32 ∧ l = be32 x := by
  match l, h with
  | [a, b, c, d], _ => exact ⟨ofBe32 [a, b, c, d], ofBe32_lt a b c d, (be32_ofBe32 a b c d).symm⟩

theorem bytes8 (l : List Byte) (h : l.length = 8) : ∃ x, x < 2 ^ 64 ∧ l = be64 x := by
  obtain ⟨x, hx, ex⟩ := bytes4 (l.take 4) (by simp [h])
  obtain ⟨y, hy, ey⟩ := bytes4 (l.drop 4) (by simp [h])
  refine ⟨x * 2 ^ 32 + y, by omega, ?_⟩
  unfold be64
  rw [show (x * 2 ^ 32 + y) / 2 ^ 32 = x by omega, show (x * 2 ^ 32 + y) % 2 ^ 32 = y by omega, ← ex, ← ey,
    List.take_append_drop]

theorem bytes24 (l : List Byte) (h : l.length = 24) : ∃ x y z, x < 2 ^ 64 ∧ y < 2 ^ 64 ∧ z < 2 ^ 64 ∧
    l = be64 x ++ be64 y ++ be64 z := by
  obtain ⟨x, hx, ex⟩ := bytes8 (l.take 8) (by simp [h])
  obtain ⟨y, hy, ey⟩ := bytes8 ((l.drop 8).take 8) (by simp [h])
  obtain ⟨z, hz, ez⟩ := bytes8 ((l.drop 8).drop 8) (by simp [h])
  refine ⟨x, y, z, hx, hy, hz, ?_⟩
  rw [← ex, ← ey, ← ez, List.append_assoc, List.take_append_drop, List.take_append_drop]

/-! ## What `uvcopyvr_c` copies -/

theorem rlocvar_mem {vars : List RVar} (h : (vars.map (·.name)).Nodup) {v : RVar} (hv : v ∈ vars) :
    rlocvar vars v.name = some v := by
  induction vars with
  | nil => simp at hv
  | cons a l ih =>
    rw [List.map_cons, List.nodup_cons] at h
    unfold rlocvar
    rw [List.find?_cons]
    rcases List.mem_cons.1 hv with rfl | hv
    · simp
    · have : a.name ≠ v.name := fun hc => h.1 (by rw [hc]; exact List.mem_map_of_mem hv)
      simp only [this, decide_false]
      exact ih h.2 hv

theorem getvr_mem {r : Reader} (h : (r.vars.map (·.name)).Nodup) {v : RVar} (hv : v ∈ r.vars) :
    getvr r v.name v.ty = v.buf.map (fun b => b.take (v.ty.mem * v.length / v.ty.ext)) := by
  unfold getvr
  rw [rlocvar_mem h hv]
  simp

theorem getvr_mem_of {r : Reader} {nm : Name} {ty : Ty} {d : List Byte} (h : getvr r nm ty = some d) :
    ∃ v ∈ r.vars, v.name = nm ∧ v.ty = ty := by
  unfold getvr at h
  cases hl : rlocvar r.vars nm with
  | none => rw [hl] at h; simp at h
  | some v =>
    rw [hl] at h
    simp only at h
    have hp := List.find?_some hl
    simp only [decide_eq_true_eq] at hp
    refine ⟨v, List.mem_of_find?_eq_some hl, hp, ?_⟩
    by_cases hc : ty ≠ v.ty
    · rw [if_pos hc] at h; simp at h
    · exact (Classical.not_not.1 hc).symm

theorem good_get {r : Reader} (h : (r.vars.map (·.name)).Nodup) {v : RVar} (hv : v ∈ r.vars) (hg : GoodVar v)
    {b : List Byte} (hb : v.buf = some b) : getvr r v.name v.ty = some b ∧ b ≠ [] ∧ b.length % v.ty.mem = 0 ∧
      (b.take (v.ty.mem * v.length / v.ty.ext)) = b ∧ ((v.ty = .int2 → v.length < 2 ^ 30) → b.length < 2 ^ 31) := by
  obtain ⟨h0, h1, _⟩ := hg.buf b hb
  have hw := hg.whole
  have e : v.ty.mem * v.length / v.ty.ext = b.length := by
    rw [h1, Nat.mul_comm]
    exact size_mem v.ty v.length hw
  have ht : b.take (v.ty.mem * v.length / v.ty.ext) = b := by rw [e, List.take_length]
  refine ⟨by rw [getvr_mem h hv, hb]; simp [ht], ?_, ?_, ht, ?_⟩
  · rintro rfl
    simp only [List.length_nil] at h1
    revert h1 hw
    cases v.ty <;> simp only [Ty.ext, Ty.mem] <;> omega
  · rw [h1, Nat.mul_mod_left]
  · intro hs
    rw [h1]
    have hsm := hg.small
    revert hs
    cases v.ty <;> simp only [Ty.ext, Ty.mem] <;> intro hs <;> first | (have := hs trivial; omega) | omega

theorem lastGiven_none {ps : List User} {nm : Name} (h : ∀ p ∈ ps, p.name ≠ nm) : lastGiven ps nm = none := by
  cases hl : lastGiven ps nm with
  | none => rfl
  | some d =>
    obtain ⟨p, hp, hn, _⟩ := (lastGiven_sets nm ps).2 ⟨d, hl⟩
    exact absurd hn (h p hp)

theorem lastGiven_map {l : List RVar} (h : (l.map (·.name)).Nodup) (g : RVar → User) (hg : ∀ v, (g v).name = v.name)
    {v : RVar} (hv : v ∈ l) : lastGiven (l.map g) v.name = if (g v).data ≠ [] then some (g v).data else none := by
  induction l with
  | nil => simp at hv
  | cons a l ih =>
    rw [List.map_cons, List.nodup_cons] at h
    have e : lastGiven (g a :: l.map g) v.name = match lastGiven (l.map g) v.name with
      | some d => some d
      | none => if (g a).name = v.name ∧ (g a).data ≠ [] then some (g a).data else none := rfl
    rw [List.map_cons, e]
    rcases List.mem_cons.1 hv with rfl | hv
    · rw [lastGiven_none (by
        intro p hp hc
        obtain ⟨u, hu, rfl⟩ := List.mem_map.1 hp
        rw [hg] at hc
        exact h.1 (by rw [← hc]; exact List.mem_map_of_mem hu))]
      simp only [hg, true_and]
    · rw [ih h.2 hv]
      have : a.name ≠ v.name := fun hc => h.1 (by rw [hc]; exact List.mem_map_of_mem hv)
      simp only [hg, this, false_and, if_false]
      split
      · rename_i heq; exact heq.symm
      · rename_i heq; exact heq.symm

theorem copyvr_name {r : Reader} {p : User} (hp : p ∈ copyvr r) : ∃ v ∈ r.vars, v.copy = true ∧ p.name = v.name ∧
    p.ty = v.ty ∧ p.data = (v.buf.getD []).take (v.ty.mem * v.length / v.ty.ext) ∧ r.mark ≤ v.callno ∧ r.copy = true := by
  unfold copyvr at hp
  split at hp
  · rename_i hc
    obtain ⟨v, hv, rfl⟩ := List.mem_map.1 hp
    rw [List.mem_filter] at hv
    obtain ⟨h1, h2⟩ := hv
    simp only [Bool.and_eq_true, decide_eq_true_eq] at h2
    exact ⟨v, h1, h2.2, rfl, rfl, rfl, h2.1, hc⟩
  · simp at hp

theorem copyvr_given {r : Reader} (h : (r.vars.map (·.name)).Nodup) {v : RVar} (hv : v ∈ r.vars) (hg : GoodVar v)
    {b : List Byte} (hb : v.buf = some b) : lastGiven (copyvr r) v.name =
      if r.copy = true ∧ r.mark ≤ v.callno ∧ v.copy = true then some b else none := by
  obtain ⟨_, h2, _, h4, _⟩ := good_get h hv hg hb
  by_cases hc : r.copy = true ∧ r.mark ≤ v.callno ∧ v.copy = true
  · rw [if_pos hc]
    unfold copyvr
    rw [if_pos hc.1]
    have hf : v ∈ r.vars.filter (fun v => decide (r.mark ≤ v.callno) && v.copy) := by
      rw [List.mem_filter]
      exact ⟨hv, by simp [hc.2.1, hc.2.2]⟩
    have hnd : ((r.vars.filter (fun v => decide (r.mark ≤ v.callno) && v.copy)).map (·.name)).Nodup :=
      h.sublist (List.Sublist.map _ List.filter_sublist)
    rw [lastGiven_map hnd (fun v => ⟨v.name, v.ty, (v.buf.getD []).take (v.ty.mem * v.length / v.ty.ext)⟩)
      (fun _ => rfl) hf]
    simp only [hb, Option.getD_some, h4, ne_eq, h2, not_false_eq_true, if_true]
  · rw [if_neg hc]
    apply lastGiven_none
    intro p hp hn
    obtain ⟨u, hu, hu1, hu2, _, _, hu3, hu4⟩ := copyvr_name hp
    have : u = v := by
      have e1 := rlocvar_mem h hu
      have e2 := rlocvar_mem h hv
      rw [← hu2, hn, e2, Option.some.injEq] at e1
      exact e1.symm
    subst this
    exact hc ⟨hu4, hu3, hu1⟩

/-! ## The state of the reader -/

/-- the reader while a file is copied: `ks` are the variables tracked, `T` the table of variables -/
structure St (ks : List Name) (T : List (Name × Ty)) (S : VisR) : Prop where
  good : AllGood S.r.vars
  names : (S.r.vars.map (·.name)).Nodup
  copy : ∀ v ∈ S.r.vars, v.copy = true ↔ v.name ∈ ks
  has : ∀ v ∈ S.r.vars, v.copy = true → v.buf ≠ none
  table : rtable S.r.vars = T

theorem keeps_rtable {c0 : Nat} {a b : List RVar} {p : Bool} (h : Keeps c0 a b p) : rtable b = rtable a := by
  apply List.ext_getElem?
  intro i
  unfold rtable
  rw [List.getElem?_map, List.getElem?_map]
  cases ha : a[i]? with
  | none =>
    have hb : b[i]? = none := by
      rw [List.getElem?_eq_none_iff] at ha ⊢
      rw [h.len]; exact ha
    rw [hb]
  | some v =>
    obtain ⟨v', h1, h2, h3, _⟩ := h.var i v ha
    rw [h1]
    simp [h2, h3]

theorem keeps_back {c0 : Nat} {a b : List RVar} {p : Bool} (h : Keeps c0 a b p) {v' : RVar} (hv : v' ∈ b) :
    ∃ v ∈ a, v'.name = v.name ∧ v'.ty = v.ty ∧ v'.copy = v.copy ∧ (v.buf ≠ none → v'.buf ≠ none) ∧
      (v' = v ∨ (c0 < v'.callno ∧ (v.copy = true → p = true))) := by
  obtain ⟨i, hi⟩ := List.getElem?_of_mem hv
  have hlt : i < a.length := by
    have := (List.getElem?_eq_some_iff.1 hi).1
    rw [h.len] at this; exact this
  obtain ⟨v1, h1, h2⟩ := h.var i a[i] (List.getElem?_eq_getElem hlt)
  rw [hi, Option.some.injEq] at h1
  subst h1
  exact ⟨a[i], List.getElem_mem hlt, h2⟩

theorem rtable_names (vs : List RVar) : (rtable vs).map (·.1) = vs.map (·.name) := by
  simp [rtable]

theorem st_step {ks : List Name} {T : List (Name × Ty)} {S S1 : VisR} {out : Out}
    (hs : St ks T S) (h : Step S S1 out) : St ks T S1 := by
  have hk := h.keeps
  have ht := keeps_rtable hk
  refine ⟨h.good hs.good, ?_, ?_, ?_, ht.trans hs.table⟩
  · rw [← rtable_names, ht, rtable_names]; exact hs.names
  · intro v' hv'
    obtain ⟨v, hv, h1, _, h3, _⟩ := keeps_back hk hv'
    rw [h1, h3]; exact hs.copy v hv
  · intro v' hv' hc
    obtain ⟨v, hv, h1, _, h3, h4, _⟩ := keeps_back hk hv'
    exact h4 (hs.has v hv (by rw [← h3]; exact hc))

/-- the value that a variable will have in the new file before the next visibility -/
def cur (s : VisW) (pend : List User) (nm : Name) : Option (List Byte) :=
  (pend.map User.ev).foldl (assign nm) (valueAfter s.evs nm)

/-- a variable whose value in the copy is that in the source: tracked, and not `tscale` of a file with scaled data -/
def Follows (mode : Ty) (v : RVar) : Prop := v.copy = true ∧ ¬ (v.name = nmTscale ∧ mode = .int2)

def Inv (mode : Ty) (S : VisR) (s : VisW) (pend : List User) : Prop :=
  ∀ v ∈ S.r.vars, Follows mode v → cur s pend v.name = getvr S.r v.name v.ty

theorem cur_append (s : VisW) (a b : List User) (nm : Name) :
    cur s (a ++ b) nm = (lastGiven b nm).orElse (fun _ => cur s a nm) := by
  unfold cur
  rw [List.map_append, List.foldl_append, lastGiven_fold]

theorem inv_step {ks : List Name} {T : List (Name × Ty)} {mode : Ty} {S S1 : VisR}
    {out : Out} {s : VisW} {pend : List User} (hs : St ks T S) (h : Step S S1 out)
    (hi : Inv mode S s pend ∨ ∀ v ∈ S1.r.vars, v.name ∈ ks → S1.r.mark ≤ v.callno ∧ S1.r.copy = true) :
    Inv mode S1 s (pend ++ copyvr S1.r) := by
  have hs1 := st_step hs h
  have hm := h.mark
  have hk := h.keeps
  intro v' hv' hf
  obtain ⟨b, hb⟩ := Option.ne_none_iff_exists'.1 (hs1.has v' hv' hf.1)
  have hg := hs1.good v' hv'
  have h1 := (good_get hs1.names hv' hg hb).1
  rw [cur_append, copyvr_given hs1.names hv' hg hb, h1]
  by_cases hc : S1.r.copy = true ∧ S1.r.mark ≤ v'.callno ∧ v'.copy = true
  · rw [if_pos hc]; rfl
  · rw [if_neg hc]
    rcases hi with hi | hi
    · obtain ⟨v, hv, g1, g2, g3, _, g5⟩ := keeps_back hk hv'
      rcases g5 with rfl | ⟨g5, g6⟩
      · have := hi v' hv hf
        rw [(good_get hs.names hv (hs.good v' hv) hb).1] at this
        exact this
      · exact absurd ⟨g6 (by rw [← g3]; exact hf.1), by omega, hf.1⟩ hc
    · obtain ⟨g1, g2⟩ := hi v' hv' ((hs1.copy v' hv').1 hf.1)
      exact absurd ⟨g2, g1, hf.1⟩ hc

/-! ## A record -/

/-- the preamble of a record in bytes -/
theorem pre_bytes {E : Env} {nsize : Nat} {S S1 : VisR} {out : Out} {mf : MFunc} (hp : Polite mf)
    (h : Step S S1 out) (hr : RecOk E nsize S1 out) {k : Nat} {p : PyRec}
    (hm : mf k (E.show nsize out) = some p) :
    getvr S1.r nmCoord .dble = some (coordBytes (E.vis p)) ∧ getvr S1.r nmTime .dble = some (be64 (E.vis p).time) ∧
    getvr S1.r nmBl .real = some (be32 (E.vis p).bl) ∧
    ((E.vis p).u = out.u ∧ (E.vis p).v = out.v ∧ out.w = some (E.vis p).w ∧ (E.vis p).time = out.time ∧
      (E.vis p).bl = out.bl) ∧
    (out.u < 2 ^ 64 ∧ out.v < 2 ^ 64 ∧ (E.vis p).w < 2 ^ 64 ∧ out.time < 2 ^ 64 ∧ out.bl < 2 ^ 32) := by
  obtain ⟨dc, c1, c2⟩ := hr.coord
  obtain ⟨dt, t1, t2⟩ := hr.time
  obtain ⟨db, b1, b2⟩ := hr.bl
  obtain ⟨x, y, z, hx, hy, hz, rfl⟩ := bytes24 dc c2
  obtain ⟨t, ht, rfl⟩ := bytes8 dt t2
  obtain ⟨b, hb, rfl⟩ := bytes4 db b2
  have hpre := h.pre
  unfold readPreamble at hpre
  rw [c1, t1, b1] at hpre
  simp only [pairs_three x y z hx hy hz, pairs_one t ht, words_one b hb, List.head?_cons, Option.some.injEq,
    Prod.mk.injEq] at hpre
  obtain ⟨e1, e2, e3, e4, e5⟩ := hpre
  obtain ⟨p1, p2, p3, p4, p5, p6⟩ := hp.pre k _ _ hm
  have hbl : (E.vis p).bl = out.bl := by
    show E.bl.bits (Codes.mkbl p.i p.j) = out.bl
    rw [p5, p6]
    exact hr.canon
  have hw : (E.vis p).w = z := by
    show p.w = z
    rw [p3]
    show out.w.getD 0 = z
    rw [← e3]
    rfl
  have hu : (E.vis p).u = out.u := p1
  have hv : (E.vis p).v = out.v := p2
  have htm : (E.vis p).time = out.time := p4
  refine ⟨?_, ?_, ?_, ⟨hu, hv, by rw [hw, ← e3], htm, hbl⟩, by rw [← e1]; exact hx, by rw [← e2]; exact hy,
    by rw [hw]; exact hz, by rw [← e4]; exact ht, by rw [← e5]; exact hb⟩
  · rw [c1]
    unfold coordBytes
    rw [hu, hv, hw, ← e1, ← e2]
  · rw [t1, htm, ← e4]
  · rw [b1, hbl, ← e5]

/-- the channels of a record -/
theorem show_full {E : Env} {nsize : Nat} {S1 : VisR} {out : Out} (hr : RecOk E nsize S1 out) :
    (E.show nsize out).data = E.value out.data ∧ (E.show nsize out).flags = out.flags := by
  have h1 := hr.data
  have h2 := hr.flags
  constructor
  · show _ ++ (List.range (8 * nsize - (E.value out.data).length)).map E.tailData = _
    rw [h1, Nat.sub_self]
    simp
  · show _ ++ (List.range (nsize - out.flags.length)).map E.tailFlags = _
    rw [h2, Nat.sub_self]
    simp

theorem rec_len {E : Env} {nsize : Nat} {S1 : VisR} {out : Out} {mf : MFunc} (hp : Polite mf) (hr : RecOk E nsize S1 out)
    {k : Nat} {p : PyRec} (hm : mf k (E.show nsize out) = some p) : (E.vis p).flags.length = nsize ∧
      (E.vis p).data.length = 8 * nsize := by
  obtain ⟨h1, h2⟩ := show_full hr
  constructor
  · show p.flags.length = nsize
    rw [hp.flags k _ _ hm, h2, hr.flags]
  · show p.data.length = 8 * nsize
    rw [hp.data k _ _ hm, h1, hr.data]

/-- the variables that `uvwrite_c` writes itself are tracked (with the exception of `tscale`) -/
def Core (S : VisR) : Prop := ∀ v ∈ S.r.vars, ∀ x ∈ std, x.1 ≠ nmTscale → v.name = x.1 → v.copy = true

/-- types of the standard variables -/
def StdTypes (T : List (Name × Ty)) : Prop := ∀ x ∈ T, ∀ ty, (x.1, ty) ∈ std → x.2 = ty

theorem std_ne {v : RVar} {x : Name × Ty} (h : x.1 ≠ nmTscale) (hv : v.name = x.1) (mode : Ty) (hc : v.copy = true) :
    Follows mode v := ⟨hc, fun ⟨h1, _⟩ => h (by rw [← hv, h1])⟩

theorem core_cur {mode : Ty} {S : VisR} {s : VisW} {users : List User} (hi : Inv mode S s users) (hc : Core S) {nm : Name}
    {ty : Ty} (hx : (nm, ty) ∈ std) (ht : nm ≠ nmTscale) {d : List Byte} (hd : getvr S.r nm ty = some d) :
    cur s users nm = some d := by
  obtain ⟨v, hv, rfl, rfl⟩ := getvr_mem_of hd
  rw [hi v hv (std_ne (x := (v.name, v.ty)) ht rfl mode (hc v hv _ hx ht rfl)), hd]

theorem copyvr_ok {ks T} {S : VisR} (hs : St ks T S) (hsm : ∀ v ∈ S.r.vars, v.copy = true → v.ty = .int2 → v.length < 2 ^ 30) :
    ∀ p ∈ copyvr S.r, EvOk p.ev ∧ p.name ∈ ks ∧ (p.name, p.ty) ∈ T := by
  intro p hp
  obtain ⟨v, hv, h1, h2, h3, h4, _⟩ := copyvr_name hp
  obtain ⟨b, hb⟩ := Option.ne_none_iff_exists'.1 (hs.has v hv h1)
  have hg := hs.good v hv
  obtain ⟨_, g2, g3, g4, g5⟩ := good_get hs.names hv hg hb
  rw [hb, Option.getD_some, g4] at h4
  refine ⟨?_, ?_, ?_⟩
  · show p.data.length % p.ty.mem = 0 ∧ p.data.length < 2 ^ 31 ∧ (p.ty = .int2 → Fits16 p.data)
    rw [h4, h3]
    exact ⟨g3, g5 (hsm v hv h1), (hg.buf b hb).2.2⟩
  · rw [h2]; exact (hs.copy v hv).1 h1
  · rw [← hs.table, h2, h3]
    exact List.mem_map.2 ⟨v, hv, rfl⟩

/-- an assignment that is in order: of a variable of the table, and not of the data -/
def InT (T : List (Name × Ty)) (p : User) : Prop := EvOk p.ev ∧ (p.name, p.ty) ∈ T ∧ p.name ≠ nmCorr

/-- the scheme knows the variables of the table -/
def Covers (σ : Scheme) (T : List (Name × Ty)) : Prop := ∀ x ∈ T, x.1 ≠ nmCorr → x.1 ∈ σ.names ∧ x.2 = σ.ty x.1

theorem InT.ev {σ : Scheme} {T : List (Name × Ty)} (h : Covers σ T) {p : User} (hp : InT T p) : EvIn σ p.ev :=
  h _ hp.2.1 hp.2.2

theorem block_ok' {E : Env} {nsize : Nat} {T : List (Name × Ty)} {S S1 : VisR}
    {out : Out} {mf : MFunc} {s : VisW} {users : List User} (hp : Polite mf) (hn : 0 < nsize ∧ nsize < 2 ^ 28)
    (h : Step S S1 out) (hr : RecOk E nsize S1 out) (hc : Core S1)
    (hT : StdTypes T) (hu : ∀ p ∈ users, InT T p) (hi : Inv E.mode S1 s users) {k : Nat} {p : PyRec}
    (hm : mf k (E.show nsize out) = some p) : BlockOk ⟨users, E.vis p⟩ := by
  obtain ⟨a1, a2, a3, ⟨e1, e2, e3, e4, e5⟩, l1, l2, l3, l4, l5⟩ := pre_bytes hp h hr hm
  obtain ⟨n1, n2⟩ := rec_len hp hr hm
  have last : ∀ (nm : Name) (ty : Ty) (d0 d : List Byte), (nm, ty) ∈ std → nm ≠ nmTscale → getvr S1.r nm ty = some d0 →
      lastGiven users nm = some d → d = d0 := by
    intro nm ty d0 d hx ht hg hl
    have := core_cur hi hc hx ht hg
    unfold cur at this
    rw [lastGiven_fold, hl] at this
    exact Option.some.inj this
  refine ⟨⟨by rw [e1]; exact l1, by rw [e2]; exact l2, l3, by rw [e4]; exact l4, by rw [e5]; exact l5,
    by rw [n1]; exact hn.1, by rw [n1, n2], by rw [n1]; omega⟩, fun p hp => (hu p hp).1, ⟨?_, ?_, ?_, ?_⟩⟩
  · intro q hq _
    have := hT _ (hu q hq).2.1
    exact ⟨fun hn => this .dble (by rw [hn]; simp [std]), fun hn => this .dble (by rw [hn]; simp [std]),
      fun hn => this .real (by rw [hn]; simp [std])⟩
  · intro d hd
    exact last nmCoord .dble _ d (by simp [std]) (by decide) a1 hd
  · intro d hd
    exact last nmTime .dble _ d (by simp [std]) (by decide) a2 hd
  · intro d hd
    exact last nmBl .real _ d (by simp [std]) (by decide) a3 hd

theorem inv_write {E : Env} {nsize : Nat} {S S1 : VisR}
    {out : Out} {mf : MFunc} {s s2 : VisW} {users : List User} (hp : Polite mf)
    (h : Step S S1 out) (hr : RecOk E nsize S1 out) (hcorr : ∀ v ∈ S1.r.vars, v.copy = true → v.name ≠ nmCorr)
    (hT : StdTypes (rtable S1.r.vars)) (hi : Inv E.mode S1 s users) {k : Nat} {p : PyRec}
    (hm : mf k (E.show nsize out) = some p)
    (hw : writeBlock E.o E.q E.junk E.mode s ⟨users, E.vis p⟩ = some s2) : Inv E.mode S1 s2 [] := by
  obtain ⟨a1, a2, a3, _⟩ := pre_bytes hp h hr hm
  obtain ⟨n1, n2⟩ := rec_len hp hr hm
  obtain ⟨s1, _, _, _, _, _, _, _, _, _, _, e8⟩ := writeBlock_some hw
  intro v hv hf
  have hcur := hi v hv hf
  have hval : cur s2 [] v.name = (callEvs E.o E.q E.junk E.mode s1 (E.vis p)).foldl (assign v.name) (cur s users v.name) := by
    unfold cur
    simp only [List.map_nil, List.foldl_nil]
    unfold valueAfter
    rw [e8, List.foldl_append, List.foldl_append]
  rw [hval, hcur]
  have hty : ∀ ty, (v.name, ty) ∈ std → v.ty = ty := fun ty hx =>
    hT (v.name, v.ty) (List.mem_map.2 ⟨v, hv, rfl⟩) ty hx
  unfold callEvs
  by_cases c1 : v.name = nmCoord
  · have := hty .dble (by rw [c1]; simp [std])
    rw [c1, this, a1, vis_coord]
    split <;> rfl
  by_cases c2 : v.name = nmTime
  · have := hty .dble (by rw [c2]; simp [std])
    rw [c2, this, a2, vis_time]
    split <;> rfl
  by_cases c3 : v.name = nmBl
  · have := hty .real (by rw [c3]; simp [std])
    rw [c3, this, a3, vis_bl]
    split <;> rfl
  by_cases c4 : v.name = nmNchan
  · have := hty .int (by rw [c4]; simp [std])
    rw [c4, this, hr.nchan, vis_nchan, n1]
    split <;> rfl
  exact vis_other _ _ _ _ _ _ _ _ _ c1 c2 c3 c4 (hcorr v hv hf.1) (fun ht hm => hf.2 ⟨ht, hm⟩)

/-- the values in the copy after each record -/
def ValuesAt (E : Env) (s : VisW) (bs : List Block) (K : List (VisR × PyRec)) : Prop :=
  ∀ (j : Nat) (sj : VisW) (Sj : VisR) (p : PyRec), writeBlocks E.o E.q E.junk E.mode s (bs.take (j + 1)) = some sj →
    K[j]? = some (Sj, p) → Inv E.mode Sj sj []

theorem pipe_inv {E : Env} {nsize : Nat} {ks : List Name} {T : List (Name × Ty)} {mf : MFunc}
    {σ : Scheme} (hk : KnowsStd σ E.mode) (hσ : Covers σ T)
    (hp : Polite mf) (hn : 0 < nsize ∧ nsize < 2 ^ 28) (hT : StdTypes T) (hcore : ∀ x ∈ T, ∀ y ∈ std, y.1 ≠ nmTscale →
      x.1 = y.1 → x.1 ∈ ks) (hcorr : nmCorr ∉ ks) {S : VisR} {l : List (VisR × Out)} (hr : Chain S l) :
    ∀ (k : Nat) (s : VisW) (pend : List User), Typed σ s.w → St ks T S → (∀ x ∈ l, RecOk E nsize x.1 x.2) →
      (∀ p ∈ pend, InT T p) →
      (Inv E.mode S s pend ∨ ∀ S1 out l', l = (S1, out) :: l' → ∀ v ∈ S1.r.vars, v.name ∈ ks →
        S1.r.mark ≤ v.callno ∧ S1.r.copy = true) →
      (∀ b ∈ (blocksOf E nsize mf k pend l).1, BlockOk b ∧ ∀ p ∈ b.users, InT T p) ∧
      (∀ p ∈ (blocksOf E nsize mf k pend l).2, InT T p) ∧
      (blocksOf E nsize mf k pend l).1.map (·.vis) = (kept E nsize mf k l).map (fun x => E.vis x.2) ∧
      (∀ x ∈ kept E nsize mf k l, St ks T x.1) ∧
      ValuesAt E s (blocksOf E nsize mf k pend l).1 (kept E nsize mf k l) ∧
      (∀ b, (blocksOf E nsize mf k pend l).1.head? = some b → ∀ nm, nm = nmCoord ∨ nm = nmTime ∨ nm = nmBl →
        valueAfter s.evs nm = none → Sets b.users nm) := by
  induction hr with
  | done =>
    intro k s pend _ _ _ hpend _
    refine ⟨by simp [blocksOf], by simpa [blocksOf] using hpend, by simp [blocksOf, kept], by simp [kept], ?_, by simp [blocksOf]⟩
    intro j sj Sj p _ hk
    simp [kept] at hk
  | @more S S1 out l h hr ih =>
    intro k s pend hty hs hrec hpend hi
    have hs1 := st_step hs h
    have hr1 := hrec (S1, out) List.mem_cons_self
    have hrl : ∀ x ∈ l, RecOk E nsize x.1 x.2 := fun x hx => hrec x (List.mem_cons_of_mem _ hx)
    have hi1 : Inv E.mode S1 s (pend ++ copyvr S1.r) := inv_step hs h (by
      rcases hi with hi | hi
      · exact Or.inl hi
      · exact Or.inr (hi S1 out l rfl))
    have hpend1 : ∀ p ∈ pend ++ copyvr S1.r, InT T p := by
      intro p hp
      rcases List.mem_append.1 hp with hp | hp
      · exact hpend p hp
      · have := copyvr_ok hs1 hr1.small p hp
        exact ⟨this.1, this.2.2, fun hc => hcorr (by rw [← hc]; exact this.2.1)⟩
    cases hm : mf k (E.show nsize out) with
    | none =>
      have e1 : blocksOf E nsize mf k pend ((S1, out) :: l) = blocksOf E nsize mf (k + 1) (pend ++ copyvr S1.r) l := by
        rw [blocksOf, hm]
      have e2 : kept E nsize mf k ((S1, out) :: l) = kept E nsize mf (k + 1) l := by
        rw [kept, hm]
      rw [e1, e2]
      exact ih (k + 1) s _ hty hs1 hrl hpend1 (Or.inl hi1)
    | some p =>
      have e1 : blocksOf E nsize mf k pend ((S1, out) :: l) = (⟨pend ++ copyvr S1.r, E.vis p⟩ ::
          (blocksOf E nsize mf (k + 1) [] l).1, (blocksOf E nsize mf (k + 1) [] l).2) := by
        rw [blocksOf, hm]
      have e2 : kept E nsize mf k ((S1, out) :: l) = (S1, p) :: kept E nsize mf (k + 1) l := by
        rw [kept, hm]
      rw [e1, e2]
      have hmem : ∀ v ∈ S1.r.vars, (v.name, v.ty) ∈ T := fun v hv => by
        rw [← hs1.table]; exact List.mem_map.2 ⟨v, hv, rfl⟩
      have hc1 : Core S1 := by
        intro v hv x hx hxt hvx
        exact (hs1.copy v hv).2 (hcore _ (hmem v hv) x hx hxt hvx)
      have hb := block_ok' hp hn h hr1 hc1 hT hpend1 hi1 hm
      have hco : ∀ v ∈ S1.r.vars, v.copy = true → v.name ≠ nmCorr := by
        intro v hv hvc hn
        exact hcorr (by rw [← hn]; exact (hs1.copy v hv).1 hvc)
      have hT1 : StdTypes (rtable S1.r.vars) := by rw [hs1.table]; exact hT
      obtain ⟨s2, hw2, hty2⟩ := writeBlock_total (o := E.o) (q := E.q) (junk := E.junk) hk hty
        ⟨pend ++ copyvr S1.r, E.vis p⟩ (fun p hp => (hpend1 p hp).ev hσ)
      have hi2 := inv_write hp h hr1 hco hT1 hi1 hm hw2
      obtain ⟨r1, r2, r3, r4, r5, _⟩ := ih (k + 1) s2 [] hty2 hs1 hrl (by simp) (Or.inl hi2)
      refine ⟨?_, r2, by simp only [List.map_cons, r3], ?_, ?_, ?_⟩
      · intro b hb'
        rcases List.mem_cons.1 hb' with rfl | hb'
        · exact ⟨hb, hpend1⟩
        · exact r1 b hb'
      · intro x hx
        rcases List.mem_cons.1 hx with rfl | hx
        · exact hs1
        · exact r4 x hx
      · intro j sj Sj p' hsj hkj
        rw [List.take_succ_cons, writeBlocks, hw2, Option.bind_some] at hsj
        cases j with
        | zero =>
          simp only [List.take_zero, writeBlocks, Option.some.injEq] at hsj
          simp only [List.getElem?_cons_zero, Option.some.injEq, Prod.mk.injEq] at hkj
          obtain ⟨rfl, _⟩ := hkj
          subst hsj
          exact hi2
        | succ j =>
          rw [List.getElem?_cons_succ] at hkj
          exact r5 j sj Sj p' hsj hkj
      · intro b hb' nm hnm hv
        simp only [List.head?_cons, Option.some.injEq] at hb'
        subst hb'
        have hgiven : ∃ d, cur s (pend ++ copyvr S1.r) nm = some d := by
          rcases hnm with rfl | rfl | rfl
          · obtain ⟨d, hd, _⟩ := hr1.coord
            exact ⟨d, core_cur hi1 hc1 (by simp [std]) (by decide) hd⟩
          · obtain ⟨d, hd, _⟩ := hr1.time
            exact ⟨d, core_cur hi1 hc1 (by simp [std]) (by decide) hd⟩
          · obtain ⟨d, hd, _⟩ := hr1.bl
            exact ⟨d, core_cur hi1 hc1 (by simp [std]) (by decide) hd⟩
        obtain ⟨d, hd⟩ := hgiven
        unfold cur at hd
        rw [lastGiven_fold, hv] at hd
        apply (lastGiven_sets _ _).2
        cases hg : lastGiven (pend ++ copyvr S1.r) nm with
        | none => rw [hg] at hd; simp at hd
        | some d' => exact ⟨d', rfl⟩

end Verif.Mir.Uv
