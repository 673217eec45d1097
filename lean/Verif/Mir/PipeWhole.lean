import Verif.Mir.PipeMore

/-!
# Property C51 : opening, initialising and piping never raise for files with plain variables
-/
namespace Verif.Mir.Uv

open Verif.Mir.Hio (Byte)
open Verif.Mir.Mask (Mask)

/-! ## `init_from_uv` succeeds -/

/-- a value that `uv[k]` returns in a form that `_wrvr` takes: a string, numbers in floating point, or one integer; the
buffer of `UVObject_rdvr` holds it -/
def Plain (ty : Ty) (d : List Byte) : Prop :=
  d.length / ty.mem * ty.ext ≤ BUFSIZE ∧
    (ty = .byte ∨ ty = .real ∨ ty = .dble ∨ (ty = .int ∧ d.length = 4) ∨ (ty = .int2 ∧ d.length = 4))

theorem words_len : ∀ b : List Byte, 4 * (words b).length ≤ b.length
  | a :: b :: c :: d :: rest => by
    have := words_len rest
    simp only [words, List.length_cons]
    omega
  | [] => by simp [words]
  | [_] => by simp [words]
  | [_, _] => by simp [words]
  | [_, _, _] => by simp [words]

theorem pairs_len : ∀ l : List Nat, 2 * (pairsBig l).length ≤ l.length
  | a :: b :: rest => by
    have := pairs_len rest
    simp only [pairsBig, List.length_cons]
    omega
  | [] => by simp [pairsBig]
  | [_] => by simp [pairsBig]

theorem words_four (d : List Byte) (h : d.length = 4) : ∃ w, words d = [w] := by
  match d, h with
  | [a, b, c, e], _ => exact ⟨_, rfl⟩

/-- the bytes that the values read are written as -/
theorem again_ok (fo : FloatOps) (junk : Nat → Nat) (nm : Name) (t : Ty) (b : List Byte) (h : Plain t b) (hb : b.length < 2 ^ 20) :
    ∃ d, (decode fo junk (tyChar t) b).bind (encode fo (tyChar t)) = some (t, d) ∧ EvOk (.put nm t d) := by
  have hlen := words_len b
  have hpl := pairs_len (words b)
  have mod1 : ∀ n, n % 1 = 0 := fun n => by omega
  obtain ⟨_, h | h | h | ⟨h, h4⟩ | ⟨h, h4⟩⟩ := h
  · subst h
    refine ⟨b ++ [0], rfl, mod1 _, ?_, by simp⟩
    rw [List.length_append, List.length_singleton]
    omega
  · subst h
    have e : decode fo junk (tyChar .real) b = some (unwrap (fun w => .float (fo.widen w)) .floats (words b)) := rfl
    rw [e, Option.bind_some]
    have many : ∀ l : List Nat, 4 * l.length ≤ b.length → ∃ d, encode fo (tyChar .real) (.floats l) = some (.real, d) ∧
        EvOk (.put nm .real d) := by
      intro l hl
      have : (l.flatMap be32).length = 4 * l.length := by
        rw [flatMap_length _ _ 4 (fun x => be32_length x)]
      refine ⟨l.flatMap be32, rfl, ?_, ?_, by simp⟩
      · show (l.flatMap be32).length % 4 = 0
        rw [this]; omega
      · rw [this]; omega
    match hw : words b with
    | [] => exact many [] (by simp)
    | [w] => exact ⟨be32 (fo.round (fo.widen w)), rfl, by show (be32 _).length % 4 = 0; rw [be32_length],
        by rw [be32_length]; omega, by simp⟩
    | w :: x :: l => exact many (w :: x :: l) (by rw [← hw]; exact hlen)
  · subst h
    have e : decode fo junk (tyChar .dble) b = some (unwrap .float .doubles (pairsBig (words b))) := rfl
    rw [e, Option.bind_some]
    have many : ∀ l : List Nat, 8 * l.length ≤ b.length → ∃ d, encode fo (tyChar .dble) (.doubles l) = some (.dble, d) ∧
        EvOk (.put nm .dble d) := by
      intro l hl
      have : (l.flatMap be64).length = 8 * l.length := by
        rw [flatMap_length _ _ 8 (fun x => be64_length x)]
      refine ⟨l.flatMap be64, rfl, ?_, ?_, by simp⟩
      · show (l.flatMap be64).length % 8 = 0
        rw [this]; omega
      · rw [this]; omega
    match hw : pairsBig (words b) with
    | [] => exact many [] (by simp)
    | [w] => exact ⟨be64 w, rfl, by show (be64 _).length % 8 = 0; rw [be64_length],
        by rw [be64_length]; omega, by simp⟩
    | w :: x :: l => exact many (w :: x :: l) (by rw [← hw]; omega)
  · subst h
    obtain ⟨w, hw⟩ := words_four b h4
    have e : decode fo junk (tyChar .int) b = some (unwrap (fun w => .int (signed32 w))
      (fun l => .ints (l.map signed32)) (words b)) := rfl
    rw [e, Option.bind_some, hw]
    refine ⟨word (signed32 w), rfl, ?_, ?_, by simp⟩
    · show (be32 _).length % 4 = 0; rw [be32_length]
    · show (be32 _).length < _; rw [be32_length]; omega
  · subst h
    obtain ⟨w, hw⟩ := words_four b h4
    have e : decode fo junk (tyChar .int2) b = some (unwrap (fun w => .int (signed16 w)) (fun l => .ints (l.map signed16))
      (((words b).flatMap (fun w => [w % 2 ^ 16, w / 2 ^ 16])).take (words b).length)) := rfl
    rw [e, Option.bind_some, hw]
    refine ⟨shortWord (signed16 (w % 2 ^ 16)), rfl, ?_, ?_, fun _ => fits16_short _⟩
    · show (be32 _).length % 4 = 0; rw [be32_length]
    · show (be32 _).length < _; rw [be32_length]; omega

theorem init_total {E : Env} {r : Reader} {over : List (Name × PyVal)} {excl : List Name} {vs : List RVar}
    (hover : ∀ v ∈ vs, ∀ p, over.find? (fun p => p.1 = v.name) = some p → ∃ d, encode E.fo (tyChar v.ty) p.2 = some (v.ty, d) ∧
      EvOk (.put v.name v.ty d))
    (hread : ∀ v ∈ vs, v.name ≠ nmCorr → v.name ∉ excl → over.find? (fun p => p.1 = v.name) = none →
      ∃ d, (rdvr E.fo E.junk r v.name (tyChar v.ty)).bind (encode E.fo (tyChar v.ty)) = some (v.ty, d) ∧
        EvOk (.put v.name v.ty d)) :
    ∃ us ks, initFrom E r over excl vs = some (us, ks) ∧ ∀ u ∈ us, EvOk u.ev := by
  induction vs with
  | nil => exact ⟨[], [], rfl, by simp⟩
  | cons v vs ih =>
    obtain ⟨us, ks, h1, h2⟩ := ih (fun u hu => hover u (List.mem_cons_of_mem _ hu))
      (fun u hu => hread u (List.mem_cons_of_mem _ hu))
    rw [initFrom]
    by_cases hx : v.name ∈ excl ∨ v.name = nmCorr
    · rw [if_pos hx]
      exact ⟨us, ks, h1, h2⟩
    · rw [if_neg hx]
      cases ho : over.find? (fun p => p.1 = v.name) with
      | some p =>
        obtain ⟨d, e1, e2⟩ := hover v List.mem_cons_self p ho
        simp only [e1, h1]
        refine ⟨_, _, rfl, ?_⟩
        intro u hu
        rcases List.mem_cons.1 hu with rfl | hu
        · exact e2
        · exact h2 u hu
      | none =>
        obtain ⟨d, e1, e2⟩ := hread v List.mem_cons_self (fun hc => hx (Or.inr hc)) (fun hc => hx (Or.inl hc)) ho
        simp only [e1, h1]
        refine ⟨_, _, rfl, ?_⟩
        intro u hu
        rcases List.mem_cons.1 hu with rfl | hu
        · exact e2
        · exact h2 u hu

/-! ## `UV(filename)` succeeds -/

theorem table_type {W : VisW} (hn : ((table W.w).map (·.1)).Nodup) {nm : Name} {a b : Ty} (ha : (nm, a) ∈ table W.w)
    (hb : (nm, b) ∈ table W.w) : a = b := by
  obtain ⟨i, hi, ei⟩ := List.getElem_of_mem ha
  obtain ⟨j, hj, ej⟩ := List.getElem_of_mem hb
  have e1 : ((table W.w).map (·.1))[i]? = some nm := by rw [List.getElem?_map, List.getElem?_eq_getElem hi, ei]; rfl
  have e2 : ((table W.w).map (·.1))[j]? = some nm := by rw [List.getElem?_map, List.getElem?_eq_getElem hj, ej]; rfl
  have := (List.getElem?_inj (List.getElem?_eq_some_iff.1 e1).1 hn).1 (e1.trans e2.symm)
  subst this
  rw [ei] at ej
  exact (Prod.mk.inj ej).2

theorem archive_opens {E : Env} {o : FpOps} {q : Quant} {junk : Nat → Nat} {mode : Ty} {bs : List Block} {W : VisW}
    {n : Nat} (ha : Archive E o q junk mode bs W n) (hne : bs ≠ []) {f : Nat → Byte} {size : Nat} (hf : Holds f size W.w.out)
    {m : Mask} (hm : FlagFile W m) :
    ∃ S, openUv E f size (table W.w) W.w.offset m = some (S, n) ∧ rtable S.r.vars = table W.w ∧
      ∀ nm ty d, (nm, ty) ∈ table W.w → valueAfter (upTo 1 W.evs) nm = some d → getvr S.r nm ty = some d ∧
        d.length % ty.mem = 0 ∧ ∃ upd, probe S.r nm = some (ty, d.length / ty.mem, upd) := by
  have hw := ha.wr
  have hnm : ∀ b ∈ bs, b.vis.flags.length ≤ MAXCHAN := fun b hb => by rw [ha.chans b hb]; exact ha.size
  have hpos : 0 < bs.length := List.length_pos_iff.2 hne
  have hn0 : 0 < n := by
    rw [← ha.chans _ (List.getElem_mem hpos)]
    exact (hw.blocks _ (List.getElem_mem hpos)).vis.one
  obtain ⟨S1, outs, i1, i2, _⟩ := reads_k hw hf hnm (open_atStart W) hm 1 hpos
  obtain ⟨R0, outs0, out, k1, k2, _⟩ := uvreadN_last i1
  simp only [uvreadN, Option.some.injEq, Prod.mk.injEq] at k1
  rw [← k1.1] at k2
  obtain ⟨s0, sk, u1, u2, u3, u4, u5, u6, u7⟩ := written_upTo hw 0 hpos
  have hnch : valueAfter sk.evs nmNchan = some (be32 n) := by
    have hmem : ∀ b ∈ bs.take 1, b ∈ bs := fun b hb => List.mem_of_mem_take hb
    refine nchan_blocks hn0 (fun b hb => ha.chans b (hmem b hb)) (fun b hb => ha.nchan b (hmem b hb))
      (fun b hb => ha.corr b (hmem b hb)) (Or.inl (open_numchan u1)) u2 ?_
    intro hc
    have := congrArg List.length hc
    rw [List.length_take, List.length_nil] at this
    omega
  have htab1 : rtable S1.r.vars = table W.w := by
    obtain ⟨r1, _, _, a1, _, _, _, _, _, _, _, a9, _⟩ := readN_all u6 u7 hw.vars hf (open_atStart W).vars rfl rfl u4
    rw [i2, Option.some.injEq] at a1
    rw [a1]; exact a9
  have values : ∀ nm ty d, (nm, ty) ∈ table W.w → valueAfter (upTo 1 W.evs) nm = some d →
      getvr (rewind S1.r) nm ty = some d ∧ d.length % ty.mem = 0 ∧
        ∃ upd, probe (rewind S1.r) nm = some (ty, d.length / ty.mem, upd) := by
    intro nm ty d ht hv
    rw [u3] at hv
    obtain ⟨ty', t1, t2, t3, t4, upd, t5⟩ := written_get hw hf (open_atStart W) i2 u3 u4 u5 u6 u7 hv
    have := table_type (table_nodup u6 u7 hw.vars) t1 ht
    subst this
    refine ⟨by rw [rewind_getvr]; exact t4, t2, ?_⟩
    have t6 := rewind_probe S1.r nm
    rw [t5] at t6
    cases hp : probe (rewind S1.r) nm with
    | none => rw [hp] at t6; simp at t6
    | some p =>
      rw [hp] at t6
      simp only [Option.map_some, Option.some.injEq, Prod.mk.injEq] at t6
      obtain ⟨p1, p2, p3⟩ := p
      simp only at t6
      rw [t6.1, t6.2]
      exact ⟨p3, rfl⟩
  have hsize : nchanOf E (rewind S1.r) = some n := by
    obtain ⟨ty, hput, hd⟩ := valueAfter_mem _ _ _ hnch
    have ht := put_in_table u6 u7 (u5 _ hput) hd
    have hint : ty = .int := ha.types _ ht .int (by simp [std])
    subst hint
    obtain ⟨t2, _, upd, t3⟩ := values nmNchan .int (be32 n) ht (by rw [u3]; exact hnch)
    rw [be32_length] at t3
    unfold nchanOf
    cases hl : rlocvar (rewind S1.r).vars nmNchan with
    | none =>
      unfold getvr at t2
      rw [hl] at t2
      simp at t2
    | some v =>
      simp only
      rw [rdvr_int (by have := ha.size; simp only [MAXCHAN] at this; omega) t2 t3]
      simp
  refine ⟨rewindVis S1, ?_, by show rtable (rewind S1.r).vars = _; rw [rewind_rtable]; exact htab1, values⟩
  unfold openUv
  rw [k2]
  simp only [hsize, Option.map_some]

/-- the variables of a data set can be copied: each is set before the end of the first record, to something plain -/
def PlainVars (W : VisW) : Prop :=
  ∀ x ∈ table W.w, x.1 ≠ nmCorr → ∃ d, valueAfter (upTo 1 W.evs) x.1 = some d ∧ Plain x.2 d

/-- such a data set is opened, and `init_from_uv(uv)` does not raise -/
theorem init_archive {E : Env} {o : FpOps} {q : Quant} {junk : Nat → Nat} {mode : Ty} {bs : List Block} {W : VisW} {n : Nat}
    (ha : Archive E o q junk mode bs W n) (hne : bs ≠ []) (hv : PlainVars W) {f : Nat → Byte}
    {size : Nat} (hf : Holds f size W.w.out) {m : Mask} (hm : FlagFile W m) :
    ∃ S us ks, openUv E f size (table W.w) W.w.offset m = some (S, n) ∧ initFrom E S.r [] [] S.r.vars = some (us, ks) ∧
      ∀ u ∈ us, EvOk u.ev := by
  obtain ⟨S, h1, h2, h3⟩ := archive_opens ha hne hf hm
  obtain ⟨us, ks, g1, g2⟩ := init_total (E := E) (r := S.r) (over := []) (excl := []) (vs := S.r.vars)
    (by intro v _ p hp; simp at hp) (by
      intro v hv' hc _ _
      have ht : (v.name, v.ty) ∈ table W.w := by
        rw [← h2]; exact List.mem_map.2 ⟨v, hv', rfl⟩
      obtain ⟨d, d1, d2⟩ := hv _ ht hc
      obtain ⟨t1, t2, upd, t3⟩ := h3 _ _ d ht d1
      have hlen : d.length < 2 ^ 20 := by
        have hp := d2.1
        have hmod := t2
        unfold BUFSIZE at hp
        revert hp hmod
        show d.length / v.ty.mem * v.ty.ext ≤ _ → d.length % v.ty.mem = 0 → _
        cases v.ty <;> simp only [Ty.ext, Ty.mem] <;> omega
      have hr : rdvr E.fo E.junk S.r v.name (tyChar v.ty) = decode E.fo E.junk (tyChar v.ty) d := by
        unfold rdvr
        rw [tyOf_tyChar]
        simp only [t1, t3]
        rw [if_neg (by have := d2.1; simp only at this; omega), Option.bind_some]
      rw [hr]
      exact again_ok E.fo E.junk v.name v.ty d d2 hlen)
  exact ⟨S, us, ks, h1, g1, g2⟩

/-- **C51**: a data set that aipy has written is opened, and copied with `init_from_uv(uv)` and `pipe(uv)`; nothing raises.
The copy has the visibilities that were written, and with each the values that the variables had. -/
theorem c51_whole {E : Env} {o : FpOps} {q : Quant} {junk : Nat → Nat} {bs : List Block} {W : VisW} {n : Nat}
    (ha : Archive E o q junk .real bs W n) (hne : bs ≠ []) (hv : PlainVars W) (hmode : E.mode = .real) (hl : FpLaws E.o)
    (hq : QuantOk E.q) (hbl : BlLaws E.bl o) (hun : ∀ t ints, (E.unscale t ints).length = ints.length) {f : Nat → Byte}
    {size : Nat} (hf : Holds f size W.w.out) {m : Mask} (hm : FlagFile W m) :
    ∃ S W', openUv E f size (table W.w) W.w.offset m = some (S, n) ∧
      (∀ fuel, bs.length < fuel → pipeFrom E f size n echo [] [] S fuel = some W') ∧
      ∀ {f' : Nat → Byte} {size' : Nat} {r0 : Reader} {m' : Mask}, Holds f' size' W'.w.out → AtStart W' r0 → FlagFile W' m' →
        (∃ R outs R', uvreadN f' size' n bs.length ⟨r0, 0, m'⟩ = some (R, outs) ∧ uvread f' size' n R = .eof R') ∧
        ∀ (j : Nat) (b : Block), bs[j]? = some b → ∃ R outs out,
          uvreadN f' size' n (j + 1) ⟨r0, 0, m'⟩ = some (R, outs ++ [out]) ∧ outs.length = j ∧
          Matches o q .real out b.vis ∧
          ∀ nm ty d, (nm, ty) ∈ table W.w → nm ≠ nmCorr → valueAfter (upTo (j + 1) W.evs) nm = some d →
            getvr R.r nm ty = some d := by
  obtain ⟨S, us, ks, h1, g1, g2⟩ := init_archive (E := E) ha hne hv hf hm
  obtain ⟨W', w1, w2⟩ := c51_lossless ha hmode hl hq hbl hun hf hm h1 g1 g2 (by intro x _ _; simp)
  refine ⟨S, W', h1, w1, ?_⟩
  intro f' size' r0 m' hf' hr0 hm'
  obtain ⟨p1, p2⟩ := w2 hf' hr0 hm'
  refine ⟨p1, ?_⟩
  intro j b hb
  obtain ⟨R, outs, out, q1, q2, q3, q4⟩ := p2 j b hb
  exact ⟨R, outs, out, q1, q2, q3, fun nm ty d ht hc hvv => q4 nm ty d ht ⟨hc, by simp, by simp, fun _ => by decide⟩ hvv⟩

end Verif.Mir.Uv
