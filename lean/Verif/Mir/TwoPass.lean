import Verif.Mir.PipeStDir

/-!
# Scripts that read a file twice

`xrfi.py` reads all records, rewinds the file, and then pipes it.  `uvrewind_c` does not reset the values of the variables:
`init_from_uv` sees those of the end of the file.
-/
namespace Verif.Mir.Uv

open Verif.Mir.Hio (Byte Item Flat Op Tree Dataset)
open Verif.Mir.Mask (Mask)
open Verif.Mir.Head (rdhd Conv Val)

/-! ## The model -/

/-- a loop over `uvi.all(raw=True)`, miriad.py 226-232: what is gathered, and the file at its end -/
def gather {σ : Type} (E : Env) (g : Nat → Byte) (nsize : Nat) (step : σ → VisR → PyRec → Option σ) : Nat → σ → Item → VisR →
    Option (σ × Item × VisR)
  | 0, _, _, _ => none
  | fuel + 1, x, it, S =>
    match huvread g nsize it S with
    | (it', .eof S') => some (x, it', S')
    | (_, .bad) => none
    | (it', .ok S1 out) =>
      match step x S1 (E.show nsize out) with
      | none => none
      | some x1 => gather E g nsize step fuel x1 it' S1

/-- the open file after one record was read from it, and `rewind`; `none` is the IOError of `read` -/
def peek (g : Nat → Byte) (nsize : Nat) (it : Item) (S : VisR) : Option (Item × VisR) :=
  match huvread g nsize it S with
  | (it', .ok S1 _) => some (it', rewindVis S1)
  | _ => none

/-- a script that opens a file, reads one record, rewinds, reads all records, rewinds, and pipes the file into a new one,
xrfi.py 63-141 -/
def twoPassRun {σ τ : Type} (E : Env) (c : Conv) (g : Nat → Byte) (src : Tree) (m : Mask) (step : σ → VisR → PyRec → Option σ) (x0 : σ)
    (fin : σ → Option τ) (pr : Proc τ) (app : List Nat) (fuel : Nat) : Option (Tree × VisW) :=
  (hopenUv E g src m).bind fun a =>
    (peek g a.2.2 a.1 a.2.1).bind fun b =>
      (gather E g a.2.2 step fuel x0 b.1 b.2).bind fun d =>
        (fin d.1).bind fun y => restRunSt E c g src pr y [] [] [] app fuel d.2.1 (rewindVis d.2.2) a.2.2

/-! ## Lemmas: reading to the end -/

/-- the records `l` are read, then the file ends -/
inductive ReadsTo (f : Nat → Byte) (size nsize : Nat) : VisR → List (VisR × Out) → VisR → Prop
  | done {S S' : VisR} : uvread f size nsize S = .eof S' → ReadsTo f size nsize S [] S'
  | more {S S1 S' : VisR} {out : Out} {l : List (VisR × Out)} : uvread f size nsize S = .ok S1 out →
      ReadsTo f size nsize S1 l S' → ReadsTo f size nsize S ((S1, out) :: l) S'

theorem readsTo_of {f : Nat → Byte} {size nsize : Nat} {S : VisR} {l : List (VisR × Out)} (h : Reads f size nsize S l) :
    ∃ S', ReadsTo f size nsize S l S' := by
  induction h with
  | done h => exact ⟨_, .done h⟩
  | more h1 _ ih =>
    obtain ⟨S', h⟩ := ih
    exact ⟨S', .more h1 h⟩

theorem ReadsTo.back {f : Nat → Byte} {size nsize : Nat} {S S' : VisR} {l : List (VisR × Out)} (h : ReadsTo f size nsize S l S') :
    ∃ R outs, uvreadN f size nsize l.length S = some (R, outs) ∧ uvread f size nsize R = .eof S' ∧ outs = l.map (·.2) := by
  induction h with
  | done h => exact ⟨_, [], rfl, h, rfl⟩
  | @more S S1 S' out l h1 _ ih =>
    obtain ⟨R, outs, e1, e2, e3⟩ := ih
    refine ⟨R, out :: outs, ?_, e2, by rw [e3]; rfl⟩
    rw [List.length_cons, uvreadN, h1]
    simp only
    rw [e1]
    rfl

theorem Reads.from {f : Nat → Byte} {size nsize : Nat} {S : VisR} {l : List (VisR × Out)} (h : Reads f size nsize S l) :
    ∀ x ∈ l, ∃ S0, uvread f size nsize S0 = .ok x.1 x.2 := by
  induction h with
  | done _ => intro x hx; cases hx
  | more h1 _ ih =>
    intro x hx
    rcases List.mem_cons.1 hx with rfl | hx
    · exact ⟨_, h1⟩
    · exact ih x hx

/-- a loop over the records: what it gathers from the list -/
def gatherL {σ : Type} (E : Env) (nsize : Nat) (step : σ → VisR → PyRec → Option σ) : σ → List (VisR × Out) → Option σ
  | x, [] => some x
  | x, (S, out) :: l => (step x S (E.show nsize out)).bind fun x1 => gatherL E nsize step x1 l

theorem gather_eq {σ : Type} (E : Env) (g : Nat → Byte) {F : Flat} {f : Nat → Byte} {nsize : Nat} (step : σ → VisR → PyRec → Option σ)
    {S S' : VisR} {l : List (VisR × Out)} (h : ReadsTo f F.size nsize S l S') : ∀ (x : σ) (it : Item), Loaded it F f →
    Sound S.r → (gatherL E nsize step x l = none → ∀ fuel, gather E g nsize step fuel x it S = none) ∧
      ∀ y, gatherL E nsize step x l = some y → ∃ it', Loaded it' F f ∧ Sound S'.r ∧
        ∀ fuel, gather E g nsize step fuel x it S = if l.length < fuel then some (y, it', S') else none := by
  induction h with
  | @done S S' h =>
    intro x it hl hs
    obtain ⟨it', e, hl', hs'⟩ := huvread_eq g nsize hl hs
    rw [h] at e hs'
    refine ⟨fun h => (by cases h), fun y hy => ⟨it', hl', hs', fun fuel => ?_⟩⟩
    cases hy
    cases fuel with
    | zero => rfl
    | succ fuel => rw [gather, e, if_pos (by simp)]
  | @more S S1 S' out l h1 h2 ih =>
    intro x it hl hs
    obtain ⟨it', e, hl', hs'⟩ := huvread_eq g nsize hl hs
    rw [h1] at e hs'
    have hg : ∀ fuel, gather E g nsize step (fuel + 1) x it S =
        (step x S1 (E.show nsize out)).bind fun x1 => gather E g nsize step fuel x1 it' S1 := by
      intro fuel
      rw [gather, e]
      simp only
      cases step x S1 (E.show nsize out) <;> rfl
    rw [gatherL]
    cases hst : step x S1 (E.show nsize out) with
    | none =>
      refine ⟨fun _ fuel => ?_, fun y hy => (by cases hy)⟩
      cases fuel with
      | zero => rfl
      | succ fuel => rw [hg, hst]; rfl
    | some x1 =>
      rw [Option.bind_some]
      obtain ⟨i1, i2⟩ := ih x1 it' hl' hs'
      refine ⟨fun hn fuel => ?_, fun y hy => ?_⟩
      · cases fuel with
        | zero => rfl
        | succ fuel => rw [hg, hst]; exact i1 hn fuel
      · obtain ⟨it2, j1, j2, j3⟩ := i2 y hy
        refine ⟨it2, j1, j2, fun fuel => ?_⟩
        cases fuel with
        | zero => rfl
        | succ fuel =>
          rw [hg, hst, Option.bind_some, j3 fuel]
          simp only [List.length_cons, Nat.add_lt_add_iff_right]

/-! ## Lemmas: the end of the file -/

theorem scanLoop_eof (f : Nat → Byte) (size : Nat) (r : Reader) (c fuel : Nat) (l : Loop) (r' : Reader)
    (h : scanLoop f size r c fuel l = .eof r') : (AllGood l.vars → AllGood r'.vars) ∧
      ((∀ v ∈ l.vars, v.copy = false) → ∀ v ∈ r'.vars, v.copy = false) ∧ rtable r'.vars = rtable l.vars ∧ r'.maxOffset = r.maxOffset := by
  induction fuel generalizing l with
  | zero => simp [scanLoop] at h
  | succ fuel ih =>
    rw [scanLoop] at h
    have hrg := readRec_good (f := f) (size := size) (mo := r.maxOffset) (off := l.off) (vars := l.vars)
    have hset : ∀ (i : Nat) (v v' : RVar), l.vars[i]? = some v → v'.name = v.name → v'.ty = v.ty → v'.copy = v.copy →
        ((∀ v ∈ l.vars, v.copy = false) → ∀ u ∈ l.vars.set i v', u.copy = false) ∧ rtable (l.vars.set i v') = rtable l.vars := by
      intro i v v' hv e1 e2 e3
      refine ⟨fun hc u hu => ?_, ?_⟩
      · rcases List.mem_or_eq_of_mem_set hu with hu | rfl
        · exact hc u hu
        · rw [e3]; exact hc v (List.mem_of_getElem? hv)
      · unfold rtable
        rw [List.map_set, e1, e2]
        apply List.ext_getElem?
        intro j
        by_cases hj : i = j
        · subst hj
          rw [List.getElem?_set_self (by rw [List.length_map]; exact (List.getElem?_eq_some_iff.1 hv).1), List.getElem?_map, hv]
          rfl
        · rw [List.getElem?_set_ne hj]
    cases hrec : readRec f size r.maxOffset l.vars l.off with
    | eof =>
      rw [hrec] at h
      simp only [Scan.eof.injEq] at h
      subst h
      exact ⟨id, id, rfl, rfl⟩
    | bad => rw [hrec] at h; simp at h
    | eor => rw [hrec] at h; simp at h
    | size i len =>
      obtain ⟨v, hv, g1, g2, g3⟩ := hrg.1 i len hrec
      rw [hrec] at h
      simp only [applyRec, hv, Option.map_some] at h
      obtain ⟨a1, a2, a3, a4⟩ := ih _ h
      obtain ⟨b1, b2⟩ := hset i v (takeSize v c len) hv rfl rfl rfl
      exact ⟨fun hg => a1 (good_set hg i _ (good_size (hg v (List.mem_of_getElem? hv)) c len g1 g2 g3)), fun hc => a2 (b1 hc),
        a3.trans b2, a4⟩
    | data i bytes =>
      obtain ⟨v, hv, g1⟩ := hrg.2 i bytes hrec
      rw [hrec] at h
      simp only [applyRec, hv, Option.map_some] at h
      obtain ⟨a1, a2, a3, a4⟩ := ih _ h
      obtain ⟨b1, b2⟩ := hset i v (takeData v c bytes) hv rfl rfl rfl
      exact ⟨fun hg => a1 (good_set hg i _ (good_data (hg v (List.mem_of_getElem? hv)) c bytes g1)), fun hc => a2 (b1 hc),
        a3.trans b2, a4⟩

theorem no_next {h : List Ev} (hz : records h = 0) : ∀ e ∈ h, e ≠ .next := by
  induction h with
  | nil => simp
  | cons e es ih =>
    cases e with
    | next => simp [records] at hz
    | put n t d => exact List.forall_mem_cons.2 ⟨by simp, ih hz⟩
    | noCheck n t => exact List.forall_mem_cons.2 ⟨by simp, ih hz⟩
    | reopen => exact List.forall_mem_cons.2 ⟨by simp, ih hz⟩

/-- the variables at the end of the file have the last values they were given -/
theorem end_state {h : List Ev} {w : Writer} {f : Nat → Byte} {size : Nat} {r0 r : Reader} (hr : wrun newWriter h = some w)
    (hok : HistOk h) (h128 : (table w).length ≤ 128) (hf : Holds f size w.out)
    (hrt : rtable r0.vars = table w) (h0 : r0.offset = 0) (hm : r0.maxOffset = w.offset)
    (hread : readN f size (records h) r0 = some r) : ∃ r', rnext f size r = .eof r' ∧
      scanLoop f size { r with mark := r.callno + 1, copy := false } (r.callno + 1) (r.maxOffset - r.offset + 1) ⟨r.vars, r.offset, false⟩ =
        .eof r' ∧
      ∀ nm ty d, (nm, ty) ∈ table w → valueAfter h nm = some d →
        getvr r' nm ty = some d ∧ ∃ upd, probe r' nm = some (ty, d.length / ty.mem, upd) := by
  have hp : table w <+: rtable r0.vars := by rw [hrt]; exact List.prefix_rfl
  have hlen : r0.vars.length ≤ 128 := by
    have : (rtable r0.vars).length = r0.vars.length := by simp [rtable]
    rw [← this, hrt]; exact h128
  obtain ⟨r1, w1, h', a1, a2, a3, a4, a5, a6, a7, a8, a9, a10⟩ := readN_all hr hok h128 hf hrt h0 hm (Nat.le_refl _)
  rw [hread, Option.some.injEq] at a1
  subst a1
  have hb : ∀ e ∈ h', e ≠ .next := no_next (by omega)
  have hok' : HistOk h' := by
    intro e he
    apply hok e
    rw [a2]
    exact List.mem_append_right _ he
  obtain ⟨ts, b1, b2, b3, b4, b5, _⟩ := block_ok a5 hb hok' a4 hp hlen (r.callno + 1)
  have hf2 : Holds f size (layout r.offset ts) := by
    rw [b3] at hf
    rw [a6]
    exact (Holds.append.1 hf).2
  have hfin : finL r.offset ts = r.maxOffset := by rw [a6, ← b4, a7]
  have hscan := scanLoop_tail f size { r with mark := r.callno + 1, copy := false } (r.callno + 1) ts
    (r.maxOffset - r.offset + 1) ⟨r.vars, r.offset, false⟩ (fun t ht => (b1 t ht).1) b2 hf2 hfin (by
      have := finL_ge r.offset ts
      show ts.length < r.maxOffset - r.offset + 1
      omega)
  refine ⟨_, hscan, hscan, fun nm ty d ht hd => ?_⟩
  refine getvr_sync (rv0 := r0.vars) b5 (by rw [hrt]; exact table_nodup hr hok h128) (sync_rtable b5 hp) (by rw [hrt]; exact ht) ?_
  have : valueAfter h nm = h'.foldl (assign nm) (valueAfter (upTo (records h) h) nm) := by
    conv_lhs => rw [a2]
    unfold valueAfter
    rw [List.foldl_append]
  rw [← this]
  exact hd

/-! ## Lemmas: rewinding -/

theorem rlocvar_rewind (r : Reader) (nm : Name) : rlocvar (rewind r).vars nm = (rlocvar r.vars nm).map fun v => { v with callno := 0 } := by
  unfold rlocvar rewind
  simp only
  induction r.vars with
  | nil => rfl
  | cons v vs ih =>
    rw [List.map_cons, List.find?_cons, List.find?_cons]
    by_cases h : v.name = nm
    · simp [h]
    · simp only [h, decide_false]
      exact ih

theorem getvr_rewind (r : Reader) (nm : Name) (ty : Ty) : getvr (rewind r) nm ty = getvr r nm ty := by
  unfold getvr
  rw [rlocvar_rewind]
  cases rlocvar r.vars nm with
  | none => rfl
  | some v => rfl

theorem rtable_rewind (r : Reader) : rtable (rewind r).vars = rtable r.vars := by
  simp [rtable, rewind]

theorem begun_of {W : VisW} {S R : VisR} (hb : Begun W S) (ht : rtable R.r.vars = rtable S.r.vars) (ho : R.r.maxOffset = S.r.maxOffset)
    (hf : FlagFile W R.m) (hg : AllGood R.r.vars) (hc : ∀ v ∈ R.r.vars, v.copy = false) : Begun W (rewindVis R) := by
  refine ⟨⟨?_, rfl, ?_⟩, rfl, hf, ?_, ?_, rfl, ?_⟩
  · show rtable (rewind R.r).vars = _
    rw [rtable_rewind, ht]
    exact hb.start.vars
  · show R.r.maxOffset = _
    rw [ho]
    exact hb.start.maxOffset
  · intro v hv
    obtain ⟨u, hu, rfl⟩ := List.mem_map.1 hv
    have := hg u hu
    exact ⟨this.flen, this.whole, this.small, this.buf⟩
  · intro v hv
    obtain ⟨u, hu, rfl⟩ := List.mem_map.1 hv
    exact hc u hu
  · intro v hv
    obtain ⟨u, hu, rfl⟩ := List.mem_map.1 hv
    rfl

/-- what is known of record `j` of a data set when it is read: its bytes are those of the values the variables were given -/
structure ReadAt (o : FpOps) (q : Quant) (W : VisW) (j : Nat) (b : Block) (Sj : VisR) (out : Out) : Prop where
  same : Matches o q .real out b.vis
  values : ∀ nm ty d, (nm, ty) ∈ table W.w → valueAfter (upTo (j + 1) W.evs) nm = some d → getvr Sj.r nm ty = some d
  pre : readPreamble Sj.r = some (out.u, out.v, out.w, out.time, out.bl)

/-- the variables of the preamble have values with every record -/
theorem pre_values {E : Env} {o : FpOps} {q : Quant} {junk : Nat → Nat} {bs : List Block} {W : VisW} {n : Nat}
    (ha : Archive E o q junk .real bs W n) {j : Nat} (hj : j < bs.length) :
    (∃ d, (nmCoord, Ty.dble) ∈ table W.w ∧ valueAfter (upTo (j + 1) W.evs) nmCoord = some d) ∧
    (∃ d, (nmTime, Ty.dble) ∈ table W.w ∧ valueAfter (upTo (j + 1) W.evs) nmTime = some d) ∧
    (∃ d, (nmBl, Ty.real) ∈ table W.w ∧ valueAfter (upTo (j + 1) W.evs) nmBl = some d) := by
  obtain ⟨s0, sk, u1, u2, u3, u4, u5, u6, u7⟩ := written_upTo ha.wr j hj
  obtain ⟨c, hc⟩ := written_held ha.wr u1 hj u2
  have key : ∀ {nm d}, valueAfter sk.evs nm = some d → ∃ ty, (nm, ty) ∈ table W.w := by
    intro nm d hv
    obtain ⟨ty, hput, hne⟩ := valueAfter_mem _ _ _ hv
    exact ⟨ty, put_in_table u6 u7 (u5 _ hput) hne⟩
  rw [u3]
  refine ⟨?_, ?_, ?_⟩
  · obtain ⟨x, y, z, _, _, _, hv, _⟩ := hc.coord
    obtain ⟨ty, t1⟩ := key hv
    have := ha.types _ t1 .dble (by simp [std])
    subst this
    exact ⟨_, t1, hv⟩
  · obtain ⟨t, _, hv, _⟩ := hc.time
    obtain ⟨ty, t1⟩ := key hv
    have := ha.types _ t1 .dble (by simp [std])
    subst this
    exact ⟨_, t1, hv⟩
  · obtain ⟨b, _, hv, _⟩ := hc.bl
    obtain ⟨ty, t1⟩ := key hv
    have := ha.types _ t1 .real (by simp [std])
    subst this
    exact ⟨_, t1, hv⟩

/-- a record is the same whenever it is read -/
theorem read_same {E : Env} {o : FpOps} {q : Quant} {junk : Nat → Nat} {bs : List Block} {W : VisW} {n : Nat}
    (ha : Archive E o q junk .real bs W n) {j : Nat} (hj : j < bs.length) {b : Block} {S1 S2 : VisR} {out1 out2 : Out}
    (h1 : ReadAt o q W j b S1 out1) (h2 : ReadAt o q W j b S2 out2) : out1 = out2 := by
  obtain ⟨⟨d1, t1, v1⟩, ⟨d2, t2, v2⟩, ⟨d3, t3, v3⟩⟩ := pre_values ha hj
  have e : readPreamble S1.r = readPreamble S2.r := by
    unfold readPreamble
    rw [h1.values _ _ _ t1 v1, h1.values _ _ _ t2 v2, h1.values _ _ _ t3 v3, h2.values _ _ _ t1 v1, h2.values _ _ _ t2 v2,
      h2.values _ _ _ t3 v3]
  rw [h1.pre, h2.pre] at e
  obtain ⟨a1, a2, a3, a4, a5, a6, a7⟩ := out1
  obtain ⟨b1, b2, b3, b4, b5, b6, b7⟩ := out2
  have f1 := h1.same.data.trans h2.same.data.symm
  have f2 := h1.same.flags.trans h2.same.flags.symm
  simp only [Option.some.injEq, Prod.mk.injEq] at e f1 f2
  obtain ⟨rfl, rfl, rfl, rfl, rfl⟩ := e
  subst f1
  subst f2
  rfl

theorem outs_same {E : Env} {o : FpOps} {q : Quant} {junk : Nat → Nat} {bs : List Block} {W : VisW} {n : Nat}
    (ha : Archive E o q junk .real bs W n) {l1 l2 : List (VisR × Out)} (h1 : l1.length = bs.length) (h2 : l2.length = bs.length)
    (r1 : ∀ (j : Nat) (Sj : VisR) (out : Out) (b : Block), l1[j]? = some (Sj, out) → bs[j]? = some b → ReadAt o q W j b Sj out)
    (r2 : ∀ (j : Nat) (Sj : VisR) (out : Out) (b : Block), l2[j]? = some (Sj, out) → bs[j]? = some b → ReadAt o q W j b Sj out) :
    l1.map (·.2) = l2.map (·.2) := by
  apply List.ext_getElem?
  intro j
  rw [List.getElem?_map, List.getElem?_map]
  by_cases hj : j < bs.length
  · obtain ⟨x, hx⟩ : ∃ x, l1[j]? = some x := ⟨_, List.getElem?_eq_getElem (by rw [h1]; exact hj)⟩
    obtain ⟨x', hx'⟩ : ∃ x, l2[j]? = some x := ⟨_, List.getElem?_eq_getElem (by rw [h2]; exact hj)⟩
    have hbj := List.getElem?_eq_getElem hj
    rw [hx, hx', Option.map_some, Option.map_some, read_same ha hj (r1 j x.1 x.2 _ hx hbj) (r2 j x'.1 x'.2 _ hx' hbj)]
  · rw [List.getElem?_eq_none (by omega), List.getElem?_eq_none (by omega)]

/-- reading a data set to its end; the reader is at the beginning again after `rewind`, with the last values -/
theorem reads_at {E : Env} {o : FpOps} {q : Quant} {junk : Nat → Nat} {bs : List Block} {W : VisW} {n : Nat}
    (ha : Archive E o q junk .real bs W n) (hne : bs ≠ []) {f : Nat → Byte} {size : Nat} (hf : Holds f size W.w.out)
    {S : VisR} (hb : Begun W S) :
    ∃ l S', ReadsTo f size n S l S' ∧ l.length = bs.length ∧
      (∀ (j : Nat) (Sj : VisR) (out : Out) (b : Block), l[j]? = some (Sj, out) → bs[j]? = some b → ReadAt o q W j b Sj out ∧
        AllGood Sj.r.vars ∧ Begun W (rewindVis Sj)) ∧
      Begun W (rewindVis S') ∧
      ∀ nm ty d, (nm, ty) ∈ table W.w → valueAfter W.evs nm = some d → getvr (rewindVis S').r nm ty = some d := by
  have hw := ha.wr
  have hnn : ∀ b ∈ bs, b.vis.flags.length ≤ n := fun b hb => by rw [ha.chans b hb]; exact Nat.le_refl _
  have hpos : 0 < bs.length := List.length_pos_iff.2 hne
  obtain ⟨hrun, hhok⟩ : wrun newWriter W.evs = some W.w ∧ HistOk W.evs := by
    obtain ⟨s0, sk, u1, u2, u3, u4, u5, u6, u7⟩ := written_upTo hw 0 hpos
    exact ⟨u6, u7⟩
  have hS : (⟨S.r, 0, S.m⟩ : VisR) = S := by
    obtain ⟨r, fo, m⟩ := S
    have := hb.flagOff
    simp only at this
    subst this
    rfl
  obtain ⟨R, outs, g1, g2, g3, R', g4⟩ := c48_records hw hf hnn hb.start hb.flags
  rw [hS] at g1
  obtain ⟨l, l1, l2, l3⟩ := reads_of _ g1 g4
  have hlen : l.length = bs.length := by rw [← g2, ← l2, List.length_map]
  obtain ⟨S', l4⟩ := readsTo_of l1
  have hall : ∀ x ∈ l, rtable x.1.r.vars = rtable S.r.vars ∧ (∀ v ∈ x.1.r.vars, v.copy = false) := by
    have key : ∀ {S0 : VisR} {l : List (VisR × Out)}, Reads f size n S0 l → (∀ v ∈ S0.r.vars, v.copy = false) →
        ∀ x ∈ l, rtable x.1.r.vars = rtable S0.r.vars ∧ (∀ v ∈ x.1.r.vars, v.copy = false) := by
      intro S0 l hr
      induction hr with
      | done _ => intro _ x hx; cases hx
      | @more S S1 out l h hr ih =>
        intro h0
        have hk := (uvread_keeps h).2.2
        have h1 : ∀ v ∈ S1.r.vars, v.copy = false := by
          intro v hv
          obtain ⟨u, hu, _, _, e3, _⟩ := keeps_back hk hv
          rw [e3]; exact h0 u hu
        intro x hx
        rcases List.mem_cons.1 hx with rfl | hx
        · exact ⟨keeps_rtable hk, h1⟩
        · obtain ⟨i1, i2⟩ := ih h1 x hx
          exact ⟨i1.trans (keeps_rtable hk), i2⟩
    exact key l1 hb.plain
  have hgood := chain_good l1.chain hb.good
  have hmax : ∀ {k r}, k ≤ records W.evs → readN f size k S.r = some r → r.maxOffset = S.r.maxOffset := by
    intro k r hk h
    obtain ⟨r1, _, _, a1, _, _, _, _, _, a7, _⟩ := readN_all hrun hhok hw.vars hf hb.start.vars hb.start.offset hb.start.maxOffset hk
    rw [h, Option.some.injEq] at a1
    rw [a1, a7, hb.start.maxOffset]
  have hrecs : records W.evs = bs.length := hw.dataset.recs
  refine ⟨l, S', l4, hlen, ?_, ?_⟩
  · intro j Sj out b hj hbj
    have hjl : j < bs.length := (List.getElem?_eq_some_iff.1 hbj).1
    obtain ⟨R2, outs2, k1, k2, _, k4, _⟩ := reads_k hw hf hnn hb.start hb.flags (j + 1) hjl
    have := l3 j Sj out hj
    rw [hS] at k1
    rw [k1, Option.some.injEq, Prod.mk.injEq] at this
    rw [this.1] at k2 k4
    have hmem := List.mem_of_getElem? hj
    have hm : Matches o q .real out b.vis := g3 j out b (by rw [← l2, List.getElem?_map, hj]; rfl) hbj
    obtain ⟨S0, hS0⟩ := l1.from _ hmem
    refine ⟨⟨hm, ?_, (uvread_some hS0).2⟩, hgood _ hmem,
      begun_of hb (hall _ hmem).1 (hmax (by omega) k2) k4 (hgood _ hmem) (hall _ hmem).2⟩
    intro nm ty d ht hd
    obtain ⟨s0, sk, u1, u2, u3, u4, u5, u6, u7⟩ := written_upTo hw j hjl
    rw [u3] at hd
    obtain ⟨ty', t1, _, _, t2, _⟩ := written_get hw hf hb.start k2 u3 u4 u5 u6 u7 hd
    rw [table_type (table_nodup hrun hhok hw.vars) ht t1]
    exact t2
  · obtain ⟨R2, outs2, q1, q2, _⟩ := l4.back
    rw [hlen, g1, Option.some.injEq, Prod.mk.injEq] at q1
    rw [← q1.1] at q2
    obtain ⟨R3, outs3, k1, k2, _, k4, _⟩ := reads_k hw hf hnn hb.start hb.flags bs.length (Nat.le_refl _)
    rw [hS, g1, Option.some.injEq, Prod.mk.injEq] at k1
    rw [← k1.1] at k2 k4
    obtain ⟨r', n1, n2, n3⟩ := end_state hrun hhok hw.vars hf hb.start.vars hb.start.offset hb.start.maxOffset (by rw [hrecs]; exact k2)
    have hS' : S' = { R with r := r' } := by
      unfold uvread at q2
      rw [findCorr_eof n1] at q2
      simp only [VRead.eof.injEq] at q2
      exact q2.symm
    subst hS'
    obtain ⟨s1, s2, s3, s4⟩ := scanLoop_eof _ _ _ _ _ _ _ n2
    obtain ⟨x, hx⟩ : ∃ x, l[bs.length - 1]? = some x := ⟨_, List.getElem?_eq_getElem (by rw [hlen]; omega)⟩
    have hx' := l3 (bs.length - 1) x.1 x.2 hx
    rw [show bs.length - 1 + 1 = bs.length by omega, g1, Option.some.injEq, Prod.mk.injEq] at hx'
    have hmem := List.mem_of_getElem? hx
    have hR := hall _ hmem
    have hG := hgood _ hmem
    rw [← hx'.1] at hR hG
    refine ⟨begun_of hb (s3.trans hR.1) (s4.trans (hmax (k := bs.length) (r := R.r) (by omega) k2)) k4 (s1 hG) (s2 hR.2), ?_⟩
    intro nm ty d ht hd
    show getvr (rewind r') nm ty = _
    rw [getvr_rewind]
    exact (n3 nm ty d ht hd).1

/-- `init_from_uv` at a reader whose variables have values that can be copied -/
theorem init_at {E : Env} {W : VisW} {S : VisR} (hb : Begun W S) {over : List (Name × PyVal)} {excl : List Name} {V : Name → Option (List Byte)}
    (hplain : ∀ x ∈ table W.w, x.1 ≠ nmCorr → x.1 ∉ excl → over.find? (fun p => p.1 = x.1) = none → ∃ d, V x.1 = some d ∧ Plain x.2 d)
    (hgiven : ∀ x ∈ table W.w, ∀ p, over.find? (fun p => p.1 = x.1) = some p → ∃ d, encode E.fo (tyChar x.2) p.2 = some (x.2, d) ∧
      EvOk (.put x.1 x.2 d))
    (hval : ∀ nm ty d, (nm, ty) ∈ table W.w → V nm = some d → getvr S.r nm ty = some d ∧ d.length % ty.mem = 0) :
    ∃ us ks, initFrom E S.r over excl S.r.vars = some (us, ks) ∧ ∀ u ∈ us, EvOk u.ev := by
  have ht : ∀ v ∈ S.r.vars, (v.name, v.ty) ∈ table W.w := by
    intro v hv'
    rw [← hb.start.vars]; exact List.mem_map.2 ⟨v, hv', rfl⟩
  refine init_total (fun v hv' p hp => hgiven _ (ht v hv') p hp) ?_
  intro v hv' hc hx ho
  obtain ⟨d, d1, d2⟩ := hplain _ (ht v hv') hc hx ho
  obtain ⟨t1, t2⟩ := hval _ _ d (ht v hv') d1
  have hlen : d.length < 2 ^ 20 := by
    have hp := d2.1
    have hmod := t2
    unfold BUFSIZE at hp
    revert hp hmod
    show d.length / v.ty.mem * v.ty.ext ≤ _ → d.length % v.ty.mem = 0 → _
    cases v.ty <;> simp only [Ty.ext, Ty.mem] <;> omega
  rw [rdvr_of_getvr hb.good E.fo E.junk t1 d2.1]
  exact again_ok E.fo E.junk v.name v.ty d d2 hlen

/-- A script that reads the source twice: with the records `l` that are read from it, it raises where what it gathers from
them, or what it makes of it, raises; the records it then pipes are the same. -/
theorem two_pass_dir (c : Conv) (hw : ∀ x < 2 ^ 32, c.round (c.widen x) = x) {E : Env} {o q junk bs W n names h old}
    (O : Origin E o q junk bs W n names h old) (hmode : E.mode = .real) (hl : FpLaws E.o)
    (hq : QuantOk E.q) (hbl : BlLaws E.bl o) (hun : ∀ t ints, (E.unscale t ints).length = ints.length)
    {m : Mask} (hm : FlagFile W m) (hv : VarsOk E W [] [])
    (hlast : ∀ x ∈ table W.w, x.1 ≠ nmCorr → ∃ d, valueAfter W.evs x.1 = some d ∧ Plain x.2 d)
    {app : List Nat} (hi : ItemsOk [] [] old app) {obs : Option (List Byte)} (hobs : ObsOk obs) (g0 g : Nat → Byte) :
    ∃ src l, directory c g0 h = some src ∧
      (∃ it r0 it1 R, openOld src g = some (it, r0) ∧ huvreadN g n bs.length it ⟨r0, 0, m⟩ = some (it1, R, l.map (·.2))) ∧
      l.length = bs.length ∧
      (∀ (j : Nat) (Sj : VisR) (out : Out) (b : Block), l[j]? = some (Sj, out) → bs[j]? = some b → ReadAt o q W j b Sj out ∧ AllGood Sj.r.vars) ∧
      ∀ {σ τ : Type} (step : σ → VisR → PyRec → Option σ) (x0 : σ) (fin : σ → Option τ) (pr : Proc τ),
      ((gatherL E n step x0 l).bind fin = none → ∀ fuel, twoPassRun E c g src m step x0 fin pr app fuel = none) ∧
      ∀ y, (gatherL E n step x0 l).bind fin = some y → ∃ l2, l2.map (·.2) = l.map (·.2) ∧
        (∀ (j : Nat) (Sj : VisR) (out : Out) (b : Block), l2[j]? = some (Sj, out) → bs[j]? = some b → ReadAt o q W j b Sj out ∧
          AllGood Sj.r.vars ∧ recOf E (E.show n out) = out) ∧
        (runProc E n pr y l2 = none → ∀ fuel, twoPassRun E c g src m step x0 fin pr app fuel = none) ∧
        ∀ x1 ys, runProc E n pr y l2 = some (x1, ys) → MildOn E n pr l2 → ∃ t1 W',
          (∀ fuel, bs.length < fuel → twoPassRun E c g src m step x0 fin pr app fuel = some (t1, W')) ∧
          (kept E n (returned ys) 0 l2 ≠ [] → W'.w.offset ≤ 2 ^ 31 → ∃ cpy, closeCopy c g obs (t1, W') = some cpy ∧
            SameItems c src cpy g [] [] old app obs ∧
            ∀ (g' : Nat → Byte) (m' : Mask), FlagFile W' m' → ∃ it r0, openOld cpy g' = some (it, r0) ∧
              (∃ it1 it2 R outs R', huvreadN g' n (kept E n (returned ys) 0 l2).length it ⟨r0, 0, m'⟩ = some (it1, R, outs) ∧
                huvread g' n it1 R = (it2, .eof R')) ∧
              ∀ (j : Nat) (Sj : VisR) (p : PyRec), (kept E n (returned ys) 0 l2)[j]? = some (Sj, p) → ∃ it1 R outs,
                huvreadN g' n (j + 1) it ⟨r0, 0, m'⟩ = some (it1, R, outs ++ [recOf E p]) ∧ outs.length = j ∧
                ∀ v ∈ Sj.r.vars, Copied .real [] [] v.name → getvr R.r v.name v.ty = getvr Sj.r v.name v.ty) := by
  obtain ⟨src, D, it0, F, f, S, us, ks, d1, d2, d3, z1, z2, z3, hbg, z4, i2, i3⟩ := origin_opens c O hbl hun hm hv g0 g
  -- the first record, and the first pass
  obtain ⟨l0, S0', p1, p2, p3, _, _⟩ := reads_at O.arch O.nonempty z3 hbg
  have hpos : 0 < bs.length := List.length_pos_iff.2 O.nonempty
  obtain ⟨⟨S1, out1⟩, l0', rfl⟩ : ∃ x l', l0 = x :: l' := by
    cases l0 with
    | nil => rw [List.length_nil] at p2; omega
    | cons x l' => exact ⟨x, l', rfl⟩
  obtain ⟨_, _, hb1⟩ := p3 0 S1 out1 bs[0] rfl (List.getElem?_eq_getElem hpos)
  obtain ⟨itA, eA, lA, sA⟩ := huvread_eq g n z2 z4
  have hrd : uvread f F.size n S = .ok S1 out1 := by
    cases p1 with
    | more h1 _ => exact h1
  rw [hrd] at eA sA
  have hpeek : peek g n it0 S = some (itA, rewindVis S1) := by
    unfold peek
    rw [eA]
  obtain ⟨l, S', q1, q2, q3, q4, q5⟩ := reads_at O.arch O.nonempty z3 hb1
  have hsound : Sound (rewindVis S1).r := sound_rewind sA
  -- the source as it is read by itself
  have hself : ∃ it r0 it1 R, openOld src g = some (it, r0) ∧ huvreadN g n bs.length it ⟨r0, 0, m⟩ = some (it1, R, l.map (·.2)) := by
    obtain ⟨it, F', f', o1, o2, o3⟩ := old_ok d2 O.size g
    have hb0 : Begun W ⟨openReader (table W.w) W.w.offset, 0, m⟩ := by
      refine ⟨open_atStart W, rfl, hm, open_good _ _, ?_, rfl, ?_⟩
      · intro v hv'
        obtain ⟨p, _, rfl⟩ := List.mem_map.1 hv'
        rfl
      · intro v hv'
        obtain ⟨p, _, rfl⟩ := List.mem_map.1 hv'
        rfl
    obtain ⟨l9, S9, a1, a2, a3, _, _⟩ := reads_at O.arch O.nonempty o3 hb0
    obtain ⟨R, outs, b1, _, b3⟩ := a1.back
    obtain ⟨it1, b4, _, _⟩ := huvreadN_eq g n _ it _ _ o2 (sound_open _ _) b1
    refine ⟨it, _, it1, R, o1, ?_⟩
    rw [← a2, b4, b3, outs_same O.arch a2 q2 (fun j Sj out b h1 h2 => (a3 j Sj out b h1 h2).1) (fun j Sj out b h1 h2 => (q3 j Sj out b h1 h2).1)]
  refine ⟨src, l, d1, hself, q2, fun j Sj out b h1 h2 => ⟨(q3 j Sj out b h1 h2).1, (q3 j Sj out b h1 h2).2.1⟩, ?_⟩
  intro σ τ step x0 fin pr
  obtain ⟨r1, r2⟩ := gather_eq E g step q1 x0 itA lA hsound
  have hrun : ∀ fuel, twoPassRun E c g src m step x0 fin pr app fuel = (gather E g n step fuel x0 itA (rewindVis S1)).bind fun d =>
      (fin d.1).bind fun y => restRunSt E c g src pr y [] [] [] app fuel d.2.1 (rewindVis d.2.2) n := by
    intro fuel
    unfold twoPassRun
    rw [z1, Option.bind_some]
    simp only
    rw [hpeek, Option.bind_some]
  refine ⟨?_, ?_⟩
  · intro hn fuel
    rw [hrun]
    cases hg : gatherL E n step x0 l with
    | none => rw [r1 hg fuel]; rfl
    | some x1 =>
      rw [hg, Option.bind_some] at hn
      obtain ⟨it2, _, _, e⟩ := r2 x1 hg
      rw [e fuel]
      split
      · rw [Option.bind_some]
        simp only
        rw [hn]
        rfl
      · rfl
  · intro y hy
    obtain ⟨x1, hg, hfin⟩ := Option.bind_eq_some_iff.1 hy
    obtain ⟨it2, j1, j2, j3⟩ := r2 x1 hg
    have hmod : ∀ nm ty d, (nm, ty) ∈ table W.w → valueAfter W.evs nm = some d → getvr (rewindVis S').r nm ty = some d ∧ d.length % ty.mem = 0 := by
      intro nm ty d ht hd
      obtain ⟨hrun, hhok⟩ : wrun newWriter W.evs = some W.w ∧ HistOk W.evs := by
        obtain ⟨s0, sk, u1, u2, u3, u4, u5, u6, u7⟩ := written_upTo O.arch.wr 0 hpos
        exact ⟨u6, u7⟩
      obtain ⟨ty', hput, hne⟩ := valueAfter_mem _ _ _ hd
      rw [table_type (table_nodup hrun hhok O.arch.wr.vars) ht (put_in_table hrun hhok hput hne)]
      refine ⟨?_, (hhok _ hput).1⟩
      rw [← table_type (table_nodup hrun hhok O.arch.wr.vars) ht (put_in_table hrun hhok hput hne)]
      exact q5 nm ty d ht hd
    obtain ⟨us2, ks2, k1, k2⟩ := init_at (E := E) q4 (over := []) (excl := []) (V := fun nm => valueAfter W.evs nm)
      (fun x hx hc _ _ => hlast x hx hc) (fun x hx p hp => (by cases hp)) hmod
    obtain ⟨l2, m0, m1, m2, m3⟩ := copy_state_at c hw O hmode hl hq hbl hun hv hi hobs g d2 d3 j1 z3 q4 (sound_rewind j2) k1 k2
    obtain ⟨n1, n2⟩ := m3 pr y
    have hchain := chain_good m0.chain (track_good q4.good ks2)
    have hread : ∀ (j : Nat) (Sj : VisR) (out : Out) (b : Block), l2[j]? = some (Sj, out) → bs[j]? = some b → ReadAt o q W j b Sj out := by
      intro j Sj out b h1 h2
      obtain ⟨a1, a2, a3⟩ := m2 j Sj out b h1 h2
      obtain ⟨S0, hS0⟩ := m0.from _ (List.mem_of_getElem? h1)
      exact ⟨a1, fun nm ty d ht hd => (a3 nm ty d ht hd).1, (uvread_some hS0).2⟩
    have hrest : ∀ fuel, twoPassRun E c g src m step x0 fin pr app fuel =
        if bs.length < fuel then restRunSt E c g src pr y [] [] [] app fuel it2 (rewindVis S') n else none := by
      intro fuel
      rw [hrun, j3 fuel, q2]
      split
      · rw [Option.bind_some]
        simp only
        rw [hfin]
        rfl
      · rfl
    refine ⟨l2, ?_, ?_, ?_, ?_⟩
    · exact outs_same O.arch m1 q2 hread (fun j Sj out b h1 h2 => (q3 j Sj out b h1 h2).1)
    · intro j Sj out b h1 h2
      exact ⟨hread j Sj out b h1 h2, hchain _ (List.mem_of_getElem? h1), (m2 j Sj out b h1 h2).2.1⟩
    · intro hn fuel
      rw [hrest, n1 hn fuel]
      split <;> rfl
    · intro x2 ys hr hmild
      obtain ⟨t1, W', e1, e2⟩ := n2 x2 ys hr hmild
      exact ⟨t1, W', fun fuel hf => by rw [hrest, if_pos hf]; exact e1 fuel hf, e2⟩

end Verif.Mir.Uv
