import Verif.Mir.UvSelectProps

/-!
# Property C79 : reading with a selection, the records
-/
namespace Verif.Mir.UvSel

open Verif.Mir.Uv
open Verif.Mir.Hio (Byte)
open Verif.Mir.Mask (Mask)
open Verif.Miriad (SelCall Clause uvselect uvreadSelect runSelect SpecSelected SpecClause specClauses specStep OkCall OrderedRec Cond
  addCond groupKeeps c07_select_semantics)

/-! ## The specification -/

/-- the number of four bytes in two's complement, most significant first -/
def signed : List Byte → Int
  | a :: b :: c :: d :: _ =>
    (if 128 ≤ a.toNat then (a.toNat : Int) - 256 else a.toNat) * 2 ^ 24 + b.toNat * 2 ^ 16 + c.toNat * 2 ^ 8 + d.toNat
  | _ => 0

/-- the polarisation of record `k`: the last value given to `pol` before it was written, or 1 -/
def polAt (s : VisW) (k : Nat) : Int :=
  match valueAfter (upTo (k + 1) s.evs) ['p', 'o', 'l'] with
  | none => 1
  | some b => signed b

/-- what a selection should look at in record `k` of antennas `i` and `j` (counted from zero): the antennas, the
polarisation, the number of the record (counted from one) and the values the variables had when it was written -/
def recAt (S : SelEnv) (s : VisW) (ij : Nat × Nat) (k : Nat) : Miriad.Rec :=
  ⟨ij.1 + 1, ij.2 + 1, polAt s k, fun n => if n = SEL_VIS then (k + 1 : Nat) else
    S.attr (fun nm => if nm ∈ S.looks then valueAfter (upTo (k + 1) s.evs) nm else none) n⟩

/-- a data set that can be selected from: `ant` are the antennas of the visibilities, and the variables looked at are
not there at all or have a value in the first record -/
structure Selectable (S : SelEnv) (o : FpOps) (bs : List Block) (s : VisW) (ant : Block → Nat × Nat) : Prop where
  val : ∀ a b, o.feq a b = true → S.val a = S.val b
  ants : ∀ b ∈ bs, S.val b.vis.bl = Codes.mkbl (ant b).1 (ant b).2 ∧ (ant b).1 ≤ (ant b).2 ∧ (ant b).2 ≤ 2046
  polTy : ∀ ty d, Ev.put ['p', 'o', 'l'] ty d ∈ s.evs → d ≠ [] → ty = .int
  settled : ∀ nm ∈ ['p', 'o', 'l'] :: S.looks, nm ∉ (table s.w).map (·.1) ∨ valueAfter (upTo 1 s.evs) nm ≠ none

/-- record `k` is to be returned -/
def Want (S : SelEnv) (s : VisW) (ant : Block → Nat × Nat) (sp : List SpecClause) (b : Block) (k : Nat) : Prop :=
  SpecSelected (recAt S s (ant b) k) sp

/-! ## What is seen of a record -/

theorem signed_eq (b : List Byte) : toInt32 ((words b).getD 0 0) = signed b := by
  match b with
  | [] => rfl
  | [_] => rfl
  | [_, _] => rfl
  | [_, _, _] => rfl
  | a :: b :: c :: d :: rest =>
    have ha : a.toNat < 256 := a.toNat_lt
    have hb : b.toNat < 256 := b.toNat_lt
    have hc : c.toNat < 256 := c.toNat_lt
    have hd : d.toNat < 256 := d.toNat_lt
    simp only [words, List.getD_cons_zero, signed, toInt32, ofBe32]
    split <;> split <;> omega

theorem assign_keeps (nm : Name) : ∀ (h : List Ev) (acc : Option (List Byte)), acc ≠ none → h.foldl (assign nm) acc ≠ none := by
  intro h
  induction h with
  | nil => intro acc ha; exact ha
  | cons e es ih =>
    intro acc ha
    rw [List.foldl_cons]
    apply ih
    cases e with
    | put n t d =>
      rw [assign_put]
      split
      · simp
      · exact ha
    | next => exact ha
    | noCheck n t => exact ha
    | reopen => exact ha

theorem upTo_more (h : List Ev) : ∀ n, ∃ x, upTo (n + 1) h = upTo n h ++ x := by
  induction h with
  | nil => intro n; cases n <;> exact ⟨[], rfl⟩
  | cons e es ih =>
    intro n
    cases n with
    | zero => exact ⟨_, rfl⟩
    | succ n =>
      cases e with
      | next => obtain ⟨x, hx⟩ := ih n; exact ⟨x, by simp only [upTo, hx, List.cons_append]⟩
      | put a b c => obtain ⟨x, hx⟩ := ih (n + 1); exact ⟨x, by simp only [upTo, hx, List.cons_append]⟩
      | noCheck a b => obtain ⟨x, hx⟩ := ih (n + 1); exact ⟨x, by simp only [upTo, hx, List.cons_append]⟩
      | reopen => obtain ⟨x, hx⟩ := ih (n + 1); exact ⟨x, by simp only [upTo, hx, List.cons_append]⟩

theorem value_stays (h : List Ev) (nm : Name) (h1 : valueAfter (upTo 1 h) nm ≠ none) (k : Nat) :
    valueAfter (upTo (k + 1) h) nm ≠ none := by
  induction k with
  | zero => exact h1
  | succ k ih =>
    obtain ⟨x, hx⟩ := upTo_more h (k + 1)
    rw [hx]
    unfold valueAfter at ih ⊢
    rw [List.foldl_append]
    exact assign_keeps nm x _ ih

theorem upTo_mem (h : List Ev) : ∀ (n : Nat), ∀ e ∈ upTo n h, e ∈ h := by
  induction h with
  | nil => intro n e he; cases n <;> simp [upTo] at he
  | cons x es ih =>
    intro n e he
    cases n with
    | zero => simp [upTo] at he
    | succ n =>
      cases x with
      | next =>
        simp only [upTo] at he
        rcases List.mem_cons.1 he with rfl | he
        · exact List.mem_cons_self
        · exact List.mem_cons_of_mem _ (ih n e he)
      | put a b c =>
        simp only [upTo] at he
        rcases List.mem_cons.1 he with rfl | he
        · exact List.mem_cons_self
        · exact List.mem_cons_of_mem _ (ih (n + 1) e he)
      | noCheck a b =>
        simp only [upTo] at he
        rcases List.mem_cons.1 he with rfl | he
        · exact List.mem_cons_self
        · exact List.mem_cons_of_mem _ (ih (n + 1) e he)
      | reopen =>
        simp only [upTo] at he
        rcases List.mem_cons.1 he with rfl | he
        · exact List.mem_cons_self
        · exact List.mem_cons_of_mem _ (ih (n + 1) e he)

theorem getvr_bytes {r : Reader} {nm : Name} {ty : Ty} {d : List Byte} (h : getvr r nm ty = some d) : bytesOf r nm = some d := by
  unfold getvr at h
  unfold bytesOf
  cases hl : rlocvar r.vars nm with
  | none => rw [hl] at h; simp at h
  | some v =>
    rw [hl] at h
    simp only at h
    by_cases ht : ty ≠ v.ty
    · rw [if_pos ht] at h; simp at h
    · rw [if_neg ht] at h
      exact h

/-- the value of a variable that is settled -/
theorem bytes_at {h : List Ev} {w : Writer} {f : Nat → Byte} {size k : Nat} {r0 r : Reader}
    (hr : wrun newWriter h = some w) (hok : HistOk h) (h128 : (table w).length ≤ 128) (hf : Holds f size w.out)
    (hrt : rtable r0.vars = table w) (h0 : r0.offset = 0) (hm : r0.maxOffset = w.offset) (hn : k + 1 ≤ records h)
    (hread : readN f size (k + 1) r0 = some r) {nm : Name}
    (hs : nm ∉ (table w).map (·.1) ∨ valueAfter (upTo 1 h) nm ≠ none) :
    bytesOf r nm = valueAfter (upTo (k + 1) h) nm := by
  rcases hs with hs | hs
  · have hv : valueAfter (upTo (k + 1) h) nm = none := by
      cases hv : valueAfter (upTo (k + 1) h) nm with
      | none => rfl
      | some d =>
        obtain ⟨ty, hp, hd⟩ := valueAfter_mem _ _ _ hv
        exact absurd (List.mem_map_of_mem (put_in_table hr hok (upTo_mem h _ _ hp) hd)) hs
    obtain ⟨r', _, _, a1, _, _, _, _, _, _, _, a9, _⟩ := readN_all hr hok h128 hf hrt h0 hm hn
    rw [hread, Option.some.injEq] at a1
    subst a1
    rw [hv]
    unfold bytesOf
    have : rlocvar r.vars nm = none := by
      unfold rlocvar
      rw [List.find?_eq_none]
      intro v hv' hc
      apply hs
      rw [← a9]
      simp only [rtable, List.map_map]
      refine List.mem_map.2 ⟨v, hv', ?_⟩
      simpa using hc
    rw [this]
    rfl
  · cases hv : valueAfter (upTo (k + 1) h) nm with
    | none => exact absurd hv (value_stays h nm hs k)
    | some d =>
      obtain ⟨ty, hp, hd⟩ := valueAfter_mem _ _ _ hv
      exact getvr_bytes (getvr_assigned hr hok h128 hf hrt h0 hm hn hread (upTo_mem h _ _ hp) hd hv).1

theorem readLine_bl {nsize : Nat} {v v' : VisR} {out : Out} (h : readLine nsize v = .ok v' out) :
    ∃ b, getvr v.r nmBl .real = some b ∧ (words b).getD 0 0 = out.bl := by
  unfold readLine at h
  cases hc : rlocvar v.r.vars nmCorr with
  | none => rw [hc] at h; simp at h
  | some c =>
    rw [hc] at h
    simp only at h
    split at h
    · simp at h
    split at h
    · simp at h
    cases hf : Mask.mkreadFlags v.m v.flagOff (c.length / (2 * c.ty.ext)) with
    | error e => rw [hf] at h; simp at h
    | ok p =>
      rw [hf] at h
      simp only at h
      cases hd : readCorr v.r c (c.length / (2 * c.ty.ext)) with
      | none => rw [hd] at h; simp at h
      | some d =>
        rw [hd] at h
        cases hp : readPreamble v.r with
        | none => rw [hp] at h; simp at h
        | some x =>
          rw [hp] at h
          simp only [VRead.ok.injEq] at h
          obtain ⟨_, rfl⟩ := h
          unfold readPreamble at hp
          cases h1 : getvr v.r nmCoord .dble with
          | none => rw [h1] at hp; simp at hp
          | some c1 =>
            cases h2 : getvr v.r nmTime .dble with
            | none => rw [h1, h2] at hp; simp at hp
            | some t1 =>
              cases h3 : getvr v.r nmBl .real with
              | none => rw [h1, h2, h3] at hp; simp at hp
              | some b1 =>
                rw [h1, h2, h3] at hp
                simp only at hp
                refine ⟨b1, rfl, ?_⟩
                split at hp
                · rename_i hw
                  simp only [Option.some.injEq] at hp
                  subst hp
                  rw [hw]
                  rfl
                · simp at hp

theorem readN_next_callno {f : Nat → Byte} {size : Nat} {o q mode} {bs : List Block} {s : VisW} (hw : DataSet o q mode bs s)
    (hf : Holds f size s.w.out) {r0 r : Reader} (hr0 : AtStart s r0) {k : Nat} (hk : k ≤ bs.length)
    (h : readN f size k r0 = some r) : r.callno = r0.callno + k := by
  obtain ⟨r1, _, _, a1, _, _, _, _, _, _, a8, _, _⟩ := readN_all hw.run hw.ok hw.vars hf hr0.vars hr0.offset hr0.maxOffset
    (show k ≤ records s.evs by rw [hw.recs]; exact hk)
  rw [h, Option.some.injEq] at a1
  subst a1
  exact a8

/-- the record is seen as it was written -/
theorem see_ok {S : SelEnv} {o q mode} {bs : List Block} {s : VisW} {ant : Block → Nat × Nat} (hw : DataSet o q mode bs s)
    (hsel : Selectable S o bs s ant) {f : Nat → Byte} {size : Nat} (hf : Holds f size s.w.out) {r0 : Reader}
    (hr0 : AtStart s r0) (hc0 : r0.callno = 0) {m : Mask} (hm : FlagFile s m) {k : Nat} {b : Block} (hb : bs[k]? = some b)
    {r r' : Reader} (hread : readN f size k r0 = some r) (hread' : readN f size (k + 1) r0 = some r') :
    seeRec S r' = some (recAt S s (ant b) k) := by
  have hkl : k < bs.length := (List.getElem?_eq_some_iff.1 hb).1
  have hrec : k + 1 ≤ records s.evs := by rw [hw.recs]; exact hkl
  have hbm : b ∈ bs := List.mem_of_getElem? hb
  -- the largest record
  obtain ⟨nsize, hn⟩ : ∃ nsize, ∀ b ∈ bs, b.vis.flags.length ≤ nsize := by
    clear hw hsel hb hkl hbm
    induction bs with
    | nil => exact ⟨0, by simp⟩
    | cons x bs ih =>
      obtain ⟨n, hn⟩ := ih
      refine ⟨max n x.vis.flags.length, ?_⟩
      intro b hb
      rcases List.mem_cons.1 hb with rfl | hb
      · omega
      · have := hn b hb; omega
  obtain ⟨r1, m1, out, c1, _, _, c4, _, c6⟩ := dataset_step hw hf hn hr0 hm hb hread
  rw [hread', Option.some.injEq] at c1
  subst c1
  obtain ⟨bb, hb1, hb2⟩ := readLine_bl c4
  have hat : ∀ nm ∈ nmPol :: S.looks, bytesOf r' nm = valueAfter (upTo (k + 1) s.evs) nm := fun nm hnm =>
    bytes_at hw.run hw.ok hw.vars hf hr0.vars hr0.offset hr0.maxOffset hrec hread' (hsel.settled nm hnm)
  have hpol : polOf r' = some (polAt s k) := by
    have hb := hat nmPol List.mem_cons_self
    unfold polOf polAt
    rw [show (['p', 'o', 'l'] : Name) = nmPol from rfl]
    cases hl : rlocvar r'.vars nmPol with
    | none =>
      have : bytesOf r' nmPol = none := by unfold bytesOf; rw [hl]; rfl
      rw [this] at hb
      rw [← hb]
    | some v =>
      simp only
      have hin : nmPol ∈ (table s.w).map (·.1) := by
        obtain ⟨_, _, _, a1, _, _, _, _, _, _, _, a9, _⟩ := readN_all hw.run hw.ok hw.vars hf hr0.vars hr0.offset hr0.maxOffset hrec
        rw [hread', Option.some.injEq] at a1
        subst a1
        rw [← a9]
        simp only [rtable, List.map_map]
        refine List.mem_map.2 ⟨v, List.mem_of_find?_eq_some hl, ?_⟩
        simpa using List.find?_some hl
      have hset : valueAfter (upTo 1 s.evs) nmPol ≠ none := by
        rcases hsel.settled nmPol List.mem_cons_self with h | h
        · exact absurd hin h
        · exact h
      cases hv : valueAfter (upTo (k + 1) s.evs) nmPol with
      | none => exact absurd hv (value_stays _ _ hset k)
      | some d =>
        obtain ⟨ty, hp, hd⟩ := valueAfter_mem _ _ _ hv
        have hp := upTo_mem _ _ _ hp
        have hty := hsel.polTy ty d hp hd
        subst hty
        have hg := (getvr_assigned hw.run hw.ok hw.vars hf hr0.vars hr0.offset hr0.maxOffset hrec hread' hp hd hv).1
        have hvt : v.ty = .int := by
          unfold getvr at hg
          rw [hl] at hg
          simp only at hg
          by_cases ht : Ty.int ≠ v.ty
          · rw [if_pos ht] at hg; simp at hg
          · exact (Classical.not_not.1 ht).symm
        rw [if_pos hvt, hb, hv, Option.map_some, signed_eq]
  have hval : S.val out.bl = Codes.mkbl (ant b).1 (ant b).2 := by
    rw [← (hsel.ants b hbm).1]
    rcases c6.bl with h | h
    · rw [h]
    · exact hsel.val _ _ h
  have hcall : r'.callno = k + 1 := by
    have := readN_next_callno hw hf hr0 (k := k + 1) hkl hread'
    omega
  unfold seeRec recAt
  rw [hb1, hpol]
  simp only [hb2, hval]
  rw [Codes.c03_select_decoder_agrees _ _ (by have := hsel.ants b hbm; omega) (by have := hsel.ants b hbm; omega)]
  have e1 : ((((ant b).1 : Nat) : Int) + 1).toNat = (ant b).1 + 1 := by omega
  have e2 : ((((ant b).2 : Nat) : Int) + 1).toNat = (ant b).2 + 1 := by omega
  rw [e1, e2, hcall]
  congr 2
  funext n
  by_cases hn1 : n = SEL_VIS
  · rw [if_pos hn1, if_pos hn1]
  · rw [if_neg hn1, if_neg hn1]
    congr 1
    funext nm
    by_cases hl : nm ∈ S.looks
    · rw [if_pos hl, if_pos hl]
      exact hat nm (List.mem_cons_of_mem _ hl)
    · rw [if_neg hl, if_neg hl]

/-! ## Where a reader is -/

/-- the reader has passed `k` records -/
structure At (bs : List Block) (s : VisW) (f : Nat → Byte) (size : Nat) (r0 : Reader) (k : Nat) (v : VisR) : Prop where
  le : k ≤ bs.length
  read : ∃ rk, readN f size k r0 = some rk ∧ Alike v.r rk
  off : v.flagOff = flagPos bs k
  flags : FlagFile s v.m

theorem records_le {w w' : Writer} {h : List Ev} (hr : wrun w h = some w') : w.offset + records h ≤ w'.offset := by
  induction h generalizing w with
  | nil =>
    simp only [wrun, Option.some.injEq] at hr
    subst hr
    exact Nat.le_refl _
  | cons e es ih =>
    have hone : wrun w [e] = wstep w e := by
      simp only [wrun]
      cases wstep w e <;> rfl
    simp only [wrun] at hr
    cases h1 : wstep w e with
    | none => rw [h1] at hr; simp at hr
    | some w1 =>
      rw [h1] at hr
      have h2 := ih hr
      have h3 := wrun_offset (hone.trans h1)
      cases e with
      | next =>
        simp only [wstep, Option.some.injEq] at h1
        subst h1
        have : (next w).offset = w.offset + ALIGN := rfl
        have : ALIGN = 8 := rfl
        simp only [records]
        omega
      | put => simp only [records]; omega
      | noCheck => simp only [records]; omega
      | reopen => simp only [records]; omega

theorem room {o q mode} {bs : List Block} {s : VisW} (hw : DataSet o q mode bs s) {f : Nat → Byte} {size : Nat}
    (hf : Holds f size s.w.out) {r0 r : Reader} (hr0 : AtStart s r0) {k : Nat} (hk : k ≤ bs.length)
    (h : readN f size k r0 = some r) : bs.length - k ≤ r.maxOffset - r.offset := by
  obtain ⟨r1, w1, h', a1, _, a3, a4, _, a6, a7, _, _, _⟩ := readN_all hw.run hw.ok hw.vars hf hr0.vars hr0.offset hr0.maxOffset
    (show k ≤ records s.evs by rw [hw.recs]; exact hk)
  rw [h, Option.some.injEq] at a1
  subst a1
  have := records_le a4
  have := hw.recs
  omega

theorem readLine_alike {nsize : Nat} {a b : Reader} (h : Alike a b) {off : Nat} {m m' : Mask} {off' : Nat} {out : Out}
    (hl : readLine nsize ⟨b, off, m⟩ = .ok ⟨b, off', m'⟩ out) : readLine nsize ⟨a, off, m⟩ = .ok ⟨a, off', m'⟩ out := by
  have hcorr : ∀ c n, readCorr a c n = readCorr b c n := by
    intro c n
    unfold readCorr getvr
    rw [h.vars]
  have hpre : readPreamble a = readPreamble b := by
    unfold readPreamble getvr
    rw [h.vars]
  unfold readLine at hl ⊢
  simp only at hl ⊢
  rw [h.vars]
  cases hc : rlocvar b.vars nmCorr with
  | none => rw [hc] at hl; simp at hl
  | some c =>
    rw [hc] at hl
    simp only at hl ⊢
    split at hl
    · simp at hl
    split at hl
    · simp at hl
    rename_i n1 n2
    rw [if_neg n1, if_neg n2]
    cases hf : Mask.mkreadFlags m off (c.length / (2 * c.ty.ext)) with
    | error e => rw [hf] at hl; simp at hl
    | ok p =>
      rw [hf] at hl
      simp only [hcorr, hpre] at hl ⊢
      cases hd : readCorr b c (c.length / (2 * c.ty.ext)) with
      | none => rw [hd] at hl; simp at hl
      | some d =>
        rw [hd] at hl
        cases hp : readPreamble b with
        | none => rw [hp] at hl; simp at hl
        | some x =>
          rw [hp] at hl
          simp only [VRead.ok.injEq, VisR.mk.injEq, true_and] at hl ⊢
          exact hl

theorem seeRec_alike {S : SelEnv} {a b : Reader} (h : Alike a b) : seeRec S a = seeRec S b := by
  unfold seeRec polOf bytesOf getvr
  rw [h.vars, h.callno]

theorem channels_alike {a b : Reader} (h : Alike a b) : channels a = channels b := by
  unfold channels
  rw [h.vars]

/-! ## The selection -/

/-- the selection does what `sp` says, and where it stops at record `k` it may stop -/
structure SelOk (sp : List SpecClause) (sel : Sel) (k : Nat) : Prop where
  dec : ∀ r, OrderedRec r → (uvreadSelect r sel.clauses = true ↔ SpecSelected r sp)
  beside : Beside sp sel.vis
  empty : sel.clauses = [] ↔ sp = []
  done : sel.init = true → sel.clauses ≠ [] → sel.maxvis = maxvisOf 0 sel.vis
  clear : sel.clauses = [] → sel.maxvis = 0
  stop : sel.init = false → 0 < sel.maxvis → (k : Int) ≤ sel.maxvis

theorem SelOk.inited {sp : List SpecClause} {sel : Sel} {k : Nat} (h : SelOk sp sel k) (k' : Nat) : SelOk sp (initSel sel) k' := by
  unfold initSel
  by_cases hi : sel.init = true
  · rw [if_pos hi]
    exact ⟨h.dec, h.beside, h.empty, h.done, h.clear, by rw [hi]; simp⟩
  · rw [if_neg hi]
    refine ⟨h.dec, h.beside, h.empty, fun _ hne => if_neg hne, fun he => ?_, by simp⟩
    show (if sel.clauses = [] then sel.maxvis else maxvisOf 0 sel.vis) = 0
    rw [if_pos he]
    exact h.clear he

theorem initSel_twice (sel : Sel) : initSel (initSel sel) = initSel sel := by
  unfold initSel
  by_cases hi : sel.init = true
  · rw [if_pos hi, if_pos hi]
  · rw [if_neg hi]
    rfl

section
variable {S : SelEnv} {o : FpOps} {q : Quant} {mode : Ty} {bs : List Block} {s : VisW} {ant : Block → Nat × Nat}
  {f : Nat → Byte} {size nsize : Nat} {r0 : Reader} {sp : List SpecClause}

/-- the next record wanted, or the end -/
inductive Next (S : SelEnv) (o : FpOps) (q : Quant) (mode : Ty) (bs : List Block) (s : VisW) (ant : Block → Nat × Nat)
    (f : Nat → Byte) (size : Nat) (r0 : Reader) (sp : List SpecClause) (k : Nat) (sel : Sel) (mark : Nat) : SRead → Prop
  /-- the first record wanted, from `k` on -/
  | found (j : Nat) (b : Block) (st : SelR) (out : Out) (hj : k ≤ j) (hb : bs[j]? = some b) (hw : Want S s ant sp b j)
      (hskip : ∀ i b', k ≤ i → i < j → bs[i]? = some b' → ¬ Want S s ant sp b' i) (hat : At bs s f size r0 (j + 1) st.v)
      (hm : Matches o q mode out b.vis) (hsel : st.sel = initSel sel) (hmark : st.v.r.mark = mark) :
      Next S o q mode bs s ant f size r0 sp k sel mark (.ok st out)
  /-- there is none -/
  | none (st : SelR) (hskip : ∀ i b', k ≤ i → bs[i]? = some b' → ¬ Want S s ant sp b' i) :
      Next S o q mode bs s ant f size r0 sp k sel mark (.eof st)

theorem loop_ok (hw : DataSet o q mode bs s) (hsel : Selectable S o bs s ant) (hf : Holds f size s.w.out)
    (hn : ∀ b ∈ bs, b.vis.flags.length ≤ nsize) (hr0 : AtStart s r0) (hc0 : r0.callno = 0) :
    ∀ (d k fuel : Nat) (st : SelR), k + d = bs.length → d < fuel → At bs s f size r0 k st.v → SelOk sp st.sel k →
      Next S o q mode bs s ant f size r0 sp k st.sel st.v.r.mark (loop S f size nsize fuel st) := by
  intro d
  induction d with
  | zero =>
    intro k fuel st hk hfuel hat hso
    have hend : ∀ i b', k ≤ i → bs[i]? = some b' → ¬ Want S s ant sp b' i := by
      intro i b' hi hb'
      have := (List.getElem?_eq_some_iff.1 hb').1
      omega
    obtain ⟨fuel, rfl⟩ : ∃ g, fuel = g + 1 := ⟨fuel - 1, by omega⟩
    obtain ⟨rk, hrk, hal⟩ := hat.read
    have hkn : k = bs.length := by omega
    obtain ⟨re, hre⟩ := end_all hw.run hw.ok hw.vars hf hr0.vars hr0.offset hr0.maxOffset (r := rk)
      (by rw [hw.recs, ← hkn]; exact hrk)
    have h1 := findCorr_eof hre
    have h2 : Alike st.v.r { rk with mark := rk.callno + 1, copy := false } := ⟨hal.vars, hal.offset, hal.maxOffset, hal.callno⟩
    have h3 := findCorr_alike f size (rk.maxOffset - rk.offset + 1) _ _ h2
    rw [h1] at h3
    unfold loop
    by_cases hmax : 0 < st.sel.maxvis ∧ st.sel.maxvis < st.v.r.callno
    · rw [if_pos hmax]
      exact .none _ hend
    · rw [if_neg hmax, hal.maxOffset, hal.offset]
      cases hfc : findCorr f size (rk.maxOffset - rk.offset + 1) st.v.r with
      | eof r => exact .none _ hend
      | bad => rw [hfc] at h3; exact h3.elim
      | ok r => rw [hfc] at h3; exact h3.elim
  | succ d ih =>
    intro k fuel st hk hfuel hat hso
    obtain ⟨fuel, rfl⟩ : ∃ g, fuel = g + 1 := ⟨fuel - 1, by omega⟩
    obtain ⟨rk, hrk, hal⟩ := hat.read
    have hkl : k < bs.length := by omega
    have hbget : bs[k]? = some bs[k] := List.getElem?_eq_getElem hkl
    generalize bs[k] = b at hbget
    have hcall : st.v.r.callno = k := by
      rw [hal.callno, readN_next_callno hw hf hr0 hat.le hrk]
      omega
    unfold loop
    by_cases hmax : 0 < st.sel.maxvis ∧ st.sel.maxvis < st.v.r.callno
    · rw [if_pos hmax]
      refine .none _ ?_
      intro i b' hi hb' hwant
      rw [hcall] at hmax
      have hinit : st.sel.init = true := by
        cases hx : st.sel.init with
        | true => rfl
        | false => have := hso.stop hx hmax.1; omega
      have hne : st.sel.clauses ≠ [] := by
        intro he
        have := hso.clear he
        omega
      have hmv := hso.done hinit hne
      refine beyond_maxvis hso.beside (fun he => hne (hso.empty.2 he)) (recAt S s (ant b') i) (by omega) ?_ hwant
      show maxvisOf 0 st.sel.vis < ((i + 1 : Nat) : Int)
      omega
    · rw [if_neg hmax, hal.maxOffset, hal.offset]
      obtain ⟨r', m', out, c1, c2, ⟨cv, c3, c3'⟩, c4, c5, c6⟩ := dataset_step hw hf hn hr0 hat.flags hbget hrk
      have h2 : Alike st.v.r { rk with mark := rk.callno + 1, copy := false } := ⟨hal.vars, hal.offset, hal.maxOffset, hal.callno⟩
      have h3 := findCorr_alike f size (rk.maxOffset - rk.offset + 1) _ _ h2
      rw [c2] at h3
      cases hfc : findCorr f size (rk.maxOffset - rk.offset + 1) st.v.r with
      | eof r => rw [hfc] at h3; exact h3.elim
      | bad => rw [hfc] at h3; exact h3.elim
      | ok r =>
        rw [hfc] at h3
        have h3 : Alike r r' := h3
        have hmark := findCorr_mark f size _ _ _ hfc
        have hsee : seeRec S r = some (recAt S s (ant b) k) := by
          rw [seeRec_alike h3]
          exact see_ok hw hsel hf hr0 hc0 hat.flags hbget hrk c1
        have hord : OrderedRec (recAt S s (ant b) k) := by
          have := hsel.ants b (List.mem_of_getElem? hbget)
          show 1 ≤ (ant b).1 + 1 ∧ (ant b).1 + 1 ≤ (ant b).2 + 1 ∧ (ant b).2 + 1 ≤ 2048
          omega
        have hso' := hso.inited (k + 1)
        have hch : ∃ t, chosen S r (initSel st.sel) = some t ∧ (t = true ↔ Want S s ant sp b k) := by
          unfold chosen
          by_cases he : (initSel st.sel).clauses = []
          · rw [if_pos he]
            refine ⟨true, rfl, fun _ => ?_, fun _ => rfl⟩
            have : sp = [] := hso'.empty.1 he
            unfold Want
            rw [this]
            exact trivial
          · rw [if_neg he, hsee]
            exact ⟨_, rfl, hso'.dec _ hord⟩
        obtain ⟨t, ht, hiff⟩ := hch
        simp only [ht]
        cases t with
        | true =>
          simp only
          have hline := readLine_alike h3 c4
          unfold take
          rw [show ({ st.v with r := r } : VisR) = ⟨r, flagPos bs k, st.v.m⟩ by rw [← hat.off], hline]
          exact .found k b _ out (Nat.le_refl _) hbget (hiff.1 rfl) (fun i b' h1 h2 => by omega)
            ⟨hkl, ⟨r', c1, h3⟩, rfl, c5⟩ c6 rfl hmark
        | false =>
          simp only
          have hch : channels r = b.vis.flags.length := by
            rw [channels_alike h3]
            unfold channels
            rw [c3]
            exact c3'
          have hnot : ¬ Want S s ant sp b k := fun hh => by
            have := hiff.2 hh
            simp at this
          have hat' : At bs s f size r0 (k + 1) ⟨r, st.v.flagOff + channels r, st.v.m⟩ :=
            ⟨hkl, ⟨r', c1, h3⟩, by rw [flagPos_succ hbget, hch, hat.off], hat.flags⟩
          have hskip' : ∀ i b', k ≤ i → ¬ (k + 1 ≤ i) → bs[i]? = some b' → ¬ Want S s ant sp b' i := by
            intro i b' h1 h2 h4
            have : i = k := by omega
            subst this
            rw [hbget, Option.some.injEq] at h4
            subst h4
            exact hnot
          have := ih (k + 1) fuel ⟨⟨r, st.v.flagOff + channels r, st.v.m⟩, initSel st.sel⟩ (by omega) (by omega) hat' hso'
          generalize hL : loop S f size nsize fuel ⟨⟨r, st.v.flagOff + channels r, st.v.m⟩, initSel st.sel⟩ = L at this
          cases this with
          | found j b' st' out' g1 g2 g3 g4 g5 g6 g7 g8 =>
            refine .found j b' st' out' (by omega) g2 g3 ?_ g5 g6 (by rw [g7, initSel_twice]) (by rw [g8]; exact hmark)
            intro i b'' h1 h2 h4
            by_cases hi : k + 1 ≤ i
            · exact g4 i b'' hi h2 h4
            · exact hskip' i b'' h1 hi h4
          | none st' g1 =>
            refine .none st' ?_
            intro i b'' h1 h4
            by_cases hi : k + 1 ≤ i
            · exact g1 i b'' hi h4
            · exact hskip' i b'' h1 hi h4

/-- one call of `uvread_c` -/
theorem next_ok (hw : DataSet o q mode bs s) (hsel : Selectable S o bs s ant) (hf : Holds f size s.w.out)
    (hn : ∀ b ∈ bs, b.vis.flags.length ≤ nsize) (hr0 : AtStart s r0) (hc0 : r0.callno = 0) {k : Nat} {st : SelR}
    (hat : At bs s f size r0 k st.v) (hso : SelOk sp st.sel k) :
    Next S o q mode bs s ant f size r0 sp k st.sel (k + 1) (uvreadSel S f size nsize st) := by
  obtain ⟨rk, hrk, hal⟩ := hat.read
  have hcall : st.v.r.callno = k := by
    rw [hal.callno, readN_next_callno hw hf hr0 hat.le hrk]
    omega
  have hroom := room hw hf hr0 hat.le hrk
  have hle := hat.le
  have := loop_ok (nsize := nsize) hw hsel hf hn hr0 hc0 (bs.length - k) k (st.v.r.maxOffset - st.v.r.offset + 1)
    ⟨{ st.v with r := { st.v.r with mark := st.v.r.callno + 1, copy := false } }, st.sel⟩ (by omega)
    (by rw [hal.maxOffset, hal.offset]; omega)
    ⟨hat.le, ⟨rk, hrk, ⟨hal.vars, hal.offset, hal.maxOffset, hal.callno⟩⟩, hat.off, hat.flags⟩ hso
  rw [← hcall] at this ⊢
  exact this

end

end Verif.Mir.UvSel
