import Verif.Mir.Pipe

/-!
# What a call of `uvread_c` does to the variables, for property C51
-/
namespace Verif.Mir.Uv

open Verif.Mir.Hio (Byte)

/-! ## Variables that are not reported as updated keep their values -/

/-- the variables after some scans: `c0` is the number of scans before.  A variable is as it was, or it was read in one of
the scans, and then the flag `copy` of the file tells if it is to be copied. -/
structure Keeps (c0 : Nat) (vs vs' : List RVar) (copy' : Bool) : Prop where
  len : vs'.length = vs.length
  var : ∀ (i : Nat) (v : RVar), vs[i]? = some v → ∃ v', vs'[i]? = some v' ∧ v'.name = v.name ∧ v'.ty = v.ty ∧
    v'.copy = v.copy ∧ (v.buf ≠ none → v'.buf ≠ none) ∧ (v' = v ∨ (c0 < v'.callno ∧ (v.copy = true → copy' = true)))

theorem Keeps.refl (c0 : Nat) (vs : List RVar) (b : Bool) : Keeps c0 vs vs b :=
  ⟨rfl, fun _ v h => ⟨v, h, rfl, rfl, rfl, id, Or.inl rfl⟩⟩

theorem Keeps.trans {c0 c1 : Nat} {a b c : List RVar} {p q : Bool} (h1 : Keeps c0 a b p) (h2 : Keeps c1 b c q)
    (hc : c0 ≤ c1) (hpq : p = true → q = true) : Keeps c0 a c q := by
  refine ⟨h2.len.trans h1.len, fun i v hv => ?_⟩
  obtain ⟨v1, g1, g2, g3, g4, gb, g5⟩ := h1.var i v hv
  obtain ⟨v2, k1, k2, k3, k4, kb, k5⟩ := h2.var i v1 g1
  refine ⟨v2, k1, k2.trans g2, k3.trans g3, k4.trans g4, fun h => kb (gb h), ?_⟩
  rcases k5 with rfl | ⟨k5, k6⟩
  · rcases g5 with rfl | ⟨g5, g6⟩
    · exact Or.inl rfl
    · exact Or.inr ⟨g5, fun h => hpq (g6 h)⟩
  · exact Or.inr ⟨by omega, fun h => k6 (by rw [g4]; exact h)⟩

/-- one record of a scan -/
theorem keeps_update (c0 c : Nat) (l : Loop) (i off : Nat) (v v' : RVar) (hc : c0 < c) (hv : l.vars[i]? = some v)
    (h1 : v'.name = v.name) (h2 : v'.ty = v.ty) (h3 : v'.copy = v.copy) (h4 : v'.callno = c)
    (h5 : v.buf ≠ none → v'.buf ≠ none) :
    Keeps c0 l.vars (l.update i off v').vars (l.update i off v').copy := by
  refine ⟨by simp [Loop.update], fun j u hu => ?_⟩
  by_cases hij : i = j
  · subst hij
    rw [hv, Option.some.injEq] at hu
    subst hu
    refine ⟨v', ?_, h1, h2, h3, h5, Or.inr ⟨by omega, fun h => ?_⟩⟩
    · exact List.getElem?_set_self (List.getElem?_eq_some_iff.1 hv).1
    · show (l.copy || v'.copy) = true
      rw [h3, h, Bool.or_true]
  · exact ⟨u, by show (l.vars.set i v')[j]? = _; rw [List.getElem?_set_ne hij]; exact hu, rfl, rfl, rfl, id, Or.inl rfl⟩

theorem size_buf (v : RVar) (c len : Nat) : v.buf ≠ none → (takeSize v c len).buf ≠ none := by
  intro _ h
  simp [takeSize] at h

theorem data_buf (v : RVar) (c : Nat) (bytes : List Byte) : v.buf ≠ none → (takeData v c bytes).buf ≠ none := by
  intro hb h
  simp only [takeData] at h
  split at h
  · exact hb h
  · simp at h

theorem update_copy (l : Loop) (i off : Nat) (v' : RVar) (h : l.copy = true) : (l.update i off v').copy = true := by
  show (l.copy || v'.copy) = true
  rw [h, Bool.true_or]

theorem scanLoop_keeps (f : Nat → Byte) (size : Nat) (r : Reader) (c0 c fuel : Nat) (hc : c0 < c) (l : Loop) (r' : Reader)
    (h : scanLoop f size r c fuel l = .ok r') :
    r'.callno = c ∧ r'.mark = r.mark ∧ r'.maxOffset = r.maxOffset ∧ (l.copy = true → r'.copy = true) ∧
      Keeps c0 l.vars r'.vars r'.copy := by
  induction fuel generalizing l with
  | zero => simp [scanLoop] at h
  | succ fuel ih =>
    rw [scanLoop] at h
    cases hrec : readRec f size r.maxOffset l.vars l.off with
    | eof => rw [hrec] at h; simp at h
    | bad => rw [hrec] at h; simp at h
    | eor =>
      rw [hrec] at h
      simp only [Scan.ok.injEq] at h
      subst h
      exact ⟨rfl, rfl, rfl, id, Keeps.refl _ _ _⟩
    | size i len =>
      rw [hrec] at h
      simp only [applyRec] at h
      cases hv : l.vars[i]? with
      | none => rw [hv] at h; simp at h
      | some v =>
        rw [hv] at h
        simp only [Option.map_some] at h
        obtain ⟨h1, h2, h3, h4, h5⟩ := ih _ h
        exact ⟨h1, h2, h3, fun hl => h4 (update_copy _ _ _ _ hl),
          (keeps_update c0 c l i _ v (takeSize v c len) hc hv rfl rfl rfl rfl (size_buf v c len)).trans h5 (Nat.le_refl _) h4⟩
    | data i bytes =>
      rw [hrec] at h
      simp only [applyRec] at h
      cases hv : l.vars[i]? with
      | none => rw [hv] at h; simp at h
      | some v =>
        rw [hv] at h
        simp only [Option.map_some] at h
        obtain ⟨h1, h2, h3, h4, h5⟩ := ih _ h
        exact ⟨h1, h2, h3, fun hl => h4 (update_copy _ _ _ _ hl),
          (keeps_update c0 c l i _ v (takeData v c bytes) hc hv rfl rfl rfl rfl (data_buf v c bytes)).trans h5 (Nat.le_refl _) h4⟩

theorem findCorr_keeps (f : Nat → Byte) (size fuel : Nat) (r r' : Reader) (h : findCorr f size fuel r = .ok r') :
    r.callno < r'.callno ∧ r'.mark = r.mark ∧ r'.maxOffset = r.maxOffset ∧ (r.copy = true → r'.copy = true) ∧
      Keeps r.callno r.vars r'.vars r'.copy := by
  induction fuel generalizing r with
  | zero => simp [findCorr] at h
  | succ fuel ih =>
    rw [findCorr] at h
    cases hs : scan f size r with
    | eof x => rw [hs] at h; simp at h
    | bad => rw [hs] at h; simp at h
    | ok r1 =>
      rw [hs] at h
      simp only at h
      obtain ⟨h1, h2, h3, h4, h5⟩ := scanLoop_keeps _ _ _ r.callno _ _ (Nat.lt_succ_self _) _ _ hs
      cases hl : rlocvar r1.vars nmCorr with
      | none => rw [hl] at h; simp at h
      | some c =>
        rw [hl] at h
        simp only at h
        by_cases hcc : c.callno = r1.callno
        · rw [if_pos hcc, Scan.ok.injEq] at h
          subst h
          exact ⟨by omega, h2, h3, h4, h5⟩
        · rw [if_neg hcc] at h
          obtain ⟨g1, g2, g3, g4, g5⟩ := ih r1 h
          exact ⟨by omega, g2.trans h2, g3.trans h3, fun x => g4 (h4 x), h5.trans g5 (by omega) g4⟩

/-- what a successful call of `uvread_c` consists of -/
theorem uvread_some {f : Nat → Byte} {size nsize : Nat} {S S' : VisR} {out : Out}
    (h : uvread f size nsize S = .ok S' out) :
    findCorr f size (S.r.maxOffset - S.r.offset + 1) { S.r with mark := S.r.callno + 1, copy := false } = .ok S'.r ∧
    readPreamble S'.r = some (out.u, out.v, out.w, out.time, out.bl) := by
  unfold uvread at h
  cases hf : findCorr f size (S.r.maxOffset - S.r.offset + 1) { S.r with mark := S.r.callno + 1, copy := false } with
  | eof r => rw [hf] at h; simp at h
  | bad => rw [hf] at h; simp at h
  | ok r =>
    rw [hf] at h
    simp only at h
    unfold readLine at h
    cases hl : rlocvar r.vars nmCorr with
    | none => rw [hl] at h; simp at h
    | some c =>
      rw [hl] at h
      simp only at h
      by_cases h0 : c.length / (2 * c.ty.ext) = 0
      · rw [if_pos h0] at h; simp at h
      rw [if_neg h0] at h
      by_cases h1 : nsize < c.length / (2 * c.ty.ext)
      · rw [if_pos h1] at h; simp at h
      rw [if_neg h1] at h
      cases hm : Mask.mkreadFlags S.m S.flagOff (c.length / (2 * c.ty.ext)) with
      | error e => rw [hm] at h; simp at h
      | ok mf =>
        rw [hm] at h
        simp only at h
        cases hd : readCorr r c (c.length / (2 * c.ty.ext)) with
        | none => rw [hd] at h; simp at h
        | some d =>
          cases hp : readPreamble r with
          | none => rw [hd, hp] at h; simp at h
          | some p =>
            rw [hd, hp] at h
            simp only [VRead.ok.injEq] at h
            obtain ⟨rfl, rfl⟩ := h
            exact ⟨rfl, hp⟩

/-- **what `uvread_c` leaves**: a variable has the value it had, or is reported as updated; if it is tracked, `uvcopyvr_c`
will see it -/
theorem uvread_keeps {f : Nat → Byte} {size nsize : Nat} {S S' : VisR} {out : Out}
    (h : uvread f size nsize S = .ok S' out) :
    S'.r.mark = S.r.callno + 1 ∧ S'.r.callno > S.r.callno ∧ Keeps S.r.callno S.r.vars S'.r.vars S'.r.copy := by
  obtain ⟨h1, _⟩ := uvread_some h
  obtain ⟨g1, g2, _, _, g5⟩ := findCorr_keeps _ _ _ _ _ h1
  exact ⟨g2, g1, g5⟩

/-! ## The buffers of the reader -/

/-- a variable of a reader: nothing read yet, or whole elements -/
structure GoodVar (v : RVar) : Prop where
  flen : v.flength = v.length
  whole : v.length % v.ty.ext = 0
  small : v.length < 2 ^ 31
  buf : ∀ b, v.buf = some b → 0 < v.length ∧ b.length = v.length / v.ty.ext * v.ty.mem ∧ (v.ty = .int2 → Fits16 b)

theorem fits_append : ∀ (a b : List Byte), Fits16 a → Fits16 b → Fits16 (a ++ b)
  | [], _, _, hb => hb
  | _ :: _ :: _ :: _ :: rest, b, ha, hb => ⟨ha.1, ha.2.1, fits_append rest b ha.2.2 hb⟩
  | [_], _, ha, _ => ha.elim
  | [_, _], _, ha, _ => ha.elim
  | [_, _, _], _, ha, _ => ha.elim

theorem fits_take : ∀ (n : Nat) (a : List Byte), Fits16 a → Fits16 (a.take (4 * n))
  | 0, _, _ => trivial
  | n + 1, [], _ => by simp [Fits16]
  | n + 1, x :: y :: z :: w :: rest, h => by
    rw [show 4 * (n + 1) = 4 * n + 1 + 1 + 1 + 1 by omega]
    exact ⟨h.1, h.2.1, fits_take n rest h.2.2⟩
  | _ + 1, [_], h => h.elim
  | _ + 1, [_, _], h => h.elim
  | _ + 1, [_, _, _], h => h.elim

theorem fits_sign : ∀ (n : Nat) (a : List Byte), a.length = 2 * n → Fits16 (sign16 a) ∧ (sign16 a).length = 4 * n
  | 0, a, h => by
    have : a = [] := List.length_eq_zero_iff.1 (by omega)
    subst this
    exact ⟨trivial, rfl⟩
  | n + 1, c :: d :: rest, h => by
    simp only [List.length_cons] at h
    obtain ⟨h1, h2⟩ := fits_sign n rest (by omega)
    refine ⟨⟨rfl, rfl, h1⟩, ?_⟩
    simp only [sign16, List.length_cons, h2]
    omega
  | _ + 1, [], h => by simp at h
  | _ + 1, [_], h => by simp at h; omega

theorem resize_length (n : Nat) (b : List Byte) : (resize n b).length = n := by
  unfold resize
  rw [List.length_take, List.length_append, List.length_replicate]
  omega

theorem fits_resize (n : Nat) (b : List Byte) (h : Fits16 b) : Fits16 (resize (4 * n) b) := by
  unfold resize
  exact fits_take n _ (fits_append _ _ h (zeros_fit n))

theorem size_mem (ty : Ty) (len : Nat) (h : len % ty.ext = 0) : len * ty.mem / ty.ext = len / ty.ext * ty.mem := by
  cases ty <;> simp only [Ty.ext, Ty.mem] at h ⊢ <;> omega

theorem good_size {v : RVar} (h : GoodVar v) (c len : Nat) (h0 : 0 < len) (h1 : len % v.ty.ext = 0) (h2 : len < 2 ^ 31) :
    GoodVar (takeSize v c len) := by
  refine ⟨rfl, h1, h2, fun b hb => ?_⟩
  simp only [takeSize, Option.some.injEq] at hb
  subst hb
  refine ⟨h0, ?_, fun hi => ?_⟩
  · rw [resize_length]
    exact size_mem v.ty len h1
  · have hi : v.ty = .int2 := hi
    rw [size_mem _ _ h1, hi]
    rw [hi] at h1
    have h1 : len % 2 = 0 := h1
    show Fits16 (resize (len / 2 * 4) _)
    rw [Nat.mul_comm]
    apply fits_resize
    cases hb : v.buf with
    | none => exact trivial
    | some b => exact (h.buf b hb).2.2 hi

theorem good_data {v : RVar} (h : GoodVar v) (c : Nat) (bytes : List Byte) (hl : bytes.length = v.flength) :
    GoodVar (takeData v c bytes) := by
  refine ⟨h.flen, h.whole, h.small, fun b hb => ?_⟩
  simp only [takeData] at hb
  by_cases h0 : v.flength = 0
  · rw [if_pos h0] at hb
    exact h.buf b hb
  · rw [if_neg h0, Option.some.injEq] at hb
    subst hb
    have hfl := h.flen
    refine ⟨by show 0 < v.length; omega, ?_, fun hi => ?_⟩
    · show (fromFile v.ty bytes).length = v.length / v.ty.ext * v.ty.mem
      have hw := h.whole
      unfold fromFile
      by_cases hi : v.ty = .int2
      · rw [if_pos hi]
        rw [hi] at hw ⊢
        have hw : v.length % 2 = 0 := hw
        rw [(fits_sign (v.length / 2) bytes (by omega)).2]
        show 4 * _ = v.length / 2 * 4
        omega
      · rw [if_neg hi, hl, hfl]
        revert hw hi
        cases v.ty <;> simp only [Ty.ext, Ty.mem] <;> intros <;> first | omega | (rename_i hi; exact absurd trivial hi)
    · have hi : v.ty = .int2 := hi
      have hw := h.whole
      rw [hi] at hw
      have hw : v.length % 2 = 0 := hw
      show Fits16 (fromFile v.ty bytes)
      unfold fromFile
      rw [if_pos hi]
      exact (fits_sign (v.length / 2) bytes (by omega)).1

theorem readRec_good {f : Nat → Byte} {size mo off : Nat} {vars : List RVar} :
    (∀ i len, readRec f size mo vars off = .size i len → ∃ v, vars[i]? = some v ∧ 0 < len ∧ len % v.ty.ext = 0 ∧
      len < 2 ^ 31) ∧
    (∀ i bytes, readRec f size mo vars off = .data i bytes → ∃ v, vars[i]? = some v ∧ bytes.length = v.flength) := by
  unfold readRec
  by_cases c1 : mo ≤ off
  · rw [if_pos c1]; simp
  rw [if_neg c1]
  by_cases c2 : size < off + HDR
  · rw [if_pos c2]; simp
  rw [if_neg c2]
  by_cases c3 : f (off + 2) = 2
  · rw [if_pos c3]; simp
  rw [if_neg c3]
  cases hv : recVar vars (f off) with
  | none => simp
  | some v =>
    have hin : vars[(f off).toNat]? = some v := by
      unfold recVar at hv
      by_cases c : 128 ≤ (f off).toNat
      · rw [if_pos c] at hv; simp at hv
      · rw [if_neg c] at hv; exact hv
    simp only
    by_cases c4 : f (off + 2) = 0
    · rw [if_pos c4]
      unfold readSize
      cases hb : readBytes f size (off + HDR) 4 with
      | none => simp
      | some bytes =>
        simp only
        unfold checkSize
        by_cases d1 : ofBe32 bytes = 0
        · rw [if_pos d1]; simp
        rw [if_neg d1]
        by_cases d2 : 0x80000000 ≤ ofBe32 bytes
        · rw [if_pos d2]; simp
        rw [if_neg d2]
        by_cases d3 : ofBe32 bytes % v.ty.ext ≠ 0
        · rw [if_pos d3]; simp
        rw [if_neg d3]
        refine ⟨fun i len h => ?_, fun i bytes h => by simp at h⟩
        simp only [Rec.size.injEq] at h
        obtain ⟨rfl, rfl⟩ := h
        exact ⟨v, hin, by omega, by omega, by omega⟩
    · rw [if_neg c4]
      by_cases c5 : f (off + 2) = 1
      · rw [if_pos c5]
        unfold readData
        cases hb : readBytes f size (off + roundup HDR v.ty.ext) v.flength with
        | none => simp
        | some bytes =>
          refine ⟨fun i len h => by simp at h, fun i bytes' h => ?_⟩
          simp only [Rec.data.injEq] at h
          obtain ⟨rfl, rfl⟩ := h
          refine ⟨v, hin, ?_⟩
          unfold readBytes at hb
          split at hb
          · simp at hb
          · rw [Option.some.injEq] at hb
            rw [← hb]
            simp
      · rw [if_neg c5]; simp

def AllGood (vs : List RVar) : Prop := ∀ v ∈ vs, GoodVar v

theorem good_set {vs : List RVar} (h : AllGood vs) (i : Nat) (v' : RVar) (hv : GoodVar v') : AllGood (vs.set i v') := by
  intro u hu
  rcases List.mem_or_eq_of_mem_set hu with hu | rfl
  · exact h u hu
  · exact hv

theorem scanLoop_good (f : Nat → Byte) (size : Nat) (r : Reader) (c fuel : Nat) (l : Loop) (r' : Reader)
    (h : scanLoop f size r c fuel l = .ok r') (hg : AllGood l.vars) : AllGood r'.vars := by
  induction fuel generalizing l with
  | zero => simp [scanLoop] at h
  | succ fuel ih =>
    rw [scanLoop] at h
    have hrg := readRec_good (f := f) (size := size) (mo := r.maxOffset) (off := l.off) (vars := l.vars)
    cases hrec : readRec f size r.maxOffset l.vars l.off with
    | eof => rw [hrec] at h; simp at h
    | bad => rw [hrec] at h; simp at h
    | eor =>
      rw [hrec] at h
      simp only [Scan.ok.injEq] at h
      subst h
      exact hg
    | size i len =>
      obtain ⟨v, hv, g1, g2, g3⟩ := hrg.1 i len hrec
      rw [hrec] at h
      simp only [applyRec, hv, Option.map_some] at h
      exact ih _ h (good_set hg i _ (good_size (hg v (List.mem_of_getElem? hv)) c len g1 g2 g3))
    | data i bytes =>
      obtain ⟨v, hv, g1⟩ := hrg.2 i bytes hrec
      rw [hrec] at h
      simp only [applyRec, hv, Option.map_some] at h
      exact ih _ h (good_set hg i _ (good_data (hg v (List.mem_of_getElem? hv)) c bytes g1))

theorem findCorr_good (f : Nat → Byte) (size fuel : Nat) (r r' : Reader) (h : findCorr f size fuel r = .ok r')
    (hg : AllGood r.vars) : AllGood r'.vars := by
  induction fuel generalizing r with
  | zero => simp [findCorr] at h
  | succ fuel ih =>
    rw [findCorr] at h
    cases hs : scan f size r with
    | eof x => rw [hs] at h; simp at h
    | bad => rw [hs] at h; simp at h
    | ok r1 =>
      rw [hs] at h
      simp only at h
      have h1 := scanLoop_good _ _ _ _ _ _ _ hs hg
      cases hl : rlocvar r1.vars nmCorr with
      | none => rw [hl] at h; simp at h
      | some c =>
        rw [hl] at h
        simp only at h
        by_cases hcc : c.callno = r1.callno
        · rw [if_pos hcc, Scan.ok.injEq] at h
          subst h
          exact h1
        · rw [if_neg hcc] at h
          exact ih r1 h h1

theorem uvread_good {f : Nat → Byte} {size nsize : Nat} {S S' : VisR} {out : Out}
    (h : uvread f size nsize S = .ok S' out) (hg : AllGood S.r.vars) : AllGood S'.r.vars :=
  findCorr_good _ _ _ _ _ (uvread_some h).1 hg

/-- what matters of a record that was read for what is done with it: the variables that are not reported as updated keep
their values, and the preamble is that of the variables -/
structure Step (S S1 : VisR) (out : Out) : Prop where
  mark : S1.r.mark = S.r.callno + 1
  callno : S.r.callno < S1.r.callno
  keeps : Keeps S.r.callno S.r.vars S1.r.vars S1.r.copy
  good : AllGood S.r.vars → AllGood S1.r.vars
  pre : readPreamble S1.r = some (out.u, out.v, out.w, out.time, out.bl)

theorem uvread_step {f : Nat → Byte} {size nsize : Nat} {S S' : VisR} {out : Out}
    (h : uvread f size nsize S = .ok S' out) : Step S S' out :=
  ⟨(uvread_keeps h).1, (uvread_keeps h).2.1, (uvread_keeps h).2.2, uvread_good h, (uvread_some h).2⟩

theorem open_good (t : List (Name × Ty)) (n : Nat) : AllGood (openReader t n).vars := by
  intro v hv
  obtain ⟨p, _, rfl⟩ := List.mem_map.1 hv
  exact ⟨rfl, Nat.zero_mod _, (by show 0 < 2 ^ 31; decide), fun b hb => by simp at hb⟩

theorem rewind_good {r : Reader} (h : AllGood r.vars) : AllGood (rewind r).vars := by
  intro v hv
  obtain ⟨u, hu, rfl⟩ := List.mem_map.1 hv
  have := h u hu
  exact ⟨this.flen, this.whole, this.small, this.buf⟩

theorem track_good {r : Reader} (h : AllGood r.vars) (ks : List Name) : AllGood (track r ks).vars := by
  intro v hv
  obtain ⟨u, hu, rfl⟩ := List.mem_map.1 hv
  have := h u hu
  split
  · exact ⟨this.flen, this.whole, this.small, this.buf⟩
  · exact this

end Verif.Mir.Uv
