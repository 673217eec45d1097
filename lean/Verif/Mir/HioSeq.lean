import Verif.Mir.HioProps

/-!
# Sessions with elements of different sizes (C45)

The histories of `Verif.Mir.HioProps` keep to one alignment.  The header items and the stream of UV variables do not:
a tag of four bytes is followed by elements of eight.  Here it is shown that a session that only writes, or only reads,
loses no element as long as every access starts at a multiple of eight or where the previous one ended: it does what
the same session would do byte by byte.
-/
namespace Verif.Mir.Hio

/-! ## The specification -/

/-- writes: elements of size `s`, each starting at a multiple of eight or at `pos`, where the previous one ended -/
def WSeq : Nat → Flat → List Op → Prop
  | _, _, [] => True
  | pos, F, .write g s o data :: os => s ∣ 8 ∧ s ∣ o ∧ s ∣ data.length ∧ (8 ∣ o ∨ o = pos) ∧
      OpOk 1 F (.write g 1 o data) ∧ WSeq (o + data.length) (F.step (.write g s o data)) os
  | _, _, .read _ _ _ _ :: _ => False
  | _, _, .reopen _ :: _ => False

/-- the same operation byte by byte -/
def byByte : Op → Op
  | .write g _ o data => .write g 1 o data
  | .read g _ o n => .read g 1 o n
  | .reopen g => .reopen g

/-! ## Writes -/

theorem store_whole (it : Item) {s n : Nat} (o : Nat) (d : Nat → Byte) (h : s ∣ n) :
    store it s o d n = store it 1 o d n := by
  unfold store
  have h1 : n / s * s = n := by rw [Nat.mul_comm]; exact Nat.mul_div_cancel' h
  have h2 : n / 1 * 1 = n := by omega
  rw [h1, h2]

theorem dvd_of8 {s a : Nat} (hs : s ∣ 8) (h : a % 8 = 0) : s ∣ a := Nat.dvd_trans hs (Nat.dvd_of_mod_eq_zero h)

/-- one turn of the loop, for an item with a file -/
theorem writePass_whole {s : Nat} (hs : s ∣ 8) (it : Item) (F : Flat) (h : FInv 1 it F) (o : Nat) (data : List Byte)
    (hoff : it.off % 8 = 0) (ho : s ∣ o) (hdl : s ∣ data.length) (hpos : 0 < data.length)
    (hal : o % 8 = 0 ∨ within it o true) (hb : F.size ≤ 2 ^ 31) (hlt : o < 2 ^ 31) :
    writePass it s o data = writePass it 1 o data ∧
      ∀ it' n, writePass it 1 o data = .ok (it', n) → it'.off % 8 = 0 ∧ 0 < it'.len ∧ s ∣ n ∧ 0 < n ∧
        n ≤ data.length ∧ it'.off ≤ o ∧ o + n ≤ it'.off + it'.len ∧ (n = data.length ∨ (o + n) % 8 = 0) := by
  obtain ⟨it1, e1, i1, a1, a2⟩ := locate_write (by decide) it F h (by rw [h.size]; exact hb) o (Nat.one_dvd _)
  have off1 : it1.off % 8 = 0 := by
    unfold locate at e1
    by_cases hw : within it o true
    · rw [if_pos hw] at e1
      cases e1
      exact hoff
    · rw [if_neg hw] at e1
      have ho8 : o % 8 = 0 := hal.resolve_right hw
      unfold miss at e1
      split at e1
      · cases e1
      · rw [if_pos rfl] at e1
        cases e1
        show o / 2 * 2 % 8 = 0
        omega
  obtain ⟨it2, e2, i2, b1, b2⟩ := fillGap_inv (by decide) it1 F i1 o (Nat.one_dvd _) a1 a2 hlt
  have hbs := i2.bsize
  have hlb := i2.lenb
  have off2 : it2.off % 8 = 0 := by rw [b1]; exact off1
  have hle : it2.off ≤ o := by omega
  have hlt2 : o < it2.off + 16384 := by omega
  generalize hL : max it2.len (min (data.length + o - it2.off) it2.bsize) = L
  have e3 : extend it2 o data.length = { it2 with modified := true, len := L, size := max it2.size (it2.off + L) } := by
    rw [← hL]; rfl
  have hn : chunk (extend it2 o data.length) o data.length = min data.length (L - (o - it2.off)) := by
    rw [e3]; rfl
  generalize hN : chunk (extend it2 o data.length) o data.length = N at hn
  have hN1 : 0 < N ∧ N ≤ data.length ∧ o + N ≤ it2.off + L := by omega
  have hN2 : N = data.length ∨ o + N = it2.off + 16384 := by omega
  have hsN : s ∣ N := by
    rcases hN2 with h | h
    · rw [h]; exact hdl
    · have h1 : s ∣ o + N := by
        rw [h]; exact dvd_of8 hs (by omega)
      exact (Nat.dvd_add_right ho).mp h1
  have hexp : ∀ s', writePass it s' o data = .ok (store (extend it2 o data.length) s' o (fun k => data.getD k 0) N, N) := by
    intro s'
    unfold writePass
    rw [e1]
    simp only
    rw [e2]
    simp only
    rw [hN]
  refine ⟨?_, ?_⟩
  · rw [hexp, hexp, store_whole _ _ _ hsN]
  · intro it' n hh
    rw [hexp] at hh
    simp only [Except.ok.injEq, Prod.mk.injEq] at hh
    obtain ⟨rfl, rfl⟩ := hh
    rw [e3]
    refine ⟨off2, ?_, hsN, hN1.1, hN1.2.1, hle, hN1.2.2, ?_⟩
    · show 0 < L
      omega
    · rcases hN2 with h | h
      · exact Or.inl h
      · right; omega

/-- where a session is: the buffer starts at a multiple of eight, and so does the next access, unless it continues what
is in the buffer -/
def At (it : Item) (pos : Nat) : Prop :=
  it.off % 8 = 0 ∧ (pos % 8 = 0 ∨ (0 < it.len ∧ it.off ≤ pos ∧ pos ≤ it.off + it.len))

theorem writeLoop_whole {s : Nat} (hs : s ∣ 8) : ∀ (fuel : Nat) (it : Item) (F : Flat) (o : Nat) (data : List Byte),
    FInv 1 it F → it.off % 8 = 0 → s ∣ o → s ∣ data.length → data ≠ [] → (o % 8 = 0 ∨ within it o true) →
    data.length ≤ fuel → F.size ≤ 2 ^ 31 → o + data.length ≤ 2 ^ 31 →
    writeLoop fuel it s o data = writeLoop fuel it 1 o data ∧
      ∀ it', writeLoop fuel it 1 o data = .ok it' → At it' (o + data.length)
  | fuel, it, F, o, [], _, _, _, _, hne, _, _, _, _ => absurd rfl hne
  | 0, _, _, _, _ :: _, _, _, _, _, _, _, hf, _, _ => by simp at hf
  | fuel + 1, it, F, o, b :: data, h, hoff, ho, hdl, hne, hal, hf, hb, hlt => by
    have hlen : (b :: data).length = data.length + 1 := rfl
    obtain ⟨w1, w2⟩ := writePass_whole hs it F h o (b :: data) hoff ho hdl (by simp) hal hb (by omega)
    obtain ⟨it1, n, e, n0, n1, dn, i⟩ := writePass_inv (S := 1) (s := 1) (by decide) (by decide) it F h o (b :: data)
      (Nat.one_dvd _) (Nat.one_dvd _) (by simp) hb (by omega)
    obtain ⟨c1, c2, c3, c4, c5, c6, c7, c8⟩ := w2 it1 n e
    have u1 : writeLoop (fuel + 1) it s o (b :: data) = writeLoop fuel it1 s (o + n) ((b :: data).drop n) := by
      rw [writeLoop, w1, e]
    have u2 : writeLoop (fuel + 1) it 1 o (b :: data) = writeLoop fuel it1 1 (o + n) ((b :: data).drop n) := by
      rw [writeLoop, e]
    rw [u1, u2]
    by_cases hlast : (b :: data).drop n = []
    · have hn : n = (b :: data).length := by
        have := List.length_drop (i := n) (l := b :: data)
        rw [hlast, List.length_nil] at this
        omega
      rw [hlast]
      have v : ∀ s', writeLoop fuel it1 s' (o + n) [] = .ok it1 := by intro s'; cases fuel <;> rfl
      rw [v, v]
      refine ⟨rfl, ?_⟩
      intro it' hh
      cases hh
      refine ⟨c1, Or.inr ⟨c2, ?_, ?_⟩⟩ <;> omega
    · have hdr : ((b :: data).drop n).length = (b :: data).length - n := List.length_drop
      have h8 : (o + n) % 8 = 0 := by
        rcases c8 with h | h
        · exact absurd (List.drop_eq_nil_of_le (by omega)) hlast
        · exact h
      have := writeLoop_whole hs fuel it1 (F.write o ((b :: data).take n)) (o + n) ((b :: data).drop n) i c1
        (dvd_of8 hs h8) (by rw [hdr]; exact Nat.dvd_sub hdl c3) hlast (Or.inl h8) (by omega)
        (by
          show max F.size (o + ((b :: data).take n).length) ≤ 2 ^ 31
          rw [List.length_take]; omega)
        (by omega)
      rw [show o + n + ((b :: data).drop n).length = o + (b :: data).length by omega] at this
      exact this

theorem at_within {it : Item} {pos : Nat} (h : At it pos) (hl : it.len ≤ it.bsize) (hb : it.bsize = 16384) :
    pos % 8 = 0 ∨ within it pos true := by
  obtain ⟨h1, h2⟩ := h
  rcases h2 with h2 | ⟨h2, h3, h4⟩
  · exact Or.inl h2
  · by_cases hc : pos < it.off + 16384
    · right
      unfold within
      rw [if_pos rfl, hb]
      exact ⟨h2, h3, hc⟩
    · left
      omega

theorem hwrite_whole {s : Nat} (hs : s ∣ 8) (it : Item) (F : Flat) (h : Inv 1 it F) (pos : Nat) (hat : At it pos)
    (g : Nat → Byte) (o : Nat) (data : List Byte) (ho : s ∣ o) (hdl : s ∣ data.length) (hal : 8 ∣ o ∨ o = pos)
    (hok : OpOk 1 F (.write g 1 o data)) :
    hwrite it g s o data = hwrite it g 1 o data ∧
      ∀ it', hwrite it g 1 o data = .ok it' → At it' (o + data.length) := by
  obtain ⟨_, _, _, hne, hle, hsm⟩ := hok
  obtain ⟨hF, hI⟩ := h
  have hpos : 0 < data.length := List.length_pos_iff.mpr hne
  have hato : At it o := by
    rcases hal with h | h
    · exact ⟨hat.1, Or.inl (by omega)⟩
    · rw [h]; exact hat
  have hcons : ∃ b rest, data = b :: rest := by
    cases data with
    | nil => exact absurd rfl hne
    | cons b rest => exact ⟨b, rest, rfl⟩
  obtain ⟨b0, rest, hcons⟩ := hcons
  cases hbig : F.big with
  | true =>
    rw [hbig, if_pos rfl] at hI
    have hp : prepare it (o + data.length) g = it := by
      unfold prepare
      rw [if_neg (by have := hI.bsize; show ¬(it.bsize < 16384 ∧ _); omega)]
    unfold hwrite
    rw [hp]
    have hlb := hI.lenb
    have hbs := hI.bsize
    exact writeLoop_whole hs data.length it F o data hI hat.1 ho hdl hne (at_within hato (by omega) hbs) (Nat.le_refl _)
      hF hle
  | false =>
    rw [hbig, if_neg (by decide)] at hI
    have hoF : o ≤ F.size ∨ (0 < F.size ∧ o < 16384) := by
      rcases hsm with h' | h'
      · rw [hbig] at h'; exact Bool.noConfusion h'
      · exact h'
    have h64 := hI.b64
    have hlb := hI.lb
    have hlen := hI.len
    have hsz := hI.size
    have hoff := hI.off
    by_cases hbigger : 64 < o + data.length
    · have hp : prepare it (o + data.length) g =
          { it with bsize := 16384, buf := copy it.buf 0 g 0 it.len, fd := true, size := 0, fsize := 0 } := by
        unfold prepare checkBuf
        rw [if_pos (by show it.bsize < 16384 ∧ _; omega)]
        simp only
        have c1 : ¬(it.bsize < o + data.length ∧ o + data.length ≤ CACHESIZE) := by unfold CACHESIZE; omega
        have c2 : it.bsize ≤ CACHESIZE ∧ CACHESIZE < o + data.length := by unfold CACHESIZE; omega
        simp only [if_neg c1, if_pos c2]
        rw [if_pos ⟨hI.fd, by decide, hI.nc⟩]
      have hgi := grow_inv it F hI (copy it.buf 0 g 0 it.len) (fun k hk => by
        rw [copy_in _ _ _ (by omega)]; congr 1; omega)
      have heq : ∀ s', hwrite it g s' o data = writeLoop data.length
          { it with bsize := 16384, buf := copy it.buf 0 g 0 it.len, fd := true, size := it.len, fsize := 0, modified := decide (0 < it.len) } s' o data := by
        intro s'
        unfold hwrite
        rw [hp]
        subst hcons
        rw [List.length_cons, writeLoop, writeLoop, grow_pass it F hI o (b0 :: rest) hoF]
      rw [heq, heq]
      refine writeLoop_whole hs data.length _ F o data hgi hat.1 ho hdl hne ?_ (Nat.le_refl _) hF hle
      rcases hato.2 with h' | ⟨h1, h2, h3⟩
      · exact Or.inl h'
      · right
        unfold within
        rw [if_pos rfl]
        show 0 < it.len ∧ it.off ≤ o ∧ o < it.off + 16384
        omega
    · have hp : ∃ it1, prepare it (o + data.length) g = it1 ∧ MInv 1 it1 F ∧ o + data.length ≤ it1.bsize := by
        unfold prepare checkBuf
        by_cases hc : it.bsize < BUFSIZE ∧ it.bsize < o + data.length
        · rw [if_pos hc]
          simp only
          have c1 : it.bsize < o + data.length ∧ o + data.length ≤ CACHESIZE := by unfold CACHESIZE; omega
          simp only [if_pos c1]
          rw [if_neg (fun c => absurd c.2.1 (by decide))]
          refine ⟨_, rfl, ⟨hI.fd, hI.nc, hI.off, hI.len, ?_, Nat.le_refl _, hI.dLen, hI.mlen, hI.size, hI.lt, ?_⟩, ?_⟩
          · show it.len ≤ 64
            omega
          · intro p b hp
            have := hI.lt p b hp
            show copy it.buf 0 g 0 it.len p = b
            rw [copy_in _ _ _ (by omega), show 0 + (p - 0) = p by omega]
            exact hI.inbuf p b hp
          · show o + data.length ≤ 64
            omega
        · rw [if_neg hc]
          refine ⟨it, rfl, hI, ?_⟩
          have : it.bsize < BUFSIZE := by show it.bsize < 16384; omega
          omega
      obtain ⟨it1, ep, i1, fit⟩ := hp
      obtain ⟨it2, e2, i2⟩ := memPass (S := 1) (s := 1) (by decide) it1 F i1 o data (Nat.one_dvd _) (Nat.one_dvd _) hpos
        (hoF.imp_right And.left) fit
      have es : writePass it1 s o data = writePass it1 1 o data := by
        have e2' := e2
        unfold writePass at e2' ⊢
        cases hl : locate it1 o true with
        | error e => rfl
        | ok a =>
          rw [hl] at e2'
          simp only at e2' ⊢
          cases hg : fillGap a o with
          | error e => rfl
          | ok a2 =>
            rw [hg] at e2'
            simp only [Except.ok.injEq, Prod.mk.injEq] at e2' ⊢
            rw [e2'.2, store_whole _ _ _ hdl]
            exact ⟨rfl, trivial⟩
      have heq : ∀ s', writePass it1 s' o data = .ok (it2, data.length) → hwrite it g s' o data = .ok it2 := by
        intro s' hh
        unfold hwrite
        rw [ep]
        subst hcons
        rw [List.length_cons, writeLoop, hh]
        simp only
        rw [List.drop_length]
        cases rest.length <;> rfl
      rw [heq s (es.trans e2), heq 1 e2]
      refine ⟨rfl, ?_⟩
      intro it' hh
      cases hh
      have j1 := i2.off
      have j2 := i2.len
      have j3 : it2.size = max F.size (o + data.length) := i2.size
      refine ⟨by omega, Or.inr ⟨by omega, by omega, by omega⟩⟩

/-- a session that writes does what it would do byte by byte -/
theorem run_byByte : ∀ (ops : List Op) (it : Item) (F : Flat) (pos : Nat), Inv 1 it F → At it pos → WSeq pos F ops →
    run it ops = run it (ops.map byByte) ∧ OpsOk 1 F (ops.map byByte) ∧
      (ops.map byByte).foldl Flat.step F = ops.foldl Flat.step F
  | [], _, _, _, _, _, _ => ⟨rfl, trivial, rfl⟩
  | .write g s o data :: os, it, F, pos, h, hat, ⟨h1, h2, h3, h4, h5, h6⟩ => by
    obtain ⟨w1, w2⟩ := hwrite_whole h1 it F h pos hat g o data h2 h3 h4 h5
    obtain ⟨it1, e1, i1⟩ := hwrite_inv (by decide) it F h g 1 o data h5
    obtain ⟨r1, r2, r3⟩ := run_byByte os it1 (F.step (.write g s o data)) (o + data.length) i1 (w2 it1 e1) h6
    refine ⟨?_, ⟨h5, r2⟩, r3⟩
    have s1 : step it (.write g s o data) = .ok it1 := w1.trans e1
    have s2 : step it (byByte (.write g s o data)) = .ok it1 := e1
    rw [List.map_cons, run, run, s1, s2]
    exact r1
  | .read _ _ _ _ :: _, _, _, _, _, _, h => h.elim
  | .reopen _ :: _, _, _, _, _, _, h => h.elim

theorem wseq_noReopen : ∀ (ops : List Op) (F : Flat) (pos : Nat), WSeq pos F ops →
    ∀ x ∈ ops, ∃ g s o data, x = .write g s o data
  | [], _, _, _ => fun x hx => by cases hx
  | .write g s o data :: os, F, _, h => fun x hx => by
    rcases List.mem_cons.mp hx with rfl | hx
    · exact ⟨g, s, o, data, rfl⟩
    · exact wseq_noReopen os _ _ h.2.2.2.2.2 x hx
  | .read _ _ _ _ :: _, _, _, h => h.elim
  | .reopen _ :: _, _, _, h => h.elim

/-! ## Reads -/

/-- where a session that reads is: what is in the buffer reaches to the end of the item or fills the buffer -/
def RAt (it : Item) (pos : Nat) : Prop :=
  At it pos ∧ (it.len = 0 ∨ it.len = 16384 ∨ it.off + it.len = it.size)

theorem fetch_whole (it : Item) {s n : Nat} (o : Nat) (h : s ∣ n) : fetch it s o n = fetch it 1 o n := by
  unfold fetch
  have h1 : n / s * s = n := by rw [Nat.mul_comm]; exact Nat.mul_div_cancel' h
  have h2 : n / 1 * 1 = n := by omega
  rw [h1, h2]

theorem readLoop_whole {s : Nat} (hs : s ∣ 8) : ∀ (fuel : Nat) (it : Item) (F : Flat) (o n : Nat), FInv 1 it F →
    RAt it o → s ∣ o → s ∣ n → 0 < n → n ≤ fuel → o + n ≤ F.size → F.size ≤ 2 ^ 31 →
    readLoop fuel it s o n = readLoop fuel it 1 o n ∧
      ∀ it' r, readLoop fuel it 1 o n = .ok (it', r) → RAt it' (o + n)
  | _, _, _, _, 0, _, _, _, _, h0, _, _, _ => absurd h0 (by decide)
  | 0, _, _, _, n + 1, _, _, _, _, _, hf, _, _ => by omega
  | fuel + 1, it, F, o, n + 1, h, hat, ho, hn, _, hf, hle, hb => by
    have hsz := h.size
    have hlb := h.lenb
    have hloc : ∃ it1, locate it o false = .ok it1 ∧ FInv 1 it1 F ∧ it1.off ≤ o ∧ o < it1.off + it1.len ∧
        it1.off % 8 = 0 ∧ (it1.len = 16384 ∨ it1.off + it1.len = it1.size) := by
      unfold locate
      by_cases hw : within it o false
      · rw [if_pos hw]
        unfold within at hw
        rw [if_neg (by decide)] at hw
        refine ⟨it, rfl, h, hw.2.1, hw.2.2, hat.1.1, ?_⟩
        rcases hat.2 with h' | h'
        · omega
        · exact h'
      · rw [if_neg hw]
        obtain ⟨it1, e, i, a, a', a''⟩ := miss_read (by decide) it F h (by rw [h.size]; exact hb) o (Nat.one_dvd _)
          (by rw [h.size]; omega)
        have hw' : ¬(0 < it.len ∧ it.off ≤ o ∧ o < it.off + it.len) := by
          unfold within at hw
          rw [if_neg (by decide)] at hw
          exact hw
        have h8 : o % 8 = 0 := by
          rcases hat.1.2 with h' | ⟨h1, h2, h3⟩
          · exact h'
          · have hend : o = it.off + it.len := by omega
            have := hat.1.1
            rcases hat.2 with h' | h' | h'
            · omega
            · omega
            · omega
        have hoff : it1.off = o / 2 * 2 := by
          unfold miss at e
          split at e
          · cases e
          · rw [if_neg (by decide)] at e
            simp only at e
            split at e
            · cases e
            · cases e; rfl
        exact ⟨it1, e, i, a, a', by omega, a''.symm⟩
    obtain ⟨it1, e1, i1, o1, o2, o3, o4⟩ := hloc
    have hsz1 := i1.size
    have hm : chunk it1 o (n + 1) = min (n + 1) (it1.len - (o - it1.off)) := rfl
    generalize hM : chunk it1 o (n + 1) = m at hm
    have hm2 : m = n + 1 ∨ (o + m) % 8 = 0 := by
      rcases o4 with h' | h' <;> omega
    have hsm : s ∣ m := by
      rcases hm2 with h' | h'
      · rw [h']; exact hn
      · exact (Nat.dvd_add_right ho).mp (dvd_of8 hs h')
    have hexp : ∀ s', readLoop (fuel + 1) it s' o (n + 1) =
        (match readLoop fuel it1 s' (o + m) (n + 1 - m) with
        | .error e => .error e
        | .ok (it2, r) => .ok (it2, fetch it1 s' o m ++ r)) := by
      intro s'
      rw [readLoop, e1]
      simp only
      rw [hM]
      rfl
    rw [hexp, hexp, fetch_whole it1 o hsm]
    by_cases hlast : n + 1 - m = 0
    · rw [hlast]
      have v : ∀ s', readLoop fuel it1 s' (o + m) 0 = .ok (it1, []) := by intro s'; cases fuel <;> rfl
      rw [v, v]
      refine ⟨rfl, ?_⟩
      intro it' r hh
      simp only [Except.ok.injEq, Prod.mk.injEq] at hh
      obtain ⟨rfl, -⟩ := hh
      exact ⟨⟨o3, Or.inr ⟨by omega, by omega, by omega⟩⟩, Or.inr o4⟩
    · have h8 : (o + m) % 8 = 0 := by omega
      obtain ⟨r1, r2⟩ := readLoop_whole hs fuel it1 F (o + m) (n + 1 - m) i1 ⟨⟨o3, Or.inl h8⟩, Or.inr o4⟩
        (dvd_of8 hs h8) (Nat.dvd_sub hn hsm) (by omega) (by omega) (by omega) hb
      rw [r1]
      refine ⟨rfl, ?_⟩
      intro it' r hh
      split at hh
      · cases hh
      · rename_i it2 r2' e2
        simp only [Except.ok.injEq, Prod.mk.injEq] at hh
        obtain ⟨rfl, -⟩ := hh
        have := r2 it2 r2' e2
        rw [show o + m + (n + 1 - m) = o + (n + 1) by omega] at this
        exact this

theorem hread_whole {s : Nat} (hs : s ∣ 8) (it : Item) (F : Flat) (h : Inv 1 it F) (pos : Nat) (hat : RAt it pos)
    (g : Nat → Byte) (o n : Nat) (ho : s ∣ o) (hn : s ∣ n) (hpos : 0 < n) (hal : 8 ∣ o ∨ o = pos)
    (hle : o + n ≤ F.size) :
    hread it g s o n = hread it g 1 o n ∧ ∀ it' r, hread it g 1 o n = .ok (it', r) → RAt it' (o + n) := by
  obtain ⟨hF, hI⟩ := h
  have hato : RAt it o := by
    rcases hal with h | h
    · exact ⟨⟨hat.1.1, Or.inl (by omega)⟩, hat.2⟩
    · rw [h]; exact hat
  cases hbig : F.big with
  | true =>
    rw [hbig, if_pos rfl] at hI
    have hp : prepare it (o + n) g = it := by
      unfold prepare
      rw [if_neg (by have := hI.bsize; show ¬(it.bsize < 16384 ∧ _); omega)]
    have hsz := hI.size
    unfold hread
    rw [if_neg (by omega), if_neg (by omega), hp]
    exact readLoop_whole hs n it F o n hI hato ho hn hpos (Nat.le_refl _) hle hF
  | false =>
    rw [hbig, if_neg (by decide)] at hI
    have hlb := hI.lb
    have hl := hI.len
    have hsz := hI.size
    have hoff := hI.off
    have hp : prepare it (o + n) g = it := by
      unfold prepare
      rw [if_neg (by omega)]
    unfold hread
    rw [if_neg (by omega), if_neg (by omega), hp]
    cases n with
    | zero => exact absurd hpos (by decide)
    | succ n =>
      have hloc : locate it o false = .ok it := by
        unfold locate
        rw [if_pos]
        unfold within
        rw [if_neg (by decide)]
        omega
      have hch : chunk it o (n + 1) = n + 1 := by unfold chunk; omega
      have v : ∀ s', readLoop n it s' (o + (n + 1)) 0 = .ok (it, []) := by intro s'; cases n <;> rfl
      have hexp : ∀ s', readLoop (n + 1) it s' o (n + 1) = .ok (it, fetch it s' o (n + 1) ++ []) := by
        intro s'
        rw [readLoop, hloc]
        simp only
        rw [hch, Nat.sub_self, v]
      rw [hexp, hexp, fetch_whole it o hn]
      refine ⟨rfl, ?_⟩
      intro it' r hh
      simp only [Except.ok.injEq, Prod.mk.injEq] at hh
      obtain ⟨rfl, -⟩ := hh
      exact ⟨⟨by omega, Or.inr ⟨by omega, by omega, by omega⟩⟩, Or.inr (Or.inr (by omega))⟩

/-! ## C45 -/

/-- a session that reads: every access transfers all the bytes asked for -/
def reads : Item → (Nat → Byte) → List (Nat × Nat × Nat) → Except Err (Item × List (List (Option Byte)))
  | it, _, [] => .ok (it, [])
  | it, g, (s, o, n) :: rs =>
    match hread it g s o n with
    | .error e => .error e
    | .ok (it1, r) =>
      match reads it1 g rs with
      | .error e => .error e
      | .ok (it2, l) => .ok (it2, r :: l)

/-- reads: elements of size `s`, each starting at a multiple of eight or at `pos`, within the item -/
def RSeq (size : Nat) : Nat → List (Nat × Nat × Nat) → Prop
  | _, [] => True
  | pos, (s, o, n) :: rs => s ∣ 8 ∧ s ∣ o ∧ s ∣ n ∧ 0 < n ∧ (8 ∣ o ∨ o = pos) ∧ o + n ≤ size ∧ RSeq size (o + n) rs

/-- the bytes of the accesses, each with the value written last -/
def AllRight (F : Flat) : List (Nat × Nat × Nat) → List (List (Option Byte)) → Prop
  | [], [] => True
  | (_, o, n) :: rs, r :: l => (∃ bs : List Byte, r = bs.map some ∧ bs.length = n ∧
      ∀ (k : Nat) (b : Byte), k < n → F.known (o + k) = some b → bs[k]? = some b) ∧ AllRight F rs l
  | _, _ => False

theorem reads_right (F : Flat) (g : Nat → Byte) : ∀ (rs : List (Nat × Nat × Nat)) (it : Item) (pos : Nat),
    Inv 1 it F → RAt it pos → RSeq F.size pos rs → ∃ it' l, reads it g rs = .ok (it', l) ∧ AllRight F rs l ∧ Inv 1 it' F
  | [], it, _, h, _, _ => ⟨it, [], rfl, trivial, h⟩
  | (s, o, n) :: rs, it, pos, h, hat, ⟨h1, h2, h3, h4, h5, h6, h7⟩ => by
    obtain ⟨w1, w2⟩ := hread_whole h1 it F h pos hat g o n h2 h3 h4 h5 h6
    obtain ⟨it1, bs, e1, l1, r1, i1⟩ := hread_inv (by decide) it F h g 1 o n
      ⟨Nat.dvd_refl 1, Nat.one_dvd _, Nat.one_dvd _, h6⟩
    obtain ⟨it2, l, e2, a2, i2⟩ := reads_right F g rs it1 (o + n) i1 (w2 it1 _ e1) h7
    refine ⟨it2, bs.map some :: l, ?_, ⟨⟨bs, rfl, l1, fun k b hk hkn => r1 k b (by omega) hkn⟩, a2⟩, i2⟩
    rw [reads, w1, e1]
    simp only
    rw [e2]

/-- an item that has been opened again -/
theorem reopen_rat {it it1 : Item} {F : Flat} {g' : Nat → Byte} (e1 : reopen it g' = .ok it1) (i1 : Inv 1 it1 F) :
    RAt it1 0 := by
  unfold reopen at e1
  split at e1
  · cases e1
  · rename_i x hx
    by_cases hfd : x.fd = true
    · rw [if_pos hfd] at e1
      cases e1
      exact ⟨⟨rfl, Or.inl rfl⟩, Or.inl rfl⟩
    · rw [if_neg hfd] at e1
      split at e1
      · cases e1
      · cases e1
        have hi := i1.2
        cases hb : F.big with
        | true =>
          rw [hb, if_pos rfl] at hi
          exact absurd hi.fd hfd
        | false =>
          rw [hb, if_neg (by decide)] at hi
          have h1 := hi.off
          have h2 := hi.len
          exact ⟨⟨by omega, Or.inl rfl⟩, Or.inr (Or.inr (by omega))⟩

/-- **C45.**  Elements of different sizes.  A session of writes, closed and followed by a session of reads, where every
access starts at a multiple of eight or where the previous one ended: nothing fails, the item has the size of the flat
file, and every read transfers all its bytes, each with the value written last. -/
theorem c45_mixed_sizes (d g g' : Nat → Byte) (st : Start) (hst : st.Ok 1) (ops : List Op) (hops : WSeq 0 st.flat ops)
    (hre : (ops.foldl Flat.step st.flat).big = true ∨ 0 < (ops.foldl Flat.step st.flat).size)
    (rs : List (Nat × Nat × Nat)) (hrs : RSeq (ops.foldl Flat.step st.flat).size 0 rs) :
    ∃ it it1 it2 l, run (st.item d g) ops = .ok it ∧ it.size = (ops.foldl Flat.step st.flat).size ∧
      reopen it g' = .ok it1 ∧ reads it1 g' rs = .ok (it2, l) ∧ AllRight (ops.foldl Flat.step st.flat) rs l := by
  have hI := start_inv st d g hst
  have hat : At (st.item d g) 0 := by
    cases st <;> exact ⟨rfl, Or.inl rfl⟩
  obtain ⟨r1, r2, r3⟩ := run_byByte ops _ _ 0 hI hat hops
  obtain ⟨it, e, i⟩ := run_inv (S := 1) (by decide) _ _ _ hI r2
  rw [r3] at i
  obtain ⟨it1, e1, i1⟩ := reopen_inv it _ i g' hre
  have hsz : ∀ (x : Item) (F : Flat), Inv 1 x F → x.size = F.size := by
    intro x F hx
    have := hx.2
    split at this
    · exact this.size
    · exact this.size
  have hrat : RAt it1 0 := reopen_rat e1 i1
  obtain ⟨it2, l, e2, a2, _⟩ := reads_right _ g' rs it1 0 i1 hrat hrs
  exact ⟨it, it1, it2, l, by rw [r1]; exact e, hsz _ _ i, e1, e2, a2⟩

/-- a tag of four bytes, a gap, a double and an integer, and a block that crosses the end of a buffer -/
example : WSeq 0 (Start.flat .new)
    [.write (fun _ => 0) 1 0 [0, 0, 0, 5], .write (fun _ => 0) 8 8 [1, 2, 3, 4, 5, 6, 7, 8],
     .write (fun _ => 0) 4 16 [1, 2, 3, 4], .write (fun _ => 0) 4 20 (List.replicate 20000 7)] ∧
    RSeq 20020 0 [(1, 0, 4), (8, 8, 8), (4, 16, 4), (4, 20, 16000), (4, 16020, 4000)] := by
  refine ⟨⟨by decide, by decide, by decide, by decide, ⟨by decide, by decide, by decide, by decide, by decide, by decide⟩,
    by decide, by decide, by decide, by decide, ⟨by decide, by decide, by decide, by decide, by decide, ?_⟩,
    by decide, by decide, by decide, by decide, ⟨by decide, by decide, by decide, by decide, by decide, ?_⟩,
    by decide, by decide, ?_, by decide, ⟨by decide, by decide, Nat.one_dvd _, ?_, ?_, ?_⟩, trivial⟩, ?_⟩
  · exact Or.inr (Or.inr (by decide))
  · exact Or.inr (Or.inl (by decide))
  · rw [List.length_replicate]; decide
  · intro h
    have := congrArg List.length h
    rw [List.length_replicate] at this
    exact absurd this (by decide)
  · rw [List.length_replicate]; decide
  · exact Or.inr (Or.inl (by decide))
  · exact ⟨by decide, by decide, by decide, by decide, by decide, by decide, by decide, by decide, by decide, by decide,
      by decide, by decide, by decide, by decide, by decide, by decide, by decide, by decide, by decide, by decide,
      by decide, by decide, by decide, by decide, by decide, by decide, by decide, by decide, by decide, by decide,
      trivial⟩

end Verif.Mir.Hio
