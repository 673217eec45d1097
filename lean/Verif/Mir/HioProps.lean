import Verif.Mir.Hio

/-!
# Buffered item I/O behaves like a flat file (C45)
-/
namespace Verif.Mir.Hio

/-! ## The specification: a flat file -/

/-- What a user may expect of an item: the bytes written so far (`none` for bytes never written), and the size.  `big`
says whether it lives in a file of its own: from the start, or since it grew beyond 64 bytes. -/
structure Flat where
  known : Nat → Option Byte
  size : Nat
  big : Bool

/-- bytes written to a flat file -/
def Flat.write (F : Flat) (o : Nat) (data : List Byte) : Flat :=
  ⟨fun p => if o ≤ p ∧ p < o + data.length then data[p - o]? else F.known p, max F.size (o + data.length), F.big⟩

/-- what can be done with an item -/
inductive Op
  | write (g : Nat → Byte) (s o : Nat) (data : List Byte)
  | read (g : Nat → Byte) (s o n : Nat)
  | reopen (g : Nat → Byte)

/-- an operation on the real item -/
def step (it : Item) : Op → Except Err Item
  | .write g s o data => hwrite it g s o data
  | .read g s o n => (hread it g s o n).map (·.1)
  | .reopen g => reopen it g

/-- a history -/
def run : Item → List Op → Except Err Item
  | it, [] => .ok it
  | it, o :: os => match step it o with
    | .error e => .error e
    | .ok it' => run it' os

/-- the same on the flat file -/
def Flat.step (F : Flat) : Op → Flat
  | .write _ _ o data => { F.write o data with big := F.big || decide (64 < o + data.length) }
  | .read _ _ _ _ => F
  | .reopen _ => F

/-- the operations considered: offsets and lengths are multiples of `S` and `S` of the element size `s`; something is
written; the first write to a small item (one without a file) starts at its beginning, and no later one lies a whole
buffer away (the first write that gives it a file included); reads stay within the item; an item that is opened again
is not empty, unless it has a file; nothing lies beyond 2^31 -/
def OpOk (S : Nat) (F : Flat) : Op → Prop
  | .write _ s o data => s ∣ S ∧ S ∣ o ∧ S ∣ data.length ∧ data ≠ [] ∧ o + data.length ≤ 2 ^ 31 ∧
      (F.big = true ∨ o ≤ F.size ∨ (0 < F.size ∧ o < 16384))
  | .read _ s o n => s ∣ S ∧ S ∣ o ∧ S ∣ n ∧ o + n ≤ F.size
  | .reopen _ => F.big = true ∨ 0 < F.size

/-- a history of such operations -/
def OpsOk (S : Nat) : Flat → List Op → Prop
  | _, [] => True
  | F, o :: os => OpOk S F o ∧ OpsOk S (F.step o) os

/-! ## Items with a file -/

structure FInv (S : Nat) (it : Item) (F : Flat) : Prop where
  fd : it.fd = true
  bsize : it.bsize = 16384
  even : it.off % 2 = 0
  dOff : S ∣ it.off
  dLen : S ∣ it.len
  dSize : S ∣ it.size
  lenb : it.len ≤ 16384
  fin : it.len = 0 ∨ it.off + it.len ≤ it.size
  mlen : it.modified = true → 0 < it.len
  size : it.size = F.size
  lt : ∀ p b, F.known p = some b → p < F.size
  inbuf : ∀ p b, F.known p = some b → it.off ≤ p → p < it.off + it.len → it.buf (p - it.off) = b
  out : ∀ p b, F.known p = some b → (it.modified = false ∨ p < it.off ∨ it.off + it.len ≤ p) →
    p < it.fsize ∧ it.file p = b
  fsz : it.fsize ≤ it.size
  full : it.size ≤ it.fsize ∨ (it.modified = true ∧ it.size = it.off + it.len)

theorem copy_in (src : Nat → Byte) (s : Nat) (dst : Nat → Byte) {d n k : Nat} (h : d ≤ k ∧ k < d + n) :
    copy src s dst d n k = src (s + (k - d)) := by
  unfold copy; rw [if_pos h]

theorem copy_out (src : Nat → Byte) (s : Nat) (dst : Nat → Byte) {d n k : Nat} (h : ¬(d ≤ k ∧ k < d + n)) :
    copy src s dst d n k = dst k := by
  unfold copy; rw [if_neg h]

theorem dvd8 {S : Nat} (h : S ∣ 8) : S = 1 ∨ S = 2 ∨ S = 4 ∨ S = 8 := by
  have hle : S ≤ 8 := Nat.le_of_dvd (by decide) h
  have hpos : 0 < S := Nat.pos_of_dvd_of_pos h (by decide)
  have : ∀ S : Fin 9, 0 < S.val → S.val ∣ 8 → S.val = 1 ∨ S.val = 2 ∨ S.val = 4 ∨ S.val = 8 := by decide
  exact this ⟨S, by omega⟩ hpos h

/-- `hwrite_fill_c` gets the missing bytes from the file -/
theorem fill_inv {S : Nat} (hS : S ∣ 8) (it : Item) (F : Flat) (h : FInv S it F) (next : Nat)
    (hn : next < 2 ^ 31) (h1 : it.off + it.len ≤ next) (h2 : it.off + it.len < it.size)
    (h3 : next ≤ it.off + 16384) (h4 : 0 < next) (hd : S ∣ next) :
    ∃ it', fill it next = .ok it' ∧ FInv S it' F ∧ it'.off = it.off ∧ it'.modified = it.modified ∧
      (next ≤ it'.off + it'.len ∨ it.size ≤ it'.off + it'.len) := by
  have hfull : it.size ≤ it.fsize := by
    rcases h.full with h' | h' <;> omega
  unfold fill
  rw [if_neg (by omega)]
  have hread : dread it (fun _ => 0) (2 * ((it.off + it.len) / 2)) 0
      (min (2 * ((next - 1) / 2 + 1) - 2 * ((it.off + it.len) / 2)) (it.size - 2 * ((it.off + it.len) / 2))) =
      .ok (copy it.file (2 * ((it.off + it.len) / 2)) (fun _ => 0) 0
        (min (2 * ((next - 1) / 2 + 1) - 2 * ((it.off + it.len) / 2)) (it.size - 2 * ((it.off + it.len) / 2)))) := by
    unfold dread
    rw [if_neg (by rw [h.fd]; decide), if_neg (by omega)]
  simp only
  rw [hread]
  simp only
  generalize hL : min (2 * ((next - 1) / 2 + 1) - 2 * ((it.off + it.len) / 2))
    (it.size - 2 * ((it.off + it.len) / 2)) = L
  generalize hO : 2 * ((it.off + it.len) / 2) = O at *
  have hev := h.even
  have hlb := h.lenb
  refine ⟨_, rfl, ⟨h.fd, h.bsize, h.even, h.dOff, ?_, h.dSize, ?_, ?_, ?_, h.size, h.lt, ?_, ?_, h.fsz, ?_⟩, rfl, rfl, ?_⟩
  · show S ∣ it.len + (L - (it.off + it.len - O))
    have a := h.dOff
    have b := h.dLen
    have c := h.dSize
    rcases dvd8 hS with rfl | rfl | rfl | rfl <;> omega
  · show it.len + (L - (it.off + it.len - O)) ≤ 16384
    omega
  · right
    show it.off + (it.len + (L - (it.off + it.len - O))) ≤ it.size
    omega
  · intro hm
    have := h.mlen hm
    show 0 < it.len + (L - (it.off + it.len - O))
    omega
  · intro p b hp h5 h6
    change it.off ≤ p at h5
    change p < it.off + (it.len + (L - (it.off + it.len - O))) at h6
    change copy _ _ _ _ _ (p - it.off) = b
    by_cases hin : p < it.off + it.len
    · rw [copy_out _ _ _ (by omega)]
      exact h.inbuf p b hp h5 hin
    · rw [copy_in _ _ _ (by omega), copy_in _ _ _ (by omega)]
      rw [show O + (it.off + it.len - O + (p - it.off - it.len) - 0) = p by omega]
      exact (h.out p b hp (Or.inr (Or.inr (by omega)))).2
  · intro p b hp h5
    refine h.out p b hp ?_
    rcases h5 with h5 | h5 | h5
    · exact Or.inl h5
    · exact Or.inr (Or.inl h5)
    · change it.off + (it.len + (L - (it.off + it.len - O))) ≤ p at h5
      exact Or.inr (Or.inr (by omega))
  · exact Or.inl hfull
  · show next ≤ it.off + (it.len + (L - (it.off + it.len - O))) ∨
      it.size ≤ it.off + (it.len + (L - (it.off + it.len - O)))
    omega

/-- writing the buffer out -/
theorem dwrite_inv {S : Nat} (it : Item) (F : Flat) (h : FInv S it F) (hm : it.modified = true) :
    ∃ it', dwrite it = .ok it' ∧ FInv S { it' with modified := false } F ∧ it'.fsize = F.size ∧
      it'.noCache = it.noCache := by
  have hl := h.mlen hm
  have hfin := h.fin
  have hsz := h.size
  have hfs := h.fsz
  have hfull := h.full
  unfold dwrite
  rw [if_neg (by rw [h.fd]; decide), if_neg (by omega)]
  have hF : max it.fsize (it.off + it.len) = F.size := by
    rcases hfull with hfull | ⟨_, hfull⟩ <;> omega
  have hout : ∀ p b, F.known p = some b →
      copy it.buf 0 (fun k => if k < it.fsize then it.file k else 0) it.off it.len p = b := by
    intro p b hp
    by_cases hin : it.off ≤ p ∧ p < it.off + it.len
    · rw [copy_in _ _ _ hin, Nat.zero_add]
      exact h.inbuf p b hp hin.1 hin.2
    · rw [copy_out _ _ _ hin]
      have := h.out p b hp (by omega)
      show (if p < it.fsize then it.file p else 0) = b
      rw [if_pos this.1]
      exact this.2
  refine ⟨_, rfl, ⟨h.fd, h.bsize, h.even, h.dOff, h.dLen, h.dSize, h.lenb, h.fin, ?_, h.size, h.lt, h.inbuf, ?_, ?_, ?_⟩,
    hF, rfl⟩
  · intro hm'; exact Bool.noConfusion (show false = true from hm')
  · intro p b hp _
    refine ⟨?_, hout p b hp⟩
    show p < max it.fsize (it.off + it.len)
    rw [hF]
    exact h.lt p b hp
  · show max it.fsize (it.off + it.len) ≤ it.size
    omega
  · left
    show it.size ≤ max it.fsize (it.off + it.len)
    omega

theorem flush_inv {S : Nat} (hS : S ∣ 8) (it : Item) (F : Flat) (h : FInv S it F) (hb : it.size ≤ 2 ^ 31) :
    ∃ it', flush it = .ok it' ∧ FInv S it' F ∧ it'.modified = false ∧ it'.size ≤ it'.fsize := by
  unfold flush
  cases hm : it.modified with
  | false =>
    rw [if_neg (by decide)]
    refine ⟨it, rfl, h, hm, ?_⟩
    rcases h.full with h' | ⟨h', _⟩
    · exact h'
    · rw [hm] at h'; exact Bool.noConfusion h'
  | true =>
    rw [if_pos rfl]
    have key : ∃ it1, (if it.len % 2 ≠ 0 ∧ it.off + it.len < it.size then fill it (it.off + it.len) else .ok it) =
        .ok it1 ∧ FInv S it1 F ∧ it1.modified = true := by
      by_cases hc : it.len % 2 ≠ 0 ∧ it.off + it.len < it.size
      · rw [if_pos hc]
        have hev := h.even
        have hlb := h.lenb
        obtain ⟨it1, e, i1, _, i3, _⟩ := fill_inv hS it F h (it.off + it.len) (by omega) (Nat.le_refl _) hc.2 (by omega)
          (by omega) (by
            have a := h.dOff
            have b := h.dLen
            rcases dvd8 hS with rfl | rfl | rfl | rfl <;> omega)
        exact ⟨it1, e, i1, i3.trans hm⟩
      · rw [if_neg hc]
        exact ⟨it, rfl, h, hm⟩
    obtain ⟨it1, e, i1, m1⟩ := key
    rw [e]
    obtain ⟨it2, e2, i2, s2, _⟩ := dwrite_inv it1 F i1 m1
    simp only
    rw [e2]
    refine ⟨_, rfl, i2, rfl, ?_⟩
    rw [i2.size]
    show F.size ≤ it2.fsize
    omega

/-- after a miss the buffer is the right one -/
theorem miss_write {S : Nat} (hS : S ∣ 8) (it : Item) (F : Flat) (h : FInv S it F) (hb : it.size ≤ 2 ^ 31)
    (offset : Nat) (hd : S ∣ offset) :
    ∃ it', miss it offset true = .ok it' ∧ FInv S it' F ∧ it'.off = offset / 2 * 2 := by
  obtain ⟨it1, e, i, m, sf⟩ := flush_inv hS it F h hb
  unfold miss
  rw [e]
  refine ⟨_, rfl, ⟨i.fd, i.bsize, ?_, ?_, Nat.dvd_zero S, i.dSize, Nat.zero_le _, Or.inl rfl, ?_, i.size, i.lt,
    ?_, ?_, i.fsz, Or.inl sf⟩, rfl⟩
  · show offset / 2 * 2 % 2 = 0
    omega
  · show S ∣ offset / 2 * 2
    rcases dvd8 hS with rfl | rfl | rfl | rfl <;> omega
  · intro hm
    change it1.modified = true at hm
    rw [m] at hm; exact Bool.noConfusion hm
  · intro p b hp h5 h6
    change offset / 2 * 2 ≤ p at h5
    change p < offset / 2 * 2 + 0 at h6
    omega
  · intro p b hp _
    exact i.out p b hp (Or.inl m)

theorem miss_read {S : Nat} (hS : S ∣ 8) (it : Item) (F : Flat) (h : FInv S it F) (hb : it.size ≤ 2 ^ 31)
    (offset : Nat) (hd : S ∣ offset) (hlt : offset < it.size) :
    ∃ it', miss it offset false = .ok it' ∧ FInv S it' F ∧ it'.off ≤ offset ∧ offset < it'.off + it'.len ∧
      (it'.off + it'.len = it'.size ∨ it'.len = 16384) := by
  obtain ⟨it1, e, i, m, sf⟩ := flush_inv hS it F h hb
  have hsz : it1.size = it.size := i.size.trans h.size.symm
  have hbs := i.bsize
  unfold miss
  rw [e]
  simp only
  have hread : dread it1 it1.buf (offset / 2 * 2) 0 (min it1.bsize (it1.size - offset / 2 * 2)) =
      .ok (copy it1.file (offset / 2 * 2) it1.buf 0 (min it1.bsize (it1.size - offset / 2 * 2))) := by
    unfold dread
    rw [if_neg (by rw [i.fd]; decide), if_neg (by omega)]
  rw [if_neg (by decide), hread]
  generalize hN : min it1.bsize (it1.size - offset / 2 * 2) = N
  refine ⟨_, rfl, ⟨i.fd, i.bsize, ?_, ?_, ?_, i.dSize, ?_, ?_, ?_, i.size, i.lt,
    ?_, ?_, i.fsz, Or.inl sf⟩, ?_, ?_, ?_⟩
  · show offset / 2 * 2 % 2 = 0
    omega
  · show S ∣ offset / 2 * 2
    rcases dvd8 hS with rfl | rfl | rfl | rfl <;> omega
  · show S ∣ N
    have := i.dSize
    rcases dvd8 hS with rfl | rfl | rfl | rfl <;> omega
  · show N ≤ 16384
    omega
  · right
    show offset / 2 * 2 + N ≤ it1.size
    omega
  · intro hm
    change it1.modified = true at hm
    rw [m] at hm; exact Bool.noConfusion hm
  · intro p b hp h5 h6
    change offset / 2 * 2 ≤ p at h5
    change p < offset / 2 * 2 + N at h6
    show copy it1.file (offset / 2 * 2) it1.buf 0 N (p - offset / 2 * 2) = b
    rw [copy_in _ _ _ (by omega), show offset / 2 * 2 + (p - offset / 2 * 2 - 0) = p by omega]
    exact (i.out p b hp (Or.inl m)).2
  · intro p b hp _
    exact i.out p b hp (Or.inl m)
  · show offset / 2 * 2 ≤ offset
    omega
  · show offset < offset / 2 * 2 + N
    omega
  · show offset / 2 * 2 + N = it1.size ∨ N = 16384
    omega

theorem locate_write {S : Nat} (hS : S ∣ 8) (it : Item) (F : Flat) (h : FInv S it F) (hb : it.size ≤ 2 ^ 31)
    (offset : Nat) (hd : S ∣ offset) :
    ∃ it', locate it offset true = .ok it' ∧ FInv S it' F ∧ it'.off ≤ offset ∧ offset < it'.off + 16384 := by
  unfold locate
  by_cases hw : within it offset true
  · rw [if_pos hw]
    unfold within at hw
    rw [if_pos rfl, h.bsize] at hw
    exact ⟨it, rfl, h, hw.2.1, hw.2.2⟩
  · rw [if_neg hw]
    obtain ⟨it1, e, i, o⟩ := miss_write hS it F h hb offset hd
    exact ⟨it1, e, i, by omega, by omega⟩

theorem fillGap_inv {S : Nat} (hS : S ∣ 8) (it : Item) (F : Flat) (h : FInv S it F)
    (offset : Nat) (hd : S ∣ offset) (h1 : it.off ≤ offset) (h2 : offset < it.off + 16384) (h3 : offset < 2 ^ 31) :
    ∃ it', fillGap it offset = .ok it' ∧ FInv S it' F ∧ it'.off = it.off ∧
      (offset ≤ it'.off + it'.len ∨ it'.size ≤ it'.off + it'.len) := by
  unfold fillGap
  by_cases hc : it.off + it.len < offset ∧ it.off + it.len < it.size
  · rw [if_pos hc]
    obtain ⟨it1, e, i, o, _, hh⟩ := fill_inv hS it F h offset h3 (by omega) hc.2 (by omega) (by omega) hd
    have : it1.size = it.size := i.size.trans h.size.symm
    exact ⟨it1, e, i, o, by omega⟩
  · rw [if_neg hc]
    exact ⟨it, rfl, h, rfl, by omega⟩

/-- the new bytes go into the buffer -/
theorem store_inv {S s : Nat} (hS : S ∣ 8) (hs : s ∣ S) (it : Item) (F : Flat) (h : FInv S it F)
    (offset : Nat) (data : List Byte) (hd : S ∣ offset) (hdl : S ∣ data.length) (hne : 0 < data.length)
    (h1 : it.off ≤ offset) (h2 : offset < it.off + 16384)
    (h3 : offset ≤ it.off + it.len ∨ it.size ≤ it.off + it.len) :
    let it3 := extend it offset data.length
    let n := chunk it3 offset data.length
    0 < n ∧ n ≤ data.length ∧ S ∣ n ∧
      FInv S (store it3 s offset (fun k => data.getD k 0) n) (F.write offset (data.take n)) := by
  intro it3 n
  have hbs := h.bsize
  have hlb := h.lenb
  have hfin := h.fin
  have hsz := h.size
  generalize hL' : max it.len (min (data.length + offset - it.off) it.bsize) = L'
  have e3 : it3 = { it with modified := true, len := L', size := max it.size (it.off + L') } := by
    rw [← hL']; rfl
  have hn : n = min data.length (L' - (offset - it.off)) := by
    show chunk it3 offset data.length = _
    rw [e3]; rfl
  have hend : it.off + L' = max (it.off + it.len) (offset + n) := by omega
  have hLb : L' ≤ 16384 := by omega
  have hn0 : 0 < n := by omega
  have hnl : n ≤ data.length := by omega
  have hdn : S ∣ n := by
    have a := h.dOff
    have b := h.dLen
    rcases dvd8 hS with rfl | rfl | rfl | rfl <;> omega
  have hns : n / s * s = n := by
    rw [Nat.mul_comm]; exact Nat.mul_div_cancel' (Nat.dvd_trans hs hdn)
  have htl : (data.take n).length = n := by rw [List.length_take]; omega
  refine ⟨hn0, hnl, hdn, ?_⟩
  have hst : store it3 s offset (fun k => data.getD k 0) n =
      ⟨it.fd, it.noCache, max it.size (it.off + L'), it.bsize, it.off, L', true,
        copy (fun k => data.getD k 0) 0 it.buf (offset - it.off) n, it.file, it.fsize⟩ := by
    unfold store
    rw [e3, hns]
  rw [hst]
  refine ⟨h.fd, h.bsize, h.even, h.dOff, ?_, ?_, hLb, ?_, fun _ => ?_, ?_, ?_, ?_, ?_, ?_, ?_⟩
  · show S ∣ L'
    have a := h.dOff
    have b := h.dLen
    rcases dvd8 hS with rfl | rfl | rfl | rfl <;> omega
  · show S ∣ max it.size (it.off + L')
    have a := h.dOff
    have b := h.dLen
    have c := h.dSize
    rcases dvd8 hS with rfl | rfl | rfl | rfl <;> omega
  · right
    show it.off + L' ≤ max it.size (it.off + L')
    omega
  · show 0 < L'
    omega
  · show max it.size (it.off + L') = max F.size (offset + (data.take n).length)
    rw [htl]
    omega
  · intro p b hp
    show p < max F.size (offset + (data.take n).length)
    rw [htl]
    change (if offset ≤ p ∧ p < offset + (data.take n).length then (data.take n)[p - offset]? else F.known p) = some b
      at hp
    rw [htl] at hp
    by_cases hin : offset ≤ p ∧ p < offset + n
    · omega
    · rw [if_neg hin] at hp
      have := h.lt p b hp
      omega
  · intro p b hp h5 h6
    change it.off ≤ p at h5
    change p < it.off + L' at h6
    show copy (fun k => data.getD k 0) 0 it.buf (offset - it.off) n (p - it.off) = b
    change (if offset ≤ p ∧ p < offset + (data.take n).length then (data.take n)[p - offset]? else F.known p) = some b
      at hp
    rw [htl] at hp
    by_cases hin : offset ≤ p ∧ p < offset + n
    · rw [if_pos hin, List.getElem?_take, if_pos (by omega)] at hp
      rw [copy_in _ _ _ (by omega), show 0 + (p - it.off - (offset - it.off)) = p - offset by omega]
      rw [List.getD_eq_getElem?_getD, hp]
      rfl
    · rw [if_neg hin] at hp
      rw [copy_out _ _ _ (by omega)]
      have := h.lt p b hp
      exact h.inbuf p b hp h5 (by omega)
  · intro p b hp h5
    change (true = false ∨ p < it.off ∨ it.off + L' ≤ p) at h5
    change (if offset ≤ p ∧ p < offset + (data.take n).length then (data.take n)[p - offset]? else F.known p) = some b
      at hp
    rw [htl] at hp
    have h5' : p < it.off ∨ it.off + L' ≤ p := h5.resolve_left (by decide)
    rw [if_neg (by omega)] at hp
    exact h.out p b hp (Or.inr (by omega))
  · show it.fsize ≤ max it.size (it.off + L')
    have := h.fsz
    omega
  · show max it.size (it.off + L') ≤ it.fsize ∨ (true = true ∧ max it.size (it.off + L') = it.off + L')
    rcases h.full with hf | ⟨_, hf⟩
    · by_cases hc : it.off + L' ≤ it.size
      · left; omega
      · right; exact ⟨rfl, by omega⟩
    · right; exact ⟨rfl, by omega⟩

theorem writePass_inv {S s : Nat} (hS : S ∣ 8) (hs : s ∣ S) (it : Item) (F : Flat) (h : FInv S it F)
    (offset : Nat) (data : List Byte) (hd : S ∣ offset) (hdl : S ∣ data.length) (hne : 0 < data.length)
    (hb : F.size ≤ 2 ^ 31) (ho : offset < 2 ^ 31) :
    ∃ it' n, writePass it s offset data = .ok (it', n) ∧ 0 < n ∧ n ≤ data.length ∧ S ∣ n ∧
      FInv S it' (F.write offset (data.take n)) := by
  obtain ⟨it1, e1, i1, o1, o1'⟩ := locate_write hS it F h (by rw [h.size]; exact hb) offset hd
  obtain ⟨it2, e2, i2, o2, g2⟩ := fillGap_inv hS it1 F i1 offset hd o1 o1' ho
  have := store_inv hS hs it2 F i2 offset data hd hdl hne (by omega) (by omega) g2
  refine ⟨_, _, ?_, this⟩
  unfold writePass
  rw [e1]
  simp only
  rw [e2]

theorem write_append (F : Flat) (o : Nat) (data : List Byte) (n : Nat) (hn : n ≤ data.length) :
    (F.write o (data.take n)).write (o + n) (data.drop n) = F.write o data := by
  have htl : (data.take n).length = n := by rw [List.length_take]; omega
  unfold Flat.write
  rw [htl, List.length_drop]
  congr 1
  · funext p
    by_cases h1 : o + n ≤ p ∧ p < o + n + (data.length - n)
    · rw [if_pos h1, if_pos (by omega), List.getElem?_drop]
      congr 1
      omega
    · rw [if_neg h1]
      by_cases h2 : o ≤ p ∧ p < o + n
      · show (if o ≤ p ∧ p < o + n then (data.take n)[p - o]? else F.known p) = _
        rw [if_pos h2, if_pos (by omega), List.getElem?_take, if_pos (by omega)]
      · show (if o ≤ p ∧ p < o + n then (data.take n)[p - o]? else F.known p) = _
        rw [if_neg h2, if_neg (by omega)]
  · show max (max F.size (o + n)) (o + n + (data.length - n)) = max F.size (o + data.length)
    omega

theorem write_nil (F : Flat) (o : Nat) (h : o ≤ F.size) : F.write o [] = F := by
  unfold Flat.write
  obtain ⟨k, sz, b⟩ := F
  change o ≤ sz at h
  have : max sz (o + ([] : List Byte).length) = sz := by rw [List.length_nil]; omega
  rw [this]
  congr 1
  funext p
  rw [if_neg (by rw [List.length_nil]; omega)]

theorem writeLoop_inv {S s : Nat} (hS : S ∣ 8) (hs : s ∣ S) : ∀ (fuel : Nat) (it : Item) (F : Flat) (offset : Nat)
    (data : List Byte), FInv S it F → S ∣ offset → S ∣ data.length → data.length ≤ fuel →
    (data = [] → offset ≤ F.size) → F.size ≤ 2 ^ 31 → offset + data.length ≤ 2 ^ 31 →
    ∃ it', writeLoop fuel it s offset data = .ok it' ∧ FInv S it' (F.write offset data)
  | fuel, it, F, offset, [], h, _, _, _, hn, _, _ => by
    refine ⟨it, ?_, ?_⟩
    · cases fuel <;> rfl
    · rw [write_nil F offset (hn rfl)]; exact h
  | 0, _, _, _, _ :: _, _, _, _, hf, _, _, _ => by simp at hf
  | fuel + 1, it, F, offset, b :: data, h, hd, hdl, hf, _, hb, ho => by
    have hlen : (b :: data).length = data.length + 1 := rfl
    obtain ⟨it1, n, e, n0, n1, dn, i⟩ := writePass_inv hS hs it F h offset (b :: data) hd hdl (by simp) hb (by omega)
    obtain ⟨it2, e2, i2⟩ := writeLoop_inv hS hs fuel it1 (F.write offset ((b :: data).take n)) (offset + n)
      ((b :: data).drop n) i ((Nat.dvd_add_right hd).mpr dn) (by
        rw [List.length_drop]; exact Nat.dvd_sub hdl dn) (by rw [List.length_drop]; omega)
      (by
        intro _
        show offset + n ≤ max F.size (offset + ((b :: data).take n).length)
        rw [List.length_take]; omega)
      (by
        show max F.size (offset + ((b :: data).take n).length) ≤ 2 ^ 31
        rw [List.length_take]; omega)
      (by rw [List.length_drop]; omega)
    refine ⟨it2, ?_, ?_⟩
    · rw [writeLoop, e]
      exact e2
    · rw [write_append F offset _ n n1] at i2
      exact i2

/-- bytes read: the known ones are right -/
def Right (F : Flat) (offset : Nat) (bs : List Byte) : Prop :=
  ∀ (k : Nat) (b : Byte), k < bs.length → F.known (offset + k) = some b → bs[k]? = some b

theorem fetch_eq (it : Item) {s n : Nat} (offset : Nat) (hs : s ∣ n) :
    fetch it s offset n = ((List.range n).map fun (k : Nat) => it.buf (offset - it.off + k)).map some := by
  unfold fetch
  rw [List.map_map]
  apply List.map_congr_left
  intro k hk
  rw [List.mem_range] at hk
  rw [Nat.mul_comm, Nat.mul_div_cancel' hs, if_pos hk]
  rfl

theorem readLoop_inv {S s : Nat} (hS : S ∣ 8) (hs : s ∣ S) : ∀ (fuel : Nat) (it : Item) (F : Flat) (offset n : Nat),
    FInv S it F → S ∣ offset → S ∣ n → n ≤ fuel → offset + n ≤ F.size → F.size ≤ 2 ^ 31 →
    ∃ it' bs, readLoop fuel it s offset n = .ok (it', bs.map some) ∧ bs.length = n ∧ Right F offset bs ∧ FInv S it' F
  | fuel, it, F, offset, 0, h, _, _, _, _, _ => by
    refine ⟨it, [], ?_, rfl, ?_, h⟩
    · cases fuel <;> rfl
    · intro k b hk; simp at hk
  | 0, _, _, _, n + 1, _, _, _, hf, _, _ => by omega
  | fuel + 1, it, F, offset, n + 1, h, hd, hdn, hf, hle, hb => by
    have hloc : ∃ it1, locate it offset false = .ok it1 ∧ FInv S it1 F ∧ it1.off ≤ offset ∧
        offset < it1.off + it1.len := by
      unfold locate
      by_cases hw : within it offset false
      · rw [if_pos hw]
        unfold within at hw
        rw [if_neg (by decide)] at hw
        exact ⟨it, rfl, h, hw.2.1, hw.2.2⟩
      · rw [if_neg hw]
        obtain ⟨it1, e, i, o, o', _⟩ := miss_read hS it F h (by rw [h.size]; exact hb) offset hd (by rw [h.size]; omega)
        exact ⟨it1, e, i, o, o'⟩
    obtain ⟨it1, e1, i1, o1, o2⟩ := hloc
    have hm : chunk it1 offset (n + 1) = min (n + 1) (it1.len - (offset - it1.off)) := rfl
    generalize hM : chunk it1 offset (n + 1) = m at hm
    have hdm : S ∣ m := by
      have a := i1.dOff
      have b := i1.dLen
      rcases dvd8 hS with rfl | rfl | rfl | rfl <;> omega
    obtain ⟨it2, bs, e2, l2, r2, i2⟩ := readLoop_inv hS hs fuel it1 F (offset + m) (n + 1 - m) i1
      ((Nat.dvd_add_right hd).mpr hdm) (Nat.dvd_sub hdn hdm) (by omega) (by omega) hb
    refine ⟨it2, ((List.range m).map fun (k : Nat) => it1.buf (offset - it1.off + k)) ++ bs, ?_, ?_, ?_, i2⟩
    · rw [readLoop, e1]
      simp only
      rw [hM, e2]
      simp only
      rw [fetch_eq it1 offset (Nat.dvd_trans hs hdm), List.map_append]
    · rw [List.length_append, List.length_map, List.length_range, l2]
      omega
    · intro k b hk hkn
      have hfin := i1.fin
      by_cases hkm : k < m
      · rw [List.getElem?_append_left (by simpa using hkm), List.getElem?_map, List.getElem?_range hkm]
        have := i1.inbuf (offset + k) b hkn (by omega) (by omega)
        show some (it1.buf (offset - it1.off + k)) = some b
        rw [← this]
        congr 2
        omega
      · rw [List.length_append, List.length_map, List.length_range] at hk
        rw [List.getElem?_append_right (by simp; omega)]
        simp only [List.length_map, List.length_range]
        apply r2 (k - m) b (by omega)
        rw [show offset + m + (k - m) = offset + k by omega]
        exact hkn

/-! ## Items in memory -/

structure MInv (S : Nat) (it : Item) (F : Flat) : Prop where
  fd : it.fd = false
  nc : it.noCache = false
  off : it.off = 0
  len : it.len = it.size
  lb : it.len ≤ it.bsize
  b64 : it.bsize ≤ 64
  dLen : S ∣ it.len
  mlen : it.modified = true → 0 < it.len
  size : it.size = F.size
  lt : ∀ p b, F.known p = some b → p < F.size
  inbuf : ∀ p b, F.known p = some b → it.buf p = b

theorem memPass {S s : Nat} (hs : s ∣ S) (it : Item) (F : Flat) (h : MInv S it F) (offset : Nat) (data : List Byte)
    (hd : S ∣ offset) (hdl : S ∣ data.length) (hne : 0 < data.length) (ho : offset ≤ F.size ∨ 0 < F.size)
    (hfit : offset + data.length ≤ it.bsize) :
    ∃ it', writePass it s offset data = .ok (it', data.length) ∧ MInv S it' (F.write offset data) := by
  have hoff := h.off
  have hlen := h.len
  have hlb := h.lb
  have hsz := h.size
  have hloc : ∃ it1, locate it offset true = .ok it1 ∧ it1 = { it with modified := it1.modified } := by
    unfold locate
    by_cases hw : within it offset true
    · rw [if_pos hw]; exact ⟨it, rfl, rfl⟩
    · rw [if_neg hw]
      unfold within at hw
      rw [if_pos rfl] at hw
      have hl0 : it.len = 0 := by omega
      have hm : it.modified = false := by
        cases hm : it.modified with
        | false => rfl
        | true => have := h.mlen hm; omega
      have hf : flush it = .ok it := by unfold flush; rw [hm]; rfl
      unfold miss
      rw [hf]
      simp only
      rw [if_pos trivial]
      have hz : offset = 0 := by omega
      refine ⟨_, rfl, ?_⟩
      subst hz
      show (⟨it.fd, it.noCache, it.size, it.bsize, 0 / 2 * 2, 0, it.modified, it.buf, it.file, it.fsize⟩ : Item) = it
      have e1 : it.off = 0 / 2 * 2 := by omega
      rw [← e1, ← hl0]
  obtain ⟨it1, e1, i1⟩ := hloc
  have hgap : fillGap it1 offset = .ok it1 := by
    unfold fillGap
    rw [if_neg (by rw [i1]; show ¬(it.off + it.len < offset ∧ it.off + it.len < it.size); omega)]
  unfold writePass
  rw [e1]
  simp only
  rw [hgap]
  simp only
  generalize hmd : it1.modified = md at i1
  subst i1
  have hext : extend { it with modified := md } offset data.length =
      { it with modified := true, len := max it.len (offset + data.length), size := max it.size (offset + data.length) }
      := by
    unfold extend
    simp only
    have a : max it.len (min (data.length + offset - it.off) it.bsize) = max it.len (offset + data.length) := by omega
    have b : max it.size (it.off + max it.len (offset + data.length)) = max it.size (offset + data.length) := by omega
    rw [a, b]
  rw [hext]
  have hch : chunk { it with modified := true, len := max it.len (offset + data.length), size := max it.size (offset + data.length) } offset data.length = data.length := by
    unfold chunk
    simp only
    omega
  rw [hch]
  refine ⟨_, rfl, ?_⟩
  have hns : data.length / s * s = data.length := by
    rw [Nat.mul_comm]; exact Nat.mul_div_cancel' (Nat.dvd_trans hs hdl)
  unfold store
  simp only
  rw [hns]
  refine ⟨h.fd, h.nc, h.off, ?_, ?_, h.b64, ?_, fun _ => ?_, ?_, ?_, ?_⟩
  · show max it.len (offset + data.length) = max it.size (offset + data.length)
    omega
  · show max it.len (offset + data.length) ≤ it.bsize
    omega
  · show S ∣ max it.len (offset + data.length)
    rcases Nat.le_total it.len (offset + data.length) with hc | hc
    · rw [Nat.max_eq_right hc]; exact (Nat.dvd_add_right hd).mpr hdl
    · rw [Nat.max_eq_left hc]; exact h.dLen
  · show 0 < max it.len (offset + data.length)
    omega
  · show max it.size (offset + data.length) = max F.size (offset + data.length)
    omega
  · intro p b hp
    change (if offset ≤ p ∧ p < offset + data.length then data[p - offset]? else F.known p) = some b at hp
    show p < max F.size (offset + data.length)
    by_cases hin : offset ≤ p ∧ p < offset + data.length
    · omega
    · rw [if_neg hin] at hp
      have := h.lt p b hp
      omega
  · intro p b hp
    change (if offset ≤ p ∧ p < offset + data.length then data[p - offset]? else F.known p) = some b at hp
    show copy (fun k => data.getD k 0) 0 it.buf (offset - it.off) data.length p = b
    rw [show offset - it.off = offset by omega]
    by_cases hin : offset ≤ p ∧ p < offset + data.length
    · rw [if_pos hin] at hp
      rw [copy_in _ _ _ hin, List.getD_eq_getElem?_getD, Nat.zero_add, hp]
      rfl
    · rw [if_neg hin] at hp
      rw [copy_out _ _ _ hin]
      exact h.inbuf p b hp

/-- the first write that does not fit in memory -/
theorem grow_pass {S s : Nat} (it : Item) (F : Flat) (h : MInv S it F) (offset : Nat) (data : List Byte)
    (ho : offset ≤ F.size ∨ (0 < F.size ∧ offset < 16384)) (buf' : Nat → Byte) :
    writePass { it with bsize := 16384, buf := buf', fd := true, size := 0, fsize := 0 } s offset data =
    writePass { it with bsize := 16384, buf := buf', fd := true, size := it.len, fsize := 0, modified := decide (0 < it.len) } s offset data := by
  have hoff := h.off
  have hlen := h.len
  have hsz := h.size
  have hb := h.lb
  have h64 := h.b64
  by_cases hl : 0 < it.len
  · have w1 : within { it with bsize := 16384, buf := buf', fd := true, size := 0, fsize := 0 } offset true := by
      unfold within
      rw [if_pos rfl]
      show 0 < it.len ∧ it.off ≤ offset ∧ offset < it.off + 16384
      omega
    have w2 : within { it with bsize := 16384, buf := buf', fd := true, size := it.len, fsize := 0, modified := decide (0 < it.len) } offset true := by
      unfold within
      rw [if_pos rfl]
      show 0 < it.len ∧ it.off ≤ offset ∧ offset < it.off + 16384
      omega
    unfold writePass locate
    rw [if_pos w1, if_pos w2]
    simp only
    have g1 : fillGap { it with bsize := 16384, buf := buf', fd := true, size := 0, fsize := 0 } offset =
        .ok { it with bsize := 16384, buf := buf', fd := true, size := 0, fsize := 0 } := by
      unfold fillGap
      rw [if_neg (by show ¬(it.off + it.len < offset ∧ it.off + it.len < 0); omega)]
    have g2 : fillGap { it with bsize := 16384, buf := buf', fd := true, size := it.len, fsize := 0, modified := decide (0 < it.len) } offset =
        .ok { it with bsize := 16384, buf := buf', fd := true, size := it.len, fsize := 0, modified := decide (0 < it.len) } := by
      unfold fillGap
      rw [if_neg (by show ¬(it.off + it.len < offset ∧ it.off + it.len < it.len); omega)]
    rw [g1, g2]
    simp only
    have e : extend { it with bsize := 16384, buf := buf', fd := true, size := 0, fsize := 0 } offset data.length =
        extend { it with bsize := 16384, buf := buf', fd := true, size := it.len, fsize := 0, modified := decide (0 < it.len) } offset data.length := by
      unfold extend
      simp only
      congr 1
      omega
    rw [e]
  · have hl0 : it.len = 0 := by omega
    have hm : it.modified = false := by
      cases hm : it.modified with
      | false => rfl
      | true => have := h.mlen hm; omega
    congr 1
    rw [hl0, hm]
    rfl

theorem grow_inv {S : Nat} (it : Item) (F : Flat) (h : MInv S it F) (buf' : Nat → Byte)
    (hbuf : ∀ k, k < it.len → buf' k = it.buf k) :
    FInv S { it with bsize := 16384, buf := buf', fd := true, size := it.len, fsize := 0, modified := decide (0 < it.len) } F := by
  have hoff := h.off
  have hlen := h.len
  have hsz := h.size
  have hb := h.lb
  have h64 := h.b64
  refine ⟨rfl, rfl, ?_, ?_, h.dLen, h.dLen, ?_, ?_, ?_, ?_, h.lt, ?_, ?_, Nat.zero_le _, ?_⟩
  · show it.off % 2 = 0
    omega
  · show S ∣ it.off
    rw [hoff]; exact Nat.dvd_zero S
  · show it.len ≤ 16384
    omega
  · right
    show it.off + it.len ≤ it.len
    omega
  · intro hm
    exact of_decide_eq_true hm
  · show it.len = F.size
    omega
  · intro p b hp h5 h6
    change p < it.off + it.len at h6
    show buf' (p - it.off) = b
    rw [hoff, Nat.sub_zero, hbuf p (by omega)]
    exact h.inbuf p b hp
  · intro p b hp h5
    have := h.lt p b hp
    change (decide (0 < it.len) = false ∨ p < it.off ∨ it.off + it.len ≤ p) at h5
    exfalso
    rcases h5 with h5 | h5
    · have := of_decide_eq_false h5
      omega
    · omega
  · show it.len ≤ 0 ∨ (decide (0 < it.len) = true ∧ it.len = it.off + it.len)
    by_cases hl : 0 < it.len
    · right; exact ⟨decide_eq_true hl, by omega⟩
    · left; omega

/-! ## All items -/

/-- the item holds what the flat file holds -/
def Inv (S : Nat) (it : Item) (F : Flat) : Prop :=
  F.size ≤ 2 ^ 31 ∧ (if F.big then FInv S it F else MInv S it F)

theorem finv_big {S : Nat} {it : Item} {F : Flat} (h : FInv S it F) (b : Bool) : FInv S it { F with big := b } :=
  ⟨h.fd, h.bsize, h.even, h.dOff, h.dLen, h.dSize, h.lenb, h.fin, h.mlen, h.size, h.lt, h.inbuf, h.out, h.fsz, h.full⟩

theorem minv_big {S : Nat} {it : Item} {F : Flat} (h : MInv S it F) (b : Bool) : MInv S it { F with big := b } :=
  ⟨h.fd, h.nc, h.off, h.len, h.lb, h.b64, h.dLen, h.mlen, h.size, h.lt, h.inbuf⟩

theorem hwrite_inv {S : Nat} (hS : S ∣ 8) (it : Item) (F : Flat) (h : Inv S it F) (g : Nat → Byte) (s o : Nat)
    (data : List Byte) (hok : OpOk S F (.write g s o data)) :
    ∃ it', hwrite it g s o data = .ok it' ∧ Inv S it' (F.step (.write g s o data)) := by
  obtain ⟨hs, hd, hdl, hne, hb, hsm⟩ := hok
  obtain ⟨hF, hI⟩ := h
  have hpos : 0 < data.length := List.length_pos_iff.mpr hne
  have hsize : (F.step (.write g s o data)).size ≤ 2 ^ 31 := by
    show max F.size (o + data.length) ≤ 2 ^ 31
    omega
  cases hbig : F.big with
  | true =>
    rw [hbig, if_pos rfl] at hI
    have hp : prepare it (o + data.length) g = it := by
      unfold prepare
      rw [if_neg (by have := hI.bsize; show ¬(it.bsize < 16384 ∧ _); omega)]
    unfold hwrite
    rw [hp]
    obtain ⟨it', e, i⟩ := writeLoop_inv hS hs data.length it F o data hI hd hdl (Nat.le_refl _)
      (fun h => absurd h hne) hF hb
    refine ⟨it', e, hsize, ?_⟩
    have : (F.step (.write g s o data)).big = true := by show (F.big || _) = true; rw [hbig]; rfl
    rw [this, if_pos rfl]
    exact finv_big i _
  | false =>
    rw [hbig, if_neg (by decide)] at hI
    have hoF : o ≤ F.size ∨ (0 < F.size ∧ o < 16384) := by
      rcases hsm with h' | h'
      · rw [hbig] at h'; exact Bool.noConfusion h'
      · exact h'
    have h64 := hI.b64
    have hlb := hI.lb
    have hcons : ∃ b rest, data = b :: rest := by
      cases data with
      | nil => exact absurd rfl hne
      | cons b rest => exact ⟨b, rest, rfl⟩
    obtain ⟨b0, rest, hcons⟩ := hcons
    by_cases hbigger : 64 < o + data.length
    · -- a file is opened
      have hp : prepare it (o + data.length) g =
          { it with bsize := 16384, buf := copy it.buf 0 g 0 it.len, fd := true, size := 0, fsize := 0 } := by
        unfold prepare checkBuf
        rw [if_pos (by show it.bsize < 16384 ∧ _; omega)]
        simp only
        have c1 : ¬(it.bsize < o + data.length ∧ o + data.length ≤ CACHESIZE) := by unfold CACHESIZE; omega
        have c2 : it.bsize ≤ CACHESIZE ∧ CACHESIZE < o + data.length := by unfold CACHESIZE; omega
        simp only [if_neg c1, if_pos c2]
        rw [if_pos ⟨hI.fd, by decide, hI.nc⟩]
      have hgi := grow_inv it F hI (copy it.buf 0 g 0 it.len) (fun k hk => by
        rw [copy_in _ _ _ (by omega)]; congr 1; omega)
      have heq : hwrite it g s o data = writeLoop data.length
          { it with bsize := 16384, buf := copy it.buf 0 g 0 it.len, fd := true, size := it.len, fsize := 0, modified := decide (0 < it.len) } s o data := by
        unfold hwrite
        rw [hp]
        subst hcons
        rw [List.length_cons, writeLoop, writeLoop, grow_pass it F hI o (b0 :: rest) hoF]
      rw [heq]
      obtain ⟨it', e, i⟩ := writeLoop_inv hS hs data.length _ F o data hgi hd hdl (Nat.le_refl _)
        (fun h => absurd h hne) hF hb
      refine ⟨it', e, hsize, ?_⟩
      have : (F.step (.write g s o data)).big = true := by
        show (F.big || decide (64 < o + data.length)) = true
        rw [decide_eq_true hbigger, Bool.or_true]
      rw [this, if_pos rfl]
      exact finv_big i _
    · -- it stays in memory
      have hp : ∃ it1, prepare it (o + data.length) g = it1 ∧ MInv S it1 F ∧ o + data.length ≤ it1.bsize := by
        unfold prepare checkBuf
        by_cases hc : it.bsize < BUFSIZE ∧ it.bsize < o + data.length
        · rw [if_pos hc]
          simp only
          have c1 : it.bsize < o + data.length ∧ o + data.length ≤ CACHESIZE := by unfold CACHESIZE; omega
          simp only [if_pos c1]
          rw [if_neg (fun c => absurd c.2.1 (by decide))]
          refine ⟨_, rfl, ⟨hI.fd, hI.nc, hI.off, hI.len, ?_, Nat.le_refl _, hI.dLen, hI.mlen, hI.size, hI.lt, ?_⟩, ?_⟩
          · show it.len ≤ 64
            omega
          · intro p b hp
            have := hI.lt p b hp
            show copy it.buf 0 g 0 it.len p = b
            have hl := hI.len
            have hsz := hI.size
            rw [copy_in _ _ _ (by omega), show 0 + (p - 0) = p by omega]
            exact hI.inbuf p b hp
          · show o + data.length ≤ 64
            omega
        · rw [if_neg hc]
          refine ⟨it, rfl, hI, ?_⟩
          have : it.bsize < BUFSIZE := by show it.bsize < 16384; omega
          omega
      obtain ⟨it1, ep, i1, fit⟩ := hp
      obtain ⟨it2, e2, i2⟩ := memPass hs it1 F i1 o data hd hdl hpos (hoF.imp_right And.left) fit
      refine ⟨it2, ?_, hsize, ?_⟩
      · unfold hwrite
        rw [ep]
        subst hcons
        rw [List.length_cons, writeLoop, e2]
        simp only
        rw [List.drop_length]
        cases rest.length <;> rfl
      · have : (F.step (.write g s o data)).big = false := by
          show (F.big || decide (64 < o + data.length)) = false
          rw [hbig, decide_eq_false hbigger]; rfl
        rw [this, if_neg (by decide)]
        exact minv_big i2 _

theorem hread_inv {S : Nat} (hS : S ∣ 8) (it : Item) (F : Flat) (h : Inv S it F) (g : Nat → Byte) (s o n : Nat)
    (hok : OpOk S F (.read g s o n)) :
    ∃ it' bs, hread it g s o n = .ok (it', bs.map some) ∧ bs.length = n ∧ Right F o bs ∧ Inv S it' F := by
  obtain ⟨hs, hd, hdn, hle⟩ := hok
  obtain ⟨hF, hI⟩ := h
  unfold hread
  cases hbig : F.big with
  | true =>
    rw [hbig, if_pos rfl] at hI
    have hp : prepare it (o + n) g = it := by
      unfold prepare
      rw [if_neg (by have := hI.bsize; show ¬(it.bsize < 16384 ∧ _); omega)]
    rw [if_neg (by rw [hI.size]; omega), hp]
    obtain ⟨it', bs, e, l, r, i⟩ := readLoop_inv hS hs n it F o n hI hd hdn (Nat.le_refl _) hle hF
    refine ⟨it', bs, e, l, r, hF, ?_⟩
    rw [hbig, if_pos rfl]; exact i
  | false =>
    rw [hbig, if_neg (by decide)] at hI
    have hlb := hI.lb
    have hl := hI.len
    have hsz := hI.size
    have hoff := hI.off
    have hp : prepare it (o + n) g = it := by
      unfold prepare
      rw [if_neg (by omega)]
    rw [if_neg (by omega), hp]
    have hInv : Inv S it F := ⟨hF, by rw [hbig, if_neg (by decide)]; exact hI⟩
    cases n with
    | zero => exact ⟨it, [], rfl, rfl, fun k b hk => by simp at hk, hInv⟩
    | succ n =>
      refine ⟨it, (List.range (n + 1)).map fun (k : Nat) => it.buf (o - it.off + k), ?_, by simp, ?_, hInv⟩
      · rw [readLoop]
        have hloc : locate it o false = .ok it := by
          unfold locate
          rw [if_pos]
          unfold within
          rw [if_neg (by decide)]
          omega
        rw [hloc]
        simp only
        have hch : chunk it o (n + 1) = n + 1 := by unfold chunk; omega
        rw [hch, Nat.sub_self, fetch_eq it o (Nat.dvd_trans hs hdn)]
        have : readLoop n it s (o + (n + 1)) 0 = .ok (it, []) := by cases n <;> rfl
        rw [this]
        simp only [List.append_nil]
      · intro k b hk hkn
        simp only [List.length_map, List.length_range] at hk
        rw [List.getElem?_map, List.getElem?_range hk]
        show some (it.buf (o - it.off + k)) = some b
        rw [hoff, Nat.sub_zero, hI.inbuf _ b hkn]

theorem hdaccess_inv {S : Nat} (it : Item) (F : Flat) (h : FInv S it F) :
    ∃ it', hdaccess it = .ok it' ∧ it'.fd = true ∧ it'.fsize = F.size ∧ ∀ p b, F.known p = some b → it'.file p = b := by
  unfold hdaccess
  rw [if_pos h.fd]
  cases hm : it.modified with
  | false =>
    rw [if_neg (by decide)]
    refine ⟨it, rfl, h.fd, ?_, fun p b hp => (h.out p b hp (Or.inl hm)).2⟩
    have := h.size
    have := h.fsz
    rcases h.full with h' | ⟨h', _⟩
    · omega
    · rw [hm] at h'; exact Bool.noConfusion h'
  | true =>
    rw [if_pos rfl]
    obtain ⟨it', e, i, s, _⟩ := dwrite_inv it F h hm
    rw [e]
    exact ⟨_, rfl, i.fd, s, fun p b hp => (i.out p b hp (Or.inl rfl)).2⟩

theorem openFile_inv {S : Nat} (nc : Bool) (file g : Nat → Byte) (fsize : Nat) (hd : S ∣ fsize) (F : Flat)
    (hs : F.size = fsize) (hk : ∀ p b, F.known p = some b → p < fsize ∧ file p = b) :
    FInv S (openFile nc file g fsize) F := by
  refine ⟨rfl, rfl, rfl, Nat.dvd_zero S, Nat.dvd_zero S, hd, Nat.zero_le _, Or.inl rfl, ?_, hs.symm, ?_, ?_, ?_, ?_, ?_⟩
  · intro hm; exact Bool.noConfusion (show false = true from hm)
  · intro p b hp; rw [hs]; exact (hk p b hp).1
  · intro p b hp _ h6
    change p < 0 + 0 at h6
    omega
  · intro p b hp _
    exact hk p b hp
  · exact Nat.le_refl _
  · exact Or.inl (Nat.le_refl _)

theorem reopen_inv {S : Nat} (it : Item) (F : Flat) (h : Inv S it F) (g : Nat → Byte)
    (hok : OpOk S F (.reopen g)) : ∃ it', reopen it g = .ok it' ∧ Inv S it' F := by
  obtain ⟨hF, hI⟩ := h
  unfold reopen
  cases hbig : F.big with
  | true =>
    rw [hbig, if_pos rfl] at hI
    obtain ⟨it1, e, f, s, k⟩ := hdaccess_inv it F hI
    rw [e]
    simp only
    rw [if_pos f]
    refine ⟨_, rfl, hF, ?_⟩
    rw [hbig, if_pos rfl]
    refine openFile_inv _ _ _ _ ?_ F s.symm (fun p b hp => ⟨?_, k p b hp⟩)
    · rw [s, ← hI.size]; exact hI.dSize
    · rw [s]; exact hI.lt p b hp
  | false =>
    rw [hbig, if_neg (by decide)] at hI
    have h0 : 0 < F.size := by
      rcases hok with h' | h'
      · rw [hbig] at h'; exact Bool.noConfusion h'
      · exact h'
    unfold hdaccess
    rw [if_neg (by rw [hI.fd]; decide)]
    simp only
    rw [if_neg (by rw [hI.fd]; decide), if_neg (by have := hI.size; omega)]
    refine ⟨_, rfl, hF, ?_⟩
    rw [hbig, if_neg (by decide)]
    exact ⟨hI.fd, hI.nc, hI.off, hI.len, hI.lb, hI.b64, hI.dLen,
      fun hm => Bool.noConfusion (show false = true from hm), hI.size, hI.lt, hI.inbuf⟩

theorem step_inv {S : Nat} (hS : S ∣ 8) (it : Item) (F : Flat) (h : Inv S it F) (o : Op) (hok : OpOk S F o) :
    ∃ it', step it o = .ok it' ∧ Inv S it' (F.step o) := by
  cases o with
  | write g s o data => exact hwrite_inv hS it F h g s o data hok
  | read g s o n =>
    obtain ⟨it', bs, e, _, _, i⟩ := hread_inv hS it F h g s o n hok
    refine ⟨it', ?_, i⟩
    show (hread it g s o n).map (·.1) = .ok it'
    rw [e]; rfl
  | reopen g => exact reopen_inv it F h g hok

theorem run_inv {S : Nat} (hS : S ∣ 8) : ∀ (ops : List Op) (it : Item) (F : Flat), Inv S it F → OpsOk S F ops →
    ∃ it', run it ops = .ok it' ∧ Inv S it' (ops.foldl Flat.step F)
  | [], it, F, h, _ => ⟨it, rfl, h⟩
  | o :: os, it, F, h, ⟨ho, hos⟩ => by
    obtain ⟨it1, e1, i1⟩ := step_inv hS it F h o ho
    obtain ⟨it2, e2, i2⟩ := run_inv hS os it1 (F.step o) i1 hos
    refine ⟨it2, ?_, i2⟩
    rw [run, e1]
    exact e2

/-! ## C45 -/

/-- how an item starts: new, in a file of its own, or read from the header file -/
inductive Start
  | new
  | file (noCache : Bool) (bytes : List Byte)
  | header (bytes : List Byte)

/-- the item; `d` is what lies beyond the end of the file, `g` the new buffer -/
def Start.item (d g : Nat → Byte) : Start → Item
  | .new => newItem d
  | .file nc bytes => openFile nc (fun k => bytes.getD k (d k)) g bytes.length
  | .header bytes => cached bytes

/-- the flat file -/
def Start.flat : Start → Flat
  | .new => ⟨fun _ => none, 0, false⟩
  | .file _ bytes => ⟨fun p => bytes[p]?, bytes.length, true⟩
  | .header bytes => ⟨fun p => bytes[p]?, bytes.length, false⟩

/-- files are smaller than 2^31 bytes, items of the header file have at most 64; all are whole in units of `S` -/
def Start.Ok (S : Nat) : Start → Prop
  | .new => True
  | .file _ bytes => S ∣ bytes.length ∧ bytes.length ≤ 2 ^ 31
  | .header bytes => S ∣ bytes.length ∧ bytes.length ≤ 64

theorem start_inv {S : Nat} (st : Start) (d g : Nat → Byte) (h : st.Ok S) : Inv S (st.item d g) st.flat := by
  cases st with
  | new =>
    refine ⟨by show 0 ≤ 2 ^ 31; decide, ?_⟩
    show MInv S (newItem d) _
    refine ⟨rfl, rfl, rfl, rfl, Nat.le_refl _, Nat.zero_le _, Nat.dvd_zero S, ?_, rfl, ?_, ?_⟩
    · intro hm; exact Bool.noConfusion (show false = true from hm)
    · intro p b hp; cases hp
    · intro p b hp; cases hp
  | file nc bytes =>
    refine ⟨h.2, ?_⟩
    show FInv S (openFile nc _ g bytes.length) _
    refine openFile_inv nc _ g _ h.1 _ rfl ?_
    intro p b hp
    change bytes[p]? = some b at hp
    refine ⟨?_, ?_⟩
    · rcases Nat.lt_or_ge p bytes.length with hlt | hge
      · exact hlt
      · rw [List.getElem?_eq_none hge] at hp; cases hp
    · show bytes.getD p (d p) = b
      rw [List.getD_eq_getElem?_getD, hp]; rfl
  | header bytes =>
    have h64 := h.2
    refine ⟨by show bytes.length ≤ 2 ^ 31; omega, ?_⟩
    show MInv S (cached bytes) _
    refine ⟨rfl, rfl, rfl, rfl, Nat.le_refl _, h.2, h.1, ?_, rfl, ?_, ?_⟩
    · intro hm; exact Bool.noConfusion (show false = true from hm)
    · intro p b hp
      change bytes[p]? = some b at hp
      show p < bytes.length
      rcases Nat.lt_or_ge p bytes.length with hlt | hge
      · exact hlt
      · rw [List.getElem?_eq_none hge] at hp; cases hp
    · intro p b hp
      change bytes[p]? = some b at hp
      show bytes.getD p 0 = b
      rw [List.getD_eq_getElem?_getD, hp]; rfl

/-- **C45.**  A history of reads, writes and reopenings never fails; after it the item has the size of the flat file,
and every read within it transfers all bytes asked for, each with the value written last. -/
theorem c45_last_written {S : Nat} (hS : S ∣ 8) (st : Start) (d g : Nat → Byte) (h : st.Ok S) (ops : List Op)
    (hops : OpsOk S st.flat ops) :
    ∃ it, run (st.item d g) ops = .ok it ∧ it.size = (ops.foldl Flat.step st.flat).size ∧
      ∀ (g' : Nat → Byte) (s o n : Nat), s ∣ S → S ∣ o → S ∣ n → o + n ≤ (ops.foldl Flat.step st.flat).size →
        ∃ (it' : Item) (bs : List Byte), hread it g' s o n = .ok (it', bs.map some) ∧ bs.length = n ∧
          ∀ (k : Nat) (b : Byte), k < n → (ops.foldl Flat.step st.flat).known (o + k) = some b → bs[k]? = some b := by
  obtain ⟨it, e, hF, hI⟩ := run_inv hS ops _ _ (start_inv st d g h) hops
  refine ⟨it, e, ?_, ?_⟩
  · split at hI
    · exact hI.size
    · exact hI.size
  · intro g' s o n hs hd hn hle
    obtain ⟨it', bs, e', l, r, _⟩ := hread_inv hS it _ ⟨hF, hI⟩ g' s o n ⟨hs, hd, hn, hle⟩
    refine ⟨it', bs, e', l, ?_⟩
    intro k b hk hkn
    exact r k b (by omega) hkn

/-- **C45.**  Reading beyond the end is refused, and only that. -/
theorem c45_end_of_file (it : Item) (g : Nat → Byte) (s o n : Nat) (h : it.size < o + n) :
    hread it g s o n = .error .eof := by
  unfold hread
  rw [if_pos h]

/-- **C45.**  An item with a file: closing it leaves exactly the bytes of the flat file on disk. -/
theorem c45_on_disk {S : Nat} (hS : S ∣ 8) (st : Start) (d g : Nat → Byte) (h : st.Ok S) (ops : List Op)
    (hops : OpsOk S st.flat ops) (hbig : (ops.foldl Flat.step st.flat).big = true) :
    ∃ it it', run (st.item d g) ops = .ok it ∧ hdaccess it = .ok it' ∧
      it'.fsize = (ops.foldl Flat.step st.flat).size ∧
      ∀ p b, (ops.foldl Flat.step st.flat).known p = some b → it'.file p = b := by
  obtain ⟨it, e, hF, hI⟩ := run_inv hS ops _ _ (start_inv st d g h) hops
  rw [hbig, if_pos rfl] at hI
  obtain ⟨it', e', _, s, k⟩ := hdaccess_inv it _ hI
  exact ⟨it, it', e, e', s, k⟩

/-- **C45.**  A small item: closing it leaves the bytes of the flat file at the start of the buffer, from where they go
to the header file (C46). -/
theorem c45_in_memory {S : Nat} (hS : S ∣ 8) (st : Start) (d g : Nat → Byte) (h : st.Ok S) (ops : List Op)
    (hops : OpsOk S st.flat ops) (hbig : (ops.foldl Flat.step st.flat).big = false) :
    ∃ it it', run (st.item d g) ops = .ok it ∧ hdaccess it = .ok it' ∧
      it'.size = (ops.foldl Flat.step st.flat).size ∧ it'.size ≤ 64 ∧
      ∀ p b, (ops.foldl Flat.step st.flat).known p = some b → it'.buf p = b := by
  obtain ⟨it, e, hF, hI⟩ := run_inv hS ops _ _ (start_inv st d g h) hops
  rw [hbig, if_neg (by decide)] at hI
  refine ⟨it, { it with modified := false }, e, ?_, hI.size, ?_, hI.inbuf⟩
  · unfold hdaccess
    rw [if_neg (by rw [hI.fd]; decide)]
  · have := hI.lb
    have := hI.b64
    have := hI.len
    show it.size ≤ 64
    omega

/-! ### A history meeting the hypotheses -/

/-- a new item outgrows the memory, is written across the end of a buffer, read there and opened again -/
example : OpsOk 4 (Start.flat .new)
    [.write (fun _ => 0) 4 0 (List.replicate 40 1), .write (fun _ => 0) 2 40 (List.replicate 40 2),
     .write (fun _ => 0) 4 16380 [1, 2, 3, 4, 5, 6, 7, 8], .read (fun _ => 0) 4 16380 8, .reopen (fun _ => 0),
     .write (fun _ => 0) 4 30000 [1, 2, 3, 4]] := by
  refine ⟨⟨⟨1, rfl⟩, ⟨0, rfl⟩, ⟨10, rfl⟩, by decide, by decide, Or.inr (Or.inl (Nat.le_refl _))⟩,
    ⟨⟨2, rfl⟩, ⟨10, rfl⟩, ⟨10, rfl⟩, by decide, by decide, Or.inr (Or.inl (by decide))⟩,
    ⟨⟨1, rfl⟩, ⟨4095, rfl⟩, ⟨2, rfl⟩, by decide, by decide, Or.inl rfl⟩,
    ⟨⟨1, rfl⟩, ⟨4095, rfl⟩, ⟨2, rfl⟩, by decide⟩, Or.inl rfl,
    ⟨⟨1, rfl⟩, ⟨7500, rfl⟩, ⟨1, rfl⟩, by decide, by decide, Or.inl rfl⟩, trivial⟩

/-- a small item stays in memory -/
example : (Start.header [1, 2, 3, 4]).Ok 4 ∧
    OpsOk 4 (Start.flat (.header [1, 2, 3, 4])) [.write (fun _ => 0) 4 4 [9, 9, 9, 9], .read (fun _ => 0) 4 0 8] ∧
    (([.write (fun _ => 0) 4 4 [9, 9, 9, 9], .read (fun _ => 0) 4 0 8] : List Op).foldl Flat.step
      (Start.flat (.header [1, 2, 3, 4]))).big = false :=
  ⟨⟨⟨1, rfl⟩, by decide⟩, ⟨⟨⟨1, rfl⟩, ⟨1, rfl⟩, ⟨1, rfl⟩, by decide, by decide, Or.inr (Or.inl (by decide))⟩,
    ⟨⟨1, rfl⟩, ⟨0, rfl⟩, ⟨2, rfl⟩, by decide⟩, trivial⟩, rfl⟩

/-! ### Where the code does not behave like a flat file -/

/-- **C45, disagreement.**  A new small item first written at byte 8 has size 12, but the bytes are put at the start of
the buffer, which is what goes to the header file. -/
theorem c45_small_gap_misplaced (d : Nat → Byte) :
    ∃ it, hwrite (newItem d) (fun _ => 0) 4 8 [1, 2, 3, 4] = .ok it ∧ it.size = 12 ∧ it.buf 0 = 1 ∧ it.buf 8 = 0 := by
  refine ⟨_, rfl, rfl, ?_, ?_⟩
  · with_unfolding_all rfl
  · with_unfolding_all rfl

/-- **C45, disagreement.**  A double read across the end of a buffer that starts at a multiple of four only is not
delivered at all, although the read succeeds. -/
theorem c45_split_element_lost :
    ∃ it it', (hread (openFile false (fun _ => 7) (fun _ => 0) 16400) (fun _ => 0) 4 4 4).map (·.1) = .ok it ∧
      hread it (fun _ => 0) 8 16384 8 = .ok (it', List.replicate 8 none) :=
  ⟨_, _, rfl, rfl⟩

/-- **C45, disagreement.**  Writing nothing beyond byte 64 of a small item empties it. -/
theorem c45_empty_write_erases :
    ∃ it, hwrite (cached [1, 2, 3, 4]) (fun _ => 0) 4 72 [] = .ok it ∧ it.size = 0 ∧
      hread it (fun _ => 0) 4 0 4 = .error .eof :=
  ⟨_, rfl, rfl, rfl⟩

/-- **C45, disagreement.**  A small item written far beyond its end loses its content. -/
theorem c45_far_write_erases :
    ∃ it it', hwrite (cached [1, 2, 3, 4]) (fun _ => 0) 4 16384 [5, 6, 7, 8] = .ok it ∧
      hread it (fun _ => 0) 4 0 4 = .ok (it', [some 0, some 0, some 0, some 0]) :=
  ⟨_, _, rfl, rfl⟩

end Verif.Mir.Hio
