/-!
# Property C42 : big-endian packing

`/repo/aipy/_miriad/mir/pack.c` 94-293, the little-endian version (the one compiled on PCs).  An `int` or `float` in
memory is its 32 bit pattern, an `int8` (64 bit integer) or `double` its 64 bit pattern; `float` and `double` routines
do the same byte reversal as the integer ones of the same width.
-/
namespace Verif.Mir

abbrev Byte := BitVec 8

/-- `*(s+k)`: byte `k` of a number in little-endian memory -/
def memByte {n : Nat} (w : BitVec n) (k : Nat) : Byte := w.extractLsb' (8 * k) 8

/-- four bytes in memory read as an `int` or `float` -/
def ofMem4 (b0 b1 b2 b3 : Byte) : BitVec 32 := b3 ++ b2 ++ b1 ++ b0

/-- eight bytes in memory read as an `int8` or `double` -/
def ofMem8 (b0 b1 b2 b3 b4 b5 b6 b7 : Byte) : BitVec 64 := b7 ++ b6 ++ b5 ++ b4 ++ b3 ++ b2 ++ b1 ++ b0

/-- `pack16_c`, pack.c 94-108 -/
def pack16 : List (BitVec 32) → List Byte
  | [] => []
  | w :: ws => memByte w 1 :: memByte w 0 :: pack16 ws

/-- `unpack16_c`, pack.c 110-132; the input has to hold all the numbers asked for -/
def unpack16 : Nat → List Byte → Option (List (BitVec 32))
  | 0, _ => some []
  | n + 1, i0 :: i1 :: rest =>
    (unpack16 n rest).map (fun ws =>
      (if (0x80#8 &&& i0) ≠ 0#8 then ofMem4 i1 i0 0xFF#8 0xFF#8 else ofMem4 i1 i0 0#8 0#8) :: ws)
  | _ + 1, _ => none

/-- `pack32_c` 134-150 and `packr_c` 213-229 -/
def pack32 : List (BitVec 32) → List Byte
  | [] => []
  | w :: ws => memByte w 3 :: memByte w 2 :: memByte w 1 :: memByte w 0 :: pack32 ws

/-- `unpack32_c` 152-168 and `unpackr_c` 231-247 -/
def unpack32 : Nat → List Byte → Option (List (BitVec 32))
  | 0, _ => some []
  | n + 1, i0 :: i1 :: i2 :: i3 :: rest => (unpack32 n rest).map (fun ws => ofMem4 i3 i2 i1 i0 :: ws)
  | _ + 1, _ => none

/-- `pack64_c` 170-190 and `packd_c` 249-270 -/
def pack64 : List (BitVec 64) → List Byte
  | [] => []
  | w :: ws => memByte w 7 :: memByte w 6 :: memByte w 5 :: memByte w 4 :: memByte w 3 :: memByte w 2 ::
      memByte w 1 :: memByte w 0 :: pack64 ws

/-- `unpack64_c` 192-211 and `unpackd_c` 272-293 -/
def unpack64 : Nat → List Byte → Option (List (BitVec 64))
  | 0, _ => some []
  | n + 1, i0 :: i1 :: i2 :: i3 :: i4 :: i5 :: i6 :: i7 :: rest =>
    (unpack64 n rest).map (fun ws => ofMem8 i7 i6 i5 i4 i3 i2 i1 i0 :: ws)
  | _ + 1, _ => none

/-! ## Specification -/

/-- the number written in base 256 with the most significant digit first -/
def beNat : List Byte → Nat
  | [] => 0
  | b :: bs => b.toNat * 256 ^ bs.length + beNat bs

/-- the digits of one number out of the packed array: number `i` of `width` bytes -/
def slot (width i : Nat) (bs : List Byte) : List Byte := (bs.drop (width * i)).take width

/-! ## Lemmas -/

theorem memByte_toNat {n : Nat} (w : BitVec n) (k : Nat) : (memByte w k).toNat = w.toNat / 2 ^ (8 * k) % 256 := by
  simp [memByte, BitVec.extractLsb'_toNat, Nat.shiftRight_eq_div_pow]

theorem ofMem4_toNat (b0 b1 b2 b3 : Byte) : (ofMem4 b0 b1 b2 b3).toNat =
    b3.toNat * 256 ^ 3 + b2.toNat * 256 ^ 2 + b1.toNat * 256 + b0.toNat := by
  unfold ofMem4
  have h0 := b0.isLt; have h1 := b1.isLt; have h2 := b2.isLt; have h3 := b3.isLt
  rw [BitVec.toNat_append, BitVec.toNat_append, BitVec.toNat_append, Nat.shiftLeft_eq, Nat.shiftLeft_eq,
    Nat.shiftLeft_eq, ← Nat.shiftLeft_eq, ← Nat.shiftLeft_eq, ← Nat.shiftLeft_eq, ← Nat.shiftLeft_add_eq_or_of_lt h2,
    ← Nat.shiftLeft_add_eq_or_of_lt h1, ← Nat.shiftLeft_add_eq_or_of_lt h0]
  simp only [Nat.shiftLeft_eq]
  omega

theorem ofMem8_toNat (b0 b1 b2 b3 b4 b5 b6 b7 : Byte) : (ofMem8 b0 b1 b2 b3 b4 b5 b6 b7).toNat =
    b7.toNat * 256 ^ 7 + b6.toNat * 256 ^ 6 + b5.toNat * 256 ^ 5 + b4.toNat * 256 ^ 4 +
      b3.toNat * 256 ^ 3 + b2.toNat * 256 ^ 2 + b1.toNat * 256 + b0.toNat := by
  unfold ofMem8
  have h0 := b0.isLt; have h1 := b1.isLt; have h2 := b2.isLt; have h3 := b3.isLt
  have h4 := b4.isLt; have h5 := b5.isLt; have h6 := b6.isLt
  rw [BitVec.toNat_append, BitVec.toNat_append, BitVec.toNat_append, BitVec.toNat_append, BitVec.toNat_append,
    BitVec.toNat_append, BitVec.toNat_append, ← Nat.shiftLeft_add_eq_or_of_lt h6, ← Nat.shiftLeft_add_eq_or_of_lt h5,
    ← Nat.shiftLeft_add_eq_or_of_lt h4, ← Nat.shiftLeft_add_eq_or_of_lt h3, ← Nat.shiftLeft_add_eq_or_of_lt h2,
    ← Nat.shiftLeft_add_eq_or_of_lt h1, ← Nat.shiftLeft_add_eq_or_of_lt h0]
  simp only [Nat.shiftLeft_eq]
  omega

theorem ofMem4_memByte (w : BitVec 32) : ofMem4 (memByte w 0) (memByte w 1) (memByte w 2) (memByte w 3) = w := by
  apply BitVec.eq_of_toNat_eq
  rw [ofMem4_toNat]
  simp only [memByte_toNat]
  have := w.isLt
  omega

theorem ofMem8_memByte (w : BitVec 64) : ofMem8 (memByte w 0) (memByte w 1) (memByte w 2) (memByte w 3)
    (memByte w 4) (memByte w 5) (memByte w 6) (memByte w 7) = w := by
  apply BitVec.eq_of_toNat_eq
  rw [ofMem8_toNat]
  simp only [memByte_toNat]
  have := w.isLt
  omega

theorem memByte_ofMem4 (b0 b1 b2 b3 : Byte) : memByte (ofMem4 b0 b1 b2 b3) 0 = b0 ∧
    memByte (ofMem4 b0 b1 b2 b3) 1 = b1 ∧ memByte (ofMem4 b0 b1 b2 b3) 2 = b2 ∧
    memByte (ofMem4 b0 b1 b2 b3) 3 = b3 := by
  have h0 := b0.isLt; have h1 := b1.isLt; have h2 := b2.isLt; have h3 := b3.isLt
  refine ⟨?_, ?_, ?_, ?_⟩ <;>
    · apply BitVec.eq_of_toNat_eq
      rw [memByte_toNat, ofMem4_toNat]
      omega

theorem memByte_ofMem8 (b0 b1 b2 b3 b4 b5 b6 b7 : Byte) : memByte (ofMem8 b0 b1 b2 b3 b4 b5 b6 b7) 0 = b0 ∧
    memByte (ofMem8 b0 b1 b2 b3 b4 b5 b6 b7) 1 = b1 ∧ memByte (ofMem8 b0 b1 b2 b3 b4 b5 b6 b7) 2 = b2 ∧
    memByte (ofMem8 b0 b1 b2 b3 b4 b5 b6 b7) 3 = b3 ∧ memByte (ofMem8 b0 b1 b2 b3 b4 b5 b6 b7) 4 = b4 ∧
    memByte (ofMem8 b0 b1 b2 b3 b4 b5 b6 b7) 5 = b5 ∧ memByte (ofMem8 b0 b1 b2 b3 b4 b5 b6 b7) 6 = b6 ∧
    memByte (ofMem8 b0 b1 b2 b3 b4 b5 b6 b7) 7 = b7 := by
  have h0 := b0.isLt; have h1 := b1.isLt; have h2 := b2.isLt; have h3 := b3.isLt
  have h4 := b4.isLt; have h5 := b5.isLt; have h6 := b6.isLt; have h7 := b7.isLt
  refine ⟨?_, ?_, ?_, ?_, ?_, ?_, ?_, ?_⟩ <;>
    · apply BitVec.eq_of_toNat_eq
      rw [memByte_toNat, ofMem8_toNat]
      omega

/-- the number that the sixteen bits hold as a signed number -/
theorem ofMem4_sign (i0 i1 : Byte) :
    (if (0x80#8 &&& i0) ≠ 0#8 then ofMem4 i1 i0 0xFF#8 0xFF#8 else ofMem4 i1 i0 0#8 0#8).toInt =
      (i0.toInt * 256 + i1.toNat : Int) := by
  have hsign : ((0x80#8 &&& i0) ≠ 0#8) ↔ 128 ≤ i0.toNat := by
    revert i0; decide
  have h0 := i0.isLt; have h1 := i1.isLt
  by_cases h : (0x80#8 &&& i0) ≠ 0#8
  · rw [if_pos h]
    rw [hsign] at h
    rw [BitVec.toInt_eq_toNat_cond, ofMem4_toNat, BitVec.toInt_eq_toNat_cond]
    simp only [BitVec.toNat_ofNat]
    split <;> split <;> omega
  · rw [if_neg h]
    rw [hsign] at h
    rw [BitVec.toInt_eq_toNat_cond, ofMem4_toNat, BitVec.toInt_eq_toNat_cond]
    simp only [BitVec.toNat_ofNat]
    split <;> split <;> omega

theorem pack32_length (ws : List (BitVec 32)) : (pack32 ws).length = 4 * ws.length := by
  induction ws with
  | nil => rfl
  | cons w ws ih => simp only [pack32, List.length_cons, ih]; omega

theorem pack64_length (ws : List (BitVec 64)) : (pack64 ws).length = 8 * ws.length := by
  induction ws with
  | nil => rfl
  | cons w ws ih => simp only [pack64, List.length_cons, ih]; omega

theorem pack16_length (ws : List (BitVec 32)) : (pack16 ws).length = 2 * ws.length := by
  induction ws with
  | nil => rfl
  | cons w ws ih => simp only [pack16, List.length_cons, ih]; omega

/-! ## C42 -/

/-- C42: 32 bit numbers (integers and float patterns) are recovered from what was packed, whatever follows it. -/
theorem c42_32 (ws : List (BitVec 32)) (rest : List Byte) : unpack32 ws.length (pack32 ws ++ rest) = some ws := by
  induction ws with
  | nil => rfl
  | cons w ws ih =>
    simp only [pack32, List.length_cons, List.cons_append, unpack32, ih, Option.map_some, ofMem4_memByte]

/-- C42: and packing what was unpacked gives the bytes back. -/
theorem c42_32_back (n : Nat) (bs : List Byte) (h : bs.length = 4 * n) : (unpack32 n bs).map pack32 = some bs := by
  induction n generalizing bs with
  | zero => cases bs with
    | nil => rfl
    | cons b bs => simp at h
  | succ n ih =>
    match bs, h with
    | i0 :: i1 :: i2 :: i3 :: rest, h =>
      have hr := ih rest (by simp at h; omega)
      rw [unpack32]
      obtain ⟨m0, m1, m2, m3⟩ := memByte_ofMem4 i3 i2 i1 i0
      cases hu : unpack32 n rest with
      | none => rw [hu] at hr; simp at hr
      | some ws =>
        rw [hu] at hr
        simp only [Option.map_some, Option.some.injEq] at hr
        simp [pack32, m0, m1, m2, m3, hr]
    | [], h => simp at h
    | [_], h => simp at h; omega
    | [_, _], h => simp at h; omega
    | [_, _, _], h => simp at h; omega

/-- C42: the same for 64 bit numbers (integers and double patterns). -/
theorem c42_64 (ws : List (BitVec 64)) (rest : List Byte) : unpack64 ws.length (pack64 ws ++ rest) = some ws := by
  induction ws with
  | nil => rfl
  | cons w ws ih =>
    simp only [pack64, List.length_cons, List.cons_append, unpack64, ih, Option.map_some, ofMem8_memByte]

theorem c42_64_back (n : Nat) (bs : List Byte) (h : bs.length = 8 * n) : (unpack64 n bs).map pack64 = some bs := by
  induction n generalizing bs with
  | zero => cases bs with
    | nil => rfl
    | cons b bs => simp at h
  | succ n ih =>
    match bs, h with
    | i0 :: i1 :: i2 :: i3 :: i4 :: i5 :: i6 :: i7 :: rest, h =>
      have hr := ih rest (by simp at h; omega)
      rw [unpack64]
      obtain ⟨m0, m1, m2, m3, m4, m5, m6, m7⟩ := memByte_ofMem8 i7 i6 i5 i4 i3 i2 i1 i0
      cases hu : unpack64 n rest with
      | none => rw [hu] at hr; simp at hr
      | some ws =>
        rw [hu] at hr
        simp only [Option.map_some, Option.some.injEq] at hr
        simp [pack64, m0, m1, m2, m3, m4, m5, m6, m7, hr]
    | [], h => simp at h
    | [_], h => simp at h; omega
    | [_, _], h => simp at h; omega
    | [_, _, _], h => simp at h; omega
    | [_, _, _, _], h => simp at h; omega
    | [_, _, _, _, _], h => simp at h; omega
    | [_, _, _, _, _, _], h => simp at h; omega
    | [_, _, _, _, _, _, _], h => simp at h; omega

/-- C42: integers that fit in 16 bits, negative ones included, are recovered. -/
theorem c42_16 (ws : List (BitVec 32)) (rest : List Byte) (h : ∀ w ∈ ws, -32768 ≤ w.toInt ∧ w.toInt ≤ 32767) :
    unpack16 ws.length (pack16 ws ++ rest) = some ws := by
  induction ws with
  | nil => rfl
  | cons w ws ih =>
    simp only [pack16, List.length_cons, List.cons_append, unpack16, ih (fun v hv => h v (List.mem_cons_of_mem _ hv)),
      Option.map_some]
    congr 2
    apply BitVec.eq_of_toInt_eq
    rw [ofMem4_sign]
    have hw := h w (List.mem_cons_self ..)
    have hl := w.isLt
    rw [BitVec.toInt_eq_toNat_cond, memByte_toNat, memByte_toNat]
    rw [BitVec.toInt_eq_toNat_cond] at hw ⊢
    split at hw <;> split <;> omega

/-- C42: larger integers lose their upper half: what comes back is the signed value of the lower 16 bits. -/
theorem c42_16_truncates (w : BitVec 32) :
    unpack16 1 (pack16 [w]) = some [(w.extractLsb' 0 16).signExtend 32] := by
  simp only [pack16, unpack16, Option.map_some]
  congr 2
  apply BitVec.eq_of_toInt_eq
  rw [ofMem4_sign, BitVec.toInt_signExtend_of_le (by decide)]
  have hl := w.isLt
  rw [BitVec.toInt_eq_toNat_cond, BitVec.toInt_eq_toNat_cond, memByte_toNat, memByte_toNat,
    BitVec.extractLsb'_toNat]
  simp only [Nat.shiftRight_zero]
  split <;> split <;> omega

/-- C42: packing 16 bit numbers unpacked from a file gives the bytes back. -/
theorem c42_16_back (n : Nat) (bs : List Byte) (h : bs.length = 2 * n) : (unpack16 n bs).map pack16 = some bs := by
  induction n generalizing bs with
  | zero => cases bs with
    | nil => rfl
    | cons b bs => simp at h
  | succ n ih =>
    match bs, h with
    | i0 :: i1 :: rest, h =>
      have hr := ih rest (by simp at h; omega)
      rw [unpack16]
      cases hu : unpack16 n rest with
      | none => rw [hu] at hr; simp at hr
      | some ws =>
        rw [hu] at hr
        simp only [Option.map_some, Option.some.injEq] at hr
        simp only [Option.map_some, pack16, hr]
        split
        · rw [(memByte_ofMem4 _ _ _ _).1, (memByte_ofMem4 _ _ _ _).2.1]
        · rw [(memByte_ofMem4 _ _ _ _).1, (memByte_ofMem4 _ _ _ _).2.1]
    | [], h => simp at h
    | [_], h => simp at h; omega

theorem slot_zero (k : Nat) (bs bs' : List Byte) (h : bs.length = k) : slot k 0 (bs ++ bs') = bs := by
  subst h
  simp [slot]

theorem slot_succ (k i : Nat) (bs bs' : List Byte) (h : bs.length = k) : slot k (i + 1) (bs ++ bs') = slot k i bs' := by
  unfold slot
  rw [Nat.mul_add, Nat.mul_one, Nat.add_comm, ← List.drop_drop]
  congr 2
  subst h
  rw [List.drop_left]

/-- C42: the bytes on disk are big-endian: number `i` occupies bytes `4 i` to `4 i + 3`, most significant first; there is
nothing else. -/
theorem c42_32_big_endian (ws : List (BitVec 32)) : (pack32 ws).length = 4 * ws.length ∧
    ∀ (i : Nat) (w : BitVec 32), ws[i]? = some w → (slot 4 i (pack32 ws)).length = 4 ∧
      beNat (slot 4 i (pack32 ws)) = w.toNat := by
  refine ⟨pack32_length ws, ?_⟩
  induction ws with
  | nil => intro i w h; simp at h
  | cons v ws ih =>
    have e : pack32 (v :: ws) = [memByte v 3, memByte v 2, memByte v 1, memByte v 0] ++ pack32 ws := rfl
    intro i w h
    cases i with
    | zero =>
      simp only [List.getElem?_cons_zero, Option.some.injEq] at h
      subst h
      rw [e, slot_zero 4 _ _ rfl]
      refine ⟨rfl, ?_⟩
      simp only [beNat, List.length_cons, List.length_nil, memByte_toNat]
      have := v.isLt
      omega
    | succ i =>
      simp only [List.getElem?_cons_succ] at h
      rw [e, slot_succ 4 i _ _ rfl]
      exact ih i w h

theorem c42_64_big_endian (ws : List (BitVec 64)) : (pack64 ws).length = 8 * ws.length ∧
    ∀ (i : Nat) (w : BitVec 64), ws[i]? = some w → (slot 8 i (pack64 ws)).length = 8 ∧
      beNat (slot 8 i (pack64 ws)) = w.toNat := by
  refine ⟨pack64_length ws, ?_⟩
  induction ws with
  | nil => intro i w h; simp at h
  | cons v ws ih =>
    have e : pack64 (v :: ws) = [memByte v 7, memByte v 6, memByte v 5, memByte v 4, memByte v 3, memByte v 2,
      memByte v 1, memByte v 0] ++ pack64 ws := rfl
    intro i w h
    cases i with
    | zero =>
      simp only [List.getElem?_cons_zero, Option.some.injEq] at h
      subst h
      rw [e, slot_zero 8 _ _ rfl]
      refine ⟨rfl, ?_⟩
      simp only [beNat, List.length_cons, List.length_nil, memByte_toNat]
      have := v.isLt
      omega
    | succ i =>
      simp only [List.getElem?_cons_succ] at h
      rw [e, slot_succ 8 i _ _ rfl]
      exact ih i w h

/-- C42: 16 bit numbers are stored as big-endian two's complement. -/
theorem c42_16_big_endian (ws : List (BitVec 32)) (hs : ∀ w ∈ ws, -32768 ≤ w.toInt ∧ w.toInt ≤ 32767) :
    (pack16 ws).length = 2 * ws.length ∧
    ∀ (i : Nat) (w : BitVec 32), ws[i]? = some w → (slot 2 i (pack16 ws)).length = 2 ∧
      (beNat (slot 2 i (pack16 ws)) : Int) = if 0 ≤ w.toInt then w.toInt else w.toInt + 65536 := by
  refine ⟨pack16_length ws, ?_⟩
  induction ws with
  | nil => intro i w h; simp at h
  | cons v ws ih =>
    have e : pack16 (v :: ws) = [memByte v 1, memByte v 0] ++ pack16 ws := rfl
    intro i w h
    cases i with
    | zero =>
      simp only [List.getElem?_cons_zero, Option.some.injEq] at h
      subst h
      rw [e, slot_zero 2 _ _ rfl]
      refine ⟨rfl, ?_⟩
      simp only [beNat, List.length_cons, List.length_nil, memByte_toNat]
      have := v.isLt
      have hv := hs v (List.mem_cons_self ..)
      rw [BitVec.toInt_eq_toNat_cond] at hv ⊢
      split at hv <;> split <;> simp_all <;> omega
    | succ i =>
      simp only [List.getElem?_cons_succ] at h
      rw [e, slot_succ 2 i _ _ rfl]
      exact ih (fun w hw => hs w (List.mem_cons_of_mem _ hw)) i w h

/-- minus two, and a signalling NaN next to a negative zero -/
example : pack16 [-2#32] = [0xFF#8, 0xFE#8] ∧ unpack16 1 [0xFF#8, 0xFE#8] = some [-2#32] ∧
    pack32 [0x7F800001#32, 0x80000000#32] = [0x7F#8, 0x80#8, 0#8, 1#8, 0x80#8, 0#8, 0#8, 0#8] ∧
    pack64 [0x0102030405060708#64] = [1#8, 2#8, 3#8, 4#8, 5#8, 6#8, 7#8, 8#8] := by decide

end Verif.Mir
