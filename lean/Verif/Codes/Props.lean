import Verif.Codes.Model
/-!
# Properties C01-C04 : codes
-/
namespace Verif.Codes

/-- The antenna numbers the extended code supports. -/
abbrev ValidAnt (i : Int) : Prop := 0 ≤ i ∧ i ≤ 2046

/-- C01: decoding the code of a pair gives the pair in ascending order. -/
theorem c01_roundtrip (i j : Int) (hi : ValidAnt i) (hj : ValidAnt j) :
    bl2ij (ij2bl i j) = (min i j, max i j) := by
  obtain ⟨hi0, hi1⟩ := hi
  obtain ⟨hj0, hj1⟩ := hj
  unfold ij2bl
  by_cases h : i > j
  · simp only [h, if_true]
    rw [show min i j = j by omega, show max i j = i by omega]
    by_cases h2 : i + 1 < 256
    · simp only [h2, if_true, bl2ij]
      rw [if_neg (by omega)]
      refine Prod.ext ?_ ?_ <;> simp only <;> omega
    · simp only [h2, if_false, bl2ij]
      rw [if_pos (by omega)]
      refine Prod.ext ?_ ?_ <;> simp only <;> omega
  · simp only [h, if_false]
    rw [show min i j = i by omega, show max i j = j by omega]
    by_cases h2 : j + 1 < 256
    · simp only [h2, if_true, bl2ij]
      rw [if_neg (by omega)]
      refine Prod.ext ?_ ?_ <;> simp only <;> omega
    · simp only [h2, if_false, bl2ij]
      rw [if_pos (by omega)]
      refine Prod.ext ?_ ?_ <;> simp only <;> omega

example : bl2ij (ij2bl 300 7) = (7, 300) := c01_roundtrip 300 7 (by decide) (by decide)
example : bl2ij (ij2bl 254 254) = (254, 254) ∧ bl2ij (ij2bl 255 0) = (0, 255) := by decide

/-- C01: `ij2bl` does not depend on the order of the antennas (all integers). -/
theorem c01_symmetric (i j : Int) : ij2bl i j = ij2bl j i := by
  unfold ij2bl
  by_cases h : i > j
  · have h' : ¬ j > i := by omega
    simp only [h, h', if_true, if_false]
  · by_cases h' : j > i
    · simp only [h, h', if_true, if_false]
    · have : i = j := by omega
      subst this; rfl

/-- C01, the other direction: every number that is the code of some pair is reproduced by
encoding what it decodes to. -/
theorem c01_reencode (i j : Int) (hi : ValidAnt i) (hj : ValidAnt j) :
    ij2bl (bl2ij (ij2bl i j)).1 (bl2ij (ij2bl i j)).2 = ij2bl i j := by
  rw [c01_roundtrip i j hi hj]
  rcases Int.le_total i j with h | h
  · rw [Int.min_eq_left h, Int.max_eq_right h]
  · rw [Int.min_eq_right h, Int.max_eq_left h, c01_symmetric]

example : ij2bl (bl2ij (ij2bl 2046 255)).1 (bl2ij (ij2bl 2046 255)).2 = 524288 + 2047 + 65536 := by
  decide

/-- C02: two pairs with the same code are the same unordered pair. -/
theorem c02_injective (i j k l : Int) (hi : ValidAnt i) (hj : ValidAnt j)
    (hk : ValidAnt k) (hl : ValidAnt l) (h : ij2bl i j = ij2bl k l) :
    (i = k ∧ j = l) ∨ (i = l ∧ j = k) := by
  have e := c01_roundtrip i j hi hj
  rw [h, c01_roundtrip k l hk hl] at e
  have e1 := congrArg Prod.fst e
  have e2 := congrArg Prod.snd e
  simp only at e1 e2
  omega

example : ij2bl 3 260 ≠ ij2bl 3 261 := fun h => by
  have := c02_injective 3 260 3 261 (by decide) (by decide) (by decide) (by decide) h
  omega

/-- C02: the limit 2046 is sharp: antenna 2047 collides. -/
theorem c02_limit_sharp : ij2bl 0 2047 = 2048 * 2 + 65536 ∧ bl2ij (ij2bl 0 2047) ≠ (0, 2047) := by
  decide

/-- C02: a genuine collision just beyond the limit. -/
theorem c02_collision : ij2bl 0 2304 = ij2bl 1 256 ∧ ((0 : Int), (2304 : Int)) ≠ (1, 256) := by
  decide

theorem f32_small {n : Nat} (h : n < 2 ^ 24) : f32 n = n := by
  unfold f32; rw [if_pos h]

theorem shiftor (a b : Nat) (hb : b < 256) : (a <<< 8) ||| b = a * 256 + b := by
  rw [← Nat.shiftLeft_add_eq_or_of_lt (i := 8) (by omega), Nat.shiftLeft_eq]

/-- the number `MKBL` stores, without bit operations and rounding -/
theorem mkbl_eq (i j : Nat) (hi : i ≤ 2046) (hj : j ≤ 2046) :
    mkbl i j = if i + 1 < 256 ∧ j + 1 < 256 then (i + 1) * 256 + (j + 1)
      else (i + 1) * 2048 + (j + 1 + 65536) := by
  unfold mkbl
  by_cases h : i + 1 < 256 ∧ j + 1 < 256
  · rw [if_pos h, if_pos h, shiftor _ _ (by omega), f32_small (by omega)]
  · rw [if_neg h, if_neg h, f32_small (by omega)]

/-- C03: what is written in the preamble is what is read back, for every ordered pair. -/
theorem c03_file_roundtrip (i j : Nat) (hi : i ≤ 2046) (hj : j ≤ 2046) :
    geti (mkbl i j) = i ∧ getj (mkbl i j) = j := by
  rw [mkbl_eq i j hi hj]
  by_cases h : i + 1 < 256 ∧ j + 1 < 256
  · rw [if_pos h]
    have h1 : ¬ ((i + 1) * 256 + (j + 1) > 65536) := by omega
    constructor
    · unfold geti
      rw [if_neg h1, Nat.shiftRight_eq_div_pow]
      have : ((i + 1) * 256 + (j + 1)) / 2 ^ 8 = i + 1 := by omega
      rw [this]; omega
    · unfold getj
      rw [if_neg h1, show (255 : Nat) = 2 ^ 8 - 1 by decide, Nat.and_two_pow_sub_one_eq_mod]
      have : ((i + 1) * 256 + (j + 1)) % 2 ^ 8 = j + 1 := by omega
      rw [this]; omega
  · rw [if_neg h]
    have h1 : (i + 1) * 2048 + (j + 1 + 65536) > 65536 := by omega
    constructor
    · unfold geti
      rw [if_pos h1, Int.tdiv_eq_ediv_of_nonneg (by omega)]
      omega
    · unfold getj
      rw [if_pos h1, Int.tmod_eq_emod_of_nonneg (by omega)]
      omega

example : geti (mkbl 300 2) = 300 ∧ getj (mkbl 300 2) = 2 :=
  c03_file_roundtrip 300 2 (by decide) (by decide)

/-- C03: for ordered antennas the stored number is the Python baseline number. -/
theorem c03_agrees_with_python (i j : Nat) (hij : i ≤ j) (hj : j ≤ 2046) :
    ((mkbl i j : Nat) : Int) = ij2bl i j := by
  rw [mkbl_eq i j (by omega) hj]
  unfold ij2bl
  have h : ¬ ((i : Int) > j) := by omega
  simp only [h, if_false]
  by_cases h2 : j + 1 < 256
  · rw [if_pos ⟨by omega, h2⟩, if_pos (by omega)]; omega
  · rw [if_neg (by omega), if_neg (by omega)]; omega

example : ((mkbl 12 1000 : Nat) : Int) = ij2bl 12 1000 :=
  c03_agrees_with_python 12 1000 (by decide) (by decide)

/-- C03: the decoder used by the record selection sees the same antennas (counted from 1). -/
theorem c03_select_decoder_agrees (i j : Nat) (hi : i ≤ 2046) (hj : j ≤ 2046) :
    uvbasant (mkbl i j) = ((i : Int) + 1, (j : Int) + 1) := by
  rw [mkbl_eq i j hi hj]
  unfold uvbasant
  by_cases h : i + 1 < 256 ∧ j + 1 < 256
  · rw [if_pos h, if_neg (by omega), Int.tdiv_eq_ediv_of_nonneg (by omega),
      Int.tmod_eq_emod_of_nonneg (by omega)]
    refine Prod.ext ?_ ?_ <;> simp only <;> omega
  · rw [if_neg h, if_pos (by omega)]
    simp only
    rw [Int.tdiv_eq_ediv_of_nonneg (by omega), Int.tmod_eq_emod_of_nonneg (by omega)]
    refine Prod.ext ?_ ?_ <;> simp only <;> omega

example : uvbasant (mkbl 255 3) = (256, 4) := c03_select_decoder_agrees 255 3 (by decide) (by decide)

/-- C03: the file layer never confuses two ordered pairs. -/
theorem c03_file_injective (i j k l : Nat) (hi : i ≤ 2046) (hj : j ≤ 2046) (hk : k ≤ 2046)
    (hl : l ≤ 2046) (h : mkbl i j = mkbl k l) : i = k ∧ j = l := by
  have a := c03_file_roundtrip i j hi hj
  have b := c03_file_roundtrip k l hk hl
  rw [h] at a
  omega

example : mkbl 2046 0 ≠ mkbl 0 2046 := fun h => by
  have := c03_file_injective 2046 0 0 2046 (by decide) (by decide) (by decide) (by decide) h
  omega

/-- single precision matters: beyond the supported range the float does lose baselines -/
theorem c03_float_limit : mkbl 8190 8187 = mkbl 8190 8188 ∨ mkbl 8190 8189 = mkbl 8190 8188 := by decide

/-- C04: a code found under a name decodes to that name and vice versa; all names, all codes. -/
theorem c04_pol_tables_inverse (s : String) (c : Int) :
    str2pol s = some c ↔ pol2str c = some s := by
  have h1 : ∀ kv ∈ str2polTable, pol2str kv.2 = some kv.1 ∧ str2pol kv.1 = some kv.2 := by decide
  have h2 : ∀ kv ∈ pol2strTable, (kv.2, kv.1) ∈ str2polTable := by decide
  constructor
  · intro h
    have hm : (s, c) ∈ str2polTable := by
      unfold str2pol at h
      rw [List.lookup_eq_some_iff] at h
      obtain ⟨l1, l2, h, _⟩ := h
      rw [h]; simp
    exact (h1 _ hm).1
  · intro h
    have hm : (c, s) ∈ pol2strTable := by
      unfold pol2str at h
      rw [List.lookup_eq_some_iff] at h
      obtain ⟨l1, l2, h, _⟩ := h
      rw [h]; simp
    exact (h1 _ (h2 _ hm)).2

example : str2pol "yx" = some (-8) ∧ pol2str (-8) = some "yx" := by decide

/-- C04: packing antennas and polarisation is undone by unpacking, for every 4-bit polarisation
field value -9..6 (which contains all polarisation codes). -/
theorem c04_blp_roundtrip (i j pol : Int) (hi : ValidAnt i) (hj : ValidAnt j)
    (hp : -9 ≤ pol) (hp' : pol ≤ 6) :
    blp2ijp (ijp2blp i j pol) = (min i j, max i j, pol) := by
  unfold blp2ijp ijp2blp
  have h1 : (ij2bl i j * 16 + (pol + 9)) / 16 = ij2bl i j := by omega
  have h2 : (ij2bl i j * 16 + (pol + 9)) % 16 - 9 = pol := by omega
  simp only [h1, h2, c01_roundtrip i j hi hj]

example : blp2ijp (ijp2blp 5 400 (-8)) = (5, 400, -8) :=
  c04_blp_roundtrip 5 400 (-8) (by decide) (by decide) (by decide) (by decide)

/-- every polarisation code of the table is in the packable range -/
theorem c04_pol_codes_packable (s : String) (c : Int) (h : str2pol s = some c) : -9 ≤ c ∧ c ≤ 6 := by
  have h1 : ∀ kv ∈ str2polTable, -9 ≤ kv.2 ∧ kv.2 ≤ 6 := by decide
  unfold str2pol at h
  rw [List.lookup_eq_some_iff] at h
  obtain ⟨l1, l2, h, _⟩ := h
  exact h1 (s, c) (by rw [h]; simp)

example : -9 ≤ (4:Int) ∧ (4:Int) ≤ 6 := c04_pol_codes_packable "V" 4 (by decide)

end Verif.Codes
