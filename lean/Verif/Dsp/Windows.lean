import Mathlib.Analysis.SpecialFunctions.Trigonometric.Basic
import Mathlib.Analysis.SpecialFunctions.Sqrt
import Mathlib.Algebra.Order.Floor.Ring
import Mathlib.Tactic.Linarith
import Mathlib.Tactic.NormNum
import Mathlib.Tactic.Ring
import Mathlib.Tactic.FieldSimp

/-!
# `aipy/dsp.py`: window functions (C41)

Windows are modelled over the real numbers (no rounding).  The modified Bessel function `i0` of
`scipy.special` is a parameter.
-/

namespace Verif.Dsp

open Real

/-- The names in `WINDOW_FUNC`.  `dsp.py` 37-49. -/
inductive Name
  | blackman | blackmanHarris | gaussian04 | kaiser2 | kaiser3 | hamming | hanning | parzen | none
  | tukey | barthann
  deriving DecidableEq

/-- What `gen_window` returns: an array, or (for `'none'`) the bare number 1. -/
inductive Win
  | scalar (v : ℝ)
  | arr (l : List ℝ)

/-- `x`, the index array `np.fromfunction` passes: `0., 1., ..., L-1.`  `dsp.py` 53. -/
noncomputable def xs (L : Nat) : List ℝ := (List.range L).map fun (n : Nat) => (n : ℝ)

/-- `'blackman'`.  `dsp.py` 38. -/
noncomputable def blackman (L x : ℝ) : ℝ :=
  0.42 - 0.5 * cos (2 * π * x / (L - 1)) + 0.08 * cos (4 * π * x / (L - 1))

/-- `'blackman-harris'`.  `dsp.py` 39. -/
noncomputable def blackmanHarris (L x : ℝ) : ℝ :=
  0.35875 - 0.48829 * cos (2 * π * x / (L - 1)) + 0.14128 * cos (4 * π * x / (L - 1)) -
    0.01168 * cos (6 * π * x / (L - 1))

/-- `'gaussian0.4'`.  `dsp.py` 40. -/
noncomputable def gaussian04 (L x : ℝ) : ℝ := exp (-0.5 * ((x - (L - 1) / 2) / (0.4 * (L - 1) / 2)) ^ 2)

/-- `'kaiser2'` (`b = 2`) and `'kaiser3'` (`b = 3`).  `dsp.py` 41-42. -/
noncomputable def kaiser (i0 : ℝ → ℝ) (b L x : ℝ) : ℝ :=
  i0 (π * b * sqrt (1 - (2 * x / (L - 1) - 1) ^ 2)) / i0 (π * b)

/-- `'hamming'`.  `dsp.py` 43. -/
noncomputable def hamming (L x : ℝ) : ℝ := 0.54 - 0.46 * cos (2 * π * x / (L - 1))

/-- `'hanning'`.  `dsp.py` 44. -/
noncomputable def hanning (L x : ℝ) : ℝ := 0.5 - 0.5 * cos (2 * π * x / (L - 1))

/-- `'parzen'`.  `dsp.py` 45. -/
noncomputable def parzen (L x : ℝ) : ℝ := 1 - |L / 2 - x| / (L / 2)

/-- `barthann` (it replaces `x` by `np.arange(0, L)`, the same numbers).  `dsp.py` 29-35. -/
noncomputable def barthann (L x : ℝ) : ℝ :=
  0.62 - 0.48 * |x / (L - 1) - 0.5| + 0.38 * cos (2 * π * |x / (L - 1) - 0.5|)

/-- The rising end of `tukey`.  `dsp.py` 21. -/
noncomputable def tukeyUp (alpha L x : ℝ) : ℝ := 0.5 * (1 + cos (π * (-1 + 2.0 * x / alpha / (L - 1))))

/-- The falling end of `tukey`.  `dsp.py` 23. -/
noncomputable def tukeyDown (alpha L x : ℝ) : ℝ :=
  0.5 * (1 + cos (π * (-2.0 / alpha + 1 + 2.0 * x / alpha / (L - 1))))

/-- `tukey`, with its three slices.  `dsp.py` 8-27. -/
noncomputable def tukey (alpha : ℝ) (L : Nat) : List ℝ :=
  if alpha ≤ 0 then List.replicate L 1
  else if alpha ≥ 1 then (xs L).map (hanning L)
  else
    let width := ⌊alpha * ((L : ℝ) - 1) / 2⌋.toNat
    let x1 := (xs L).take (width + 1)
    let x2 := ((xs L).take (L - width - 1)).drop (width + 1)
    let x3 := (xs L).drop (L - width - 1)
    x1.map (tukeyUp alpha L) ++ x2.map (fun _ => 1) ++ x3.map (tukeyDown alpha L)

/-- `gen_window(L, window, alpha=...)`; only `tukey` takes the keyword `alpha` (default 0.5).
`dsp.py` 51-53. -/
noncomputable def genWindow (i0 : ℝ → ℝ) (alpha : ℝ) (L : Nat) : Name → Win
  | .blackman => .arr ((xs L).map (blackman L))
  | .blackmanHarris => .arr ((xs L).map (blackmanHarris L))
  | .gaussian04 => .arr ((xs L).map (gaussian04 L))
  | .kaiser2 => .arr ((xs L).map (kaiser i0 2 L))
  | .kaiser3 => .arr ((xs L).map (kaiser i0 3 L))
  | .hamming => .arr ((xs L).map (hamming L))
  | .hanning => .arr ((xs L).map (hanning L))
  | .parzen => .arr ((xs L).map (parzen L))
  | .none => .scalar 1
  | .tukey => .arr (tukey alpha L)
  | .barthann => .arr ((xs L).map (barthann L))

/-! ## Properties -/

/-- A list that reads the same from both ends. -/
def Symmetric (l : List ℝ) : Prop := ∀ k, k < l.length → l[k]? = l[l.length - 1 - k]?

theorem xs_length (L : Nat) : (xs L).length = L := by simp [xs]

theorem xs_map_get (f : ℝ → ℝ) (L k : Nat) (hk : k < L) : ((xs L).map f)[k]? = some (f k) := by
  simp [xs, hk]

theorem symmetric_map (f : ℝ → ℝ) (L : Nat) (h : ∀ x : ℝ, f ((L : ℝ) - 1 - x) = f x) :
    Symmetric ((xs L).map f) := by
  intro k hk
  rw [List.length_map, xs_length] at hk ⊢
  rw [xs_map_get f L k hk, xs_map_get f L (L - 1 - k) (by omega)]
  congr 1
  rw [← h]
  congr 1
  have : L - 1 - k = L - (1 + k) := by omega
  rw [this, Nat.cast_sub (by omega)]
  push_cast
  ring

theorem arg_reflect {L : ℝ} (hL : L - 1 ≠ 0) (n : Nat) (x : ℝ) :
    2 * (n : ℝ) * π * (L - 1 - x) / (L - 1) = (n : ℝ) * (2 * π) - 2 * (n : ℝ) * π * x / (L - 1) := by
  field_simp

theorem cos_reflect {L : ℝ} (hL : L - 1 ≠ 0) (n : Nat) (x : ℝ) :
    cos (2 * (n : ℝ) * π * (L - 1 - x) / (L - 1)) = cos (2 * (n : ℝ) * π * x / (L - 1)) := by
  rw [arg_reflect hL, cos_nat_mul_two_pi_sub]

theorem cos2 {L : ℝ} (hL : L - 1 ≠ 0) (x : ℝ) :
    cos (2 * π * (L - 1 - x) / (L - 1)) = cos (2 * π * x / (L - 1)) := by
  have := cos_reflect hL 1 x; simpa using this

theorem cos4 {L : ℝ} (hL : L - 1 ≠ 0) (x : ℝ) :
    cos (4 * π * (L - 1 - x) / (L - 1)) = cos (4 * π * x / (L - 1)) := by
  have := cos_reflect hL 2 x
  have h4 : (2 : ℝ) * ((2 : Nat) : ℝ) = 4 := by norm_num
  rw [h4] at this; exact this

theorem cos6 {L : ℝ} (hL : L - 1 ≠ 0) (x : ℝ) :
    cos (6 * π * (L - 1 - x) / (L - 1)) = cos (6 * π * x / (L - 1)) := by
  have := cos_reflect hL 3 x
  have h4 : (2 : ℝ) * ((3 : Nat) : ℝ) = 6 := by norm_num
  rw [h4] at this; exact this

theorem width_bound {alpha : ℝ} {L : Nat} (h1 : alpha < 1) (hL : 2 ≤ L) :
    2 * ⌊alpha * ((L : ℝ) - 1) / 2⌋.toNat + 2 ≤ L := by
  have hL1 : (1 : ℝ) ≤ (L : ℝ) - 1 := by
    have : (2 : ℝ) ≤ L := by exact_mod_cast hL
    linarith
  by_cases hw : ⌊alpha * ((L : ℝ) - 1) / 2⌋ ≤ 0
  · rw [Int.toNat_of_nonpos hw]; omega
  · have hle : ((⌊alpha * ((L : ℝ) - 1) / 2⌋ : ℤ) : ℝ) ≤ alpha * ((L : ℝ) - 1) / 2 := Int.floor_le _
    have hlt : alpha * ((L : ℝ) - 1) / 2 < ((L : ℝ) - 1) / 2 := by
      have : alpha * ((L : ℝ) - 1) < 1 * ((L : ℝ) - 1) := mul_lt_mul_of_pos_right h1 (by linarith)
      linarith
    have h2 : 2 * ((⌊alpha * ((L : ℝ) - 1) / 2⌋ : ℤ) : ℝ) < (L : ℝ) - 1 := by linarith
    have h3 : 2 * ⌊alpha * ((L : ℝ) - 1) / 2⌋ < (L : ℤ) - 1 := by exact_mod_cast h2
    omega

/-- `tukey`, position by position. -/
theorem tukey_get {alpha : ℝ} {L : Nat} (h0 : 0 < alpha) (h1 : alpha < 1) (hL : 2 ≤ L) (k : Nat)
    (hk : k < L) :
    (tukey alpha L).length = L ∧
    (tukey alpha L)[k]? = some (
      if k ≤ ⌊alpha * ((L : ℝ) - 1) / 2⌋.toNat then tukeyUp alpha L k
      else if L - 1 - k ≤ ⌊alpha * ((L : ℝ) - 1) / 2⌋.toNat then tukeyDown alpha L k
      else 1) := by
  have hw := width_bound (alpha := alpha) h1 hL
  unfold tukey
  rw [if_neg (not_le.mpr h0), if_neg (by exact not_le.mpr h1)]
  generalize ⌊alpha * ((L : ℝ) - 1) / 2⌋.toNat = w at hw ⊢
  dsimp only
  constructor
  · simp only [List.length_append, List.length_map, List.length_take, List.length_drop, xs_length]
    omega
  · have hx : ∀ j, j < L → (xs L)[j]? = some (j : ℝ) := by
      intro j hj; simp [xs, hj]
    by_cases ha : k ≤ w
    · rw [if_pos ha, List.append_assoc, List.getElem?_append_left, List.getElem?_map, List.getElem?_take,
        if_pos (by omega), hx k hk]
      · rfl
      · simp only [List.length_map, List.length_take, xs_length]; omega
    · rw [if_neg ha]
      by_cases hb : L - 1 - k ≤ w
      · rw [if_pos hb, List.getElem?_append_right, List.getElem?_map, List.getElem?_drop]
        · simp only [List.length_append, List.length_map, List.length_take, List.length_drop, xs_length]
          have : L - w - 1 + (k - (min (w + 1) L + (min (L - w - 1) L - (w + 1)))) = k := by omega
          rw [this, hx k hk]
          rfl
        · simp only [List.length_append, List.length_map, List.length_take, List.length_drop, xs_length]
          omega
      · rw [if_neg hb, List.getElem?_append_left, List.getElem?_append_right, List.getElem?_map,
          List.getElem?_drop, List.getElem?_take]
        · simp only [List.length_map, List.length_take, xs_length]
          have : w + 1 + (k - min (w + 1) L) = k := by omega
          rw [this, if_pos (by omega), hx k hk]
          rfl
        · simp only [List.length_map, List.length_take, xs_length]; omega
        · simp only [List.length_append, List.length_map, List.length_take, List.length_drop, xs_length]
          omega

theorem tukey_ends {alpha : ℝ} {L : Nat} (h0 : 0 < alpha) (hL : 2 ≤ L) (k : Nat) (hk : k < L) :
    tukeyDown alpha L ((L - 1 - k : Nat) : ℝ) = tukeyUp alpha L k := by
  have hL1 : ((L : ℝ) - 1) ≠ 0 := by
    have : (2 : ℝ) ≤ L := by exact_mod_cast hL
    linarith
  have hcast : ((L - 1 - k : Nat) : ℝ) = (L : ℝ) - 1 - k := by
    have : L - 1 - k = L - (1 + k) := by omega
    rw [this, Nat.cast_sub (by omega)]; push_cast; ring
  unfold tukeyDown tukeyUp
  rw [hcast]
  have : π * (-2.0 / alpha + 1 + 2.0 * ((L : ℝ) - 1 - k) / alpha / ((L : ℝ) - 1)) =
      -(π * (-1 + 2.0 * (k : ℝ) / alpha / ((L : ℝ) - 1))) := by
    have h2 : (2.0 : ℝ) = 2 := by norm_num
    rw [h2]
    field_simp
    ring
  rw [this, cos_neg]

/-- **C41.**  Every window but `parzen` and `none` is an array of length `L` that reads the same from both
ends.  (`tukey` for every `alpha`.) -/
theorem c41_symmetric (i0 : ℝ → ℝ) (alpha : ℝ) (L : Nat) (hL : 2 ≤ L) (nm : Name)
    (hp : nm ≠ .parzen) (hn : nm ≠ .none) :
    ∃ l, genWindow i0 alpha L nm = .arr l ∧ l.length = L ∧ Symmetric l := by
  have hL1 : ((L : ℝ) - 1) ≠ 0 := by
    have : (2 : ℝ) ≤ L := by exact_mod_cast hL
    linarith
  have hlen : ∀ f : ℝ → ℝ, ((xs L).map f).length = L := by intro f; simp [xs]
  have hhann : ∀ x : ℝ, hanning L ((L : ℝ) - 1 - x) = hanning L x := by
    intro x; unfold hanning; rw [cos2 hL1]
  cases nm with
  | blackman =>
    refine ⟨_, rfl, hlen _, symmetric_map _ _ ?_⟩
    intro x; unfold blackman; rw [cos2 hL1, cos4 hL1]
  | blackmanHarris =>
    refine ⟨_, rfl, hlen _, symmetric_map _ _ ?_⟩
    intro x; unfold blackmanHarris; rw [cos2 hL1, cos4 hL1, cos6 hL1]
  | gaussian04 =>
    refine ⟨_, rfl, hlen _, symmetric_map _ _ ?_⟩
    intro x
    unfold gaussian04
    have : ((L : ℝ) - 1 - x - ((L : ℝ) - 1) / 2) = -(x - ((L : ℝ) - 1) / 2) := by ring
    rw [this, neg_div, neg_sq]
  | kaiser2 =>
    refine ⟨_, rfl, hlen _, symmetric_map _ _ ?_⟩
    intro x
    unfold kaiser
    have : 2 * ((L : ℝ) - 1 - x) / ((L : ℝ) - 1) - 1 = -(2 * x / ((L : ℝ) - 1) - 1) := by
      field_simp; ring
    rw [this, neg_sq]
  | kaiser3 =>
    refine ⟨_, rfl, hlen _, symmetric_map _ _ ?_⟩
    intro x
    unfold kaiser
    have : 2 * ((L : ℝ) - 1 - x) / ((L : ℝ) - 1) - 1 = -(2 * x / ((L : ℝ) - 1) - 1) := by
      field_simp; ring
    rw [this, neg_sq]
  | hamming =>
    refine ⟨_, rfl, hlen _, symmetric_map _ _ ?_⟩
    intro x; unfold hamming; rw [cos2 hL1]
  | hanning => exact ⟨_, rfl, hlen _, symmetric_map _ _ hhann⟩
  | parzen => exact absurd rfl hp
  | none => exact absurd rfl hn
  | barthann =>
    refine ⟨_, rfl, hlen _, symmetric_map _ _ ?_⟩
    intro x
    unfold barthann
    have : ((L : ℝ) - 1 - x) / ((L : ℝ) - 1) - 0.5 = -(x / ((L : ℝ) - 1) - 0.5) := by
      have h2 : (0.5 : ℝ) = 1 / 2 := by norm_num
      rw [h2]; field_simp; ring
    rw [this, abs_neg]
  | tukey =>
    refine ⟨_, rfl, ?_⟩
    by_cases h0 : alpha ≤ 0
    · have : tukey alpha L = List.replicate L 1 := by unfold tukey; rw [if_pos h0]
      rw [this]
      refine ⟨List.length_replicate, ?_⟩
      intro k hk
      rw [List.length_replicate] at hk ⊢
      rw [List.getElem?_replicate, List.getElem?_replicate, if_pos hk, if_pos (by omega)]
    · by_cases h1 : alpha ≥ 1
      · have : tukey alpha L = (xs L).map (hanning L) := by unfold tukey; rw [if_neg h0, if_pos h1]
        rw [this]
        exact ⟨hlen _, symmetric_map _ _ hhann⟩
      · have h0' : 0 < alpha := not_le.mp h0
        have h1' : alpha < 1 := not_le.mp h1
        have hlen' : (tukey alpha L).length = L := (tukey_get h0' h1' hL 0 (by omega)).1
        refine ⟨hlen', ?_⟩
        intro k hk
        rw [hlen'] at hk ⊢
        rw [(tukey_get h0' h1' hL k hk).2, (tukey_get h0' h1' hL (L - 1 - k) (by omega)).2]
        have hw := width_bound (alpha := alpha) h1' hL
        generalize ⌊alpha * ((L : ℝ) - 1) / 2⌋.toNat = w at hw
        have hkk : L - 1 - (L - 1 - k) = k := by omega
        congr 1
        by_cases ha : k ≤ w
        · rw [if_pos ha, if_neg (by omega), hkk, if_pos ha]
          exact (tukey_ends h0' hL k hk).symm
        · rw [if_neg ha, hkk]
          by_cases hb : L - 1 - k ≤ w
          · rw [if_pos hb, if_pos hb]
            have := tukey_ends h0' hL (L - 1 - k) (by omega)
            rw [hkk] at this
            exact this
          · rw [if_neg hb, if_neg hb, if_neg ha]

/-- **C41**, `parzen`: its convention is the periodic one, symmetric about `L/2`. -/
theorem c41_parzen_periodic (i0 : ℝ → ℝ) (alpha : ℝ) (L : Nat) (k : Nat) (h1 : 1 ≤ k) (hk : k < L) :
    ∃ l, genWindow i0 alpha L .parzen = .arr l ∧ l.length = L ∧ l[k]? = l[L - k]? ∧ l[0]? = some 0 := by
  have hLpos : (0 : ℝ) < L := by exact_mod_cast (by omega : 0 < L)
  refine ⟨_, rfl, by simp [xs], ?_, ?_⟩
  · rw [xs_map_get _ L k hk, xs_map_get _ L (L - k) (by omega)]
    congr 1
    unfold parzen
    rw [Nat.cast_sub (le_of_lt hk)]
    have : (L : ℝ) / 2 - ((L : ℝ) - k) = -((L : ℝ) / 2 - k) := by ring
    rw [this, abs_neg]
  · rw [xs_map_get _ L 0 (by omega)]
    unfold parzen
    rw [Nat.cast_zero, sub_zero, abs_of_pos (by linarith), div_self (by linarith), sub_self]

/-- `parzen` is not symmetric about the centre of the array, unlike the other windows. -/
theorem c41_parzen_not_symmetric (i0 : ℝ → ℝ) (alpha : ℝ) :
    ∃ l, genWindow i0 alpha 4 .parzen = .arr l ∧ ¬ Symmetric l := by
  refine ⟨_, rfl, ?_⟩
  intro h
  have h0 := h 0 (by simp [xs])
  have e : ((xs 4).map (parzen (4 : Nat))).length = 4 := by simp [xs]
  rw [e, xs_map_get _ 4 0 (by omega), xs_map_get _ 4 (4 - 1 - 0) (by omega)] at h0
  unfold parzen at h0
  have : |((4 : Nat) : ℝ) / 2 - ((4 - 1 - 0 : Nat) : ℝ)| = 1 := by norm_num
  rw [this] at h0
  have h2 : |((4 : Nat) : ℝ) / 2 - ((0 : Nat) : ℝ)| = 2 := by norm_num
  rw [h2] at h0
  norm_num at h0

/-- `none` is not an array at all. -/
theorem c41_none_violated (i0 : ℝ → ℝ) (alpha : ℝ) (L : Nat) :
    ¬ ∃ l, genWindow i0 alpha L .none = .arr l := by
  rintro ⟨l, h⟩; cases h

theorem mem_map_xs {f : ℝ → ℝ} {L : Nat} {v : ℝ} (h : v ∈ (xs L).map f) :
    ∃ k : Nat, k < L ∧ v = f k := by
  simp only [xs, List.map_map, List.mem_map, List.mem_range, Function.comp_apply] at h
  obtain ⟨k, hk, rfl⟩ := h
  exact ⟨k, hk, rfl⟩

theorem half_bounds (t : ℝ) : 0 ≤ 0.5 * (1 + cos t) ∧ 0.5 * (1 + cos t) ≤ 1 := by
  have h1 := neg_one_le_cos t
  have h2 := cos_le_one t
  constructor <;> norm_num <;> linarith

theorem hanning_bounds (L x : ℝ) : 0 ≤ hanning L x ∧ hanning L x ≤ 1 := by
  unfold hanning
  have h1 := neg_one_le_cos (2 * π * x / (L - 1))
  have h2 := cos_le_one (2 * π * x / (L - 1))
  constructor <;> norm_num <;> linarith

/-- **C41.**  Every entry of every window lies between 0 and 1.  For the Kaiser windows this needs the
facts that `i0` is positive and grows on the positive axis. -/
theorem c41_bounded (i0 : ℝ → ℝ) (hi0 : ∀ a b, 0 ≤ a → a ≤ b → i0 a ≤ i0 b)
    (hpos : ∀ a, 0 ≤ a → 0 < i0 a) (alpha : ℝ) (L : Nat) (hL : 2 ≤ L) (nm : Name) (l : List ℝ)
    (h : genWindow i0 alpha L nm = .arr l) (v : ℝ) (hv : v ∈ l) : 0 ≤ v ∧ v ≤ 1 := by
  have hL2 : (2 : ℝ) ≤ L := by exact_mod_cast hL
  have kais : ∀ b : ℝ, 0 < b → ∀ x : ℝ, 0 ≤ kaiser i0 b L x ∧ kaiser i0 b L x ≤ 1 := by
    intro b hb x
    unfold kaiser
    have hpb : 0 ≤ π * b := mul_nonneg pi_pos.le hb.le
    have hs0 : 0 ≤ sqrt (1 - (2 * x / ((L : ℝ) - 1) - 1) ^ 2) := sqrt_nonneg _
    have hs1 : sqrt (1 - (2 * x / ((L : ℝ) - 1) - 1) ^ 2) ≤ 1 := by
      rw [Real.sqrt_le_one]
      have := sq_nonneg (2 * x / ((L : ℝ) - 1) - 1)
      linarith
    constructor
    · exact div_nonneg (hpos _ (mul_nonneg hpb hs0)).le (hpos _ hpb).le
    · rw [div_le_one (hpos _ hpb)]
      apply hi0 _ _ (mul_nonneg hpb hs0)
      calc π * b * _ ≤ π * b * 1 := mul_le_mul_of_nonneg_left hs1 hpb
        _ = π * b := mul_one _
  cases nm with
  | blackman =>
    injection h with h; subst h
    obtain ⟨k, -, rfl⟩ := mem_map_xs hv
    unfold blackman
    have h4 : 4 * π * (k : ℝ) / ((L : ℝ) - 1) = 2 * (2 * π * (k : ℝ) / ((L : ℝ) - 1)) := by ring
    rw [h4, cos_two_mul]
    have h1 := neg_one_le_cos (2 * π * (k : ℝ) / ((L : ℝ) - 1))
    have h2 := cos_le_one (2 * π * (k : ℝ) / ((L : ℝ) - 1))
    generalize cos (2 * π * (k : ℝ) / ((L : ℝ) - 1)) = y at h1 h2
    constructor
    · norm_num; nlinarith
    · norm_num; nlinarith
  | blackmanHarris =>
    injection h with h; subst h
    obtain ⟨k, -, rfl⟩ := mem_map_xs hv
    unfold blackmanHarris
    have h4 : 4 * π * (k : ℝ) / ((L : ℝ) - 1) = 2 * (2 * π * (k : ℝ) / ((L : ℝ) - 1)) := by ring
    have h6 : 6 * π * (k : ℝ) / ((L : ℝ) - 1) = 3 * (2 * π * (k : ℝ) / ((L : ℝ) - 1)) := by ring
    rw [h4, h6, cos_two_mul, cos_three_mul]
    have h1 := neg_one_le_cos (2 * π * (k : ℝ) / ((L : ℝ) - 1))
    have h2 := cos_le_one (2 * π * (k : ℝ) / ((L : ℝ) - 1))
    generalize cos (2 * π * (k : ℝ) / ((L : ℝ) - 1)) = y at h1 h2
    have hA : 0 ≤ (1 - y) * (1 + y) := mul_nonneg (by linarith) (by linarith)
    constructor
    · norm_num
      nlinarith [mul_nonneg (sub_nonneg.mpr h2) (sq_nonneg (1 - y)), sq_nonneg (1 - y), sq_nonneg (1 + y)]
    · norm_num
      nlinarith [mul_nonneg (by linarith : (0 : ℝ) ≤ 1 + y) (sq_nonneg (1 - y)), sq_nonneg (1 - y),
        sq_nonneg (1 + y), mul_nonneg (by linarith : (0 : ℝ) ≤ 1 + y) (sq_nonneg (1 + y))]
  | gaussian04 =>
    injection h with h; subst h
    obtain ⟨k, -, rfl⟩ := mem_map_xs hv
    unfold gaussian04
    refine ⟨(exp_pos _).le, exp_le_one_iff.mpr ?_⟩
    have := sq_nonneg (((k : ℝ) - ((L : ℝ) - 1) / 2) / (0.4 * ((L : ℝ) - 1) / 2))
    have hh : (-0.5 : ℝ) ≤ 0 := by norm_num
    exact mul_nonpos_of_nonpos_of_nonneg hh this
  | kaiser2 =>
    injection h with h; subst h
    obtain ⟨k, -, rfl⟩ := mem_map_xs hv
    exact kais 2 (by norm_num) _
  | kaiser3 =>
    injection h with h; subst h
    obtain ⟨k, -, rfl⟩ := mem_map_xs hv
    exact kais 3 (by norm_num) _
  | hamming =>
    injection h with h; subst h
    obtain ⟨k, -, rfl⟩ := mem_map_xs hv
    unfold hamming
    have h1 := neg_one_le_cos (2 * π * (k : ℝ) / ((L : ℝ) - 1))
    have h2 := cos_le_one (2 * π * (k : ℝ) / ((L : ℝ) - 1))
    constructor <;> norm_num <;> linarith
  | hanning =>
    injection h with h; subst h
    obtain ⟨k, -, rfl⟩ := mem_map_xs hv
    exact hanning_bounds _ _
  | parzen =>
    injection h with h; subst h
    obtain ⟨k, hk, rfl⟩ := mem_map_xs hv
    unfold parzen
    have hk0 : (0 : ℝ) ≤ k := Nat.cast_nonneg k
    have hk1 : (k : ℝ) ≤ L := by exact_mod_cast hk.le
    have hLp : (0 : ℝ) < (L : ℝ) / 2 := by linarith
    have ha : |(L : ℝ) / 2 - k| ≤ (L : ℝ) / 2 := abs_le.mpr ⟨by linarith, by linarith⟩
    have h0 : 0 ≤ |(L : ℝ) / 2 - k| / ((L : ℝ) / 2) := div_nonneg (abs_nonneg _) hLp.le
    have h1 : |(L : ℝ) / 2 - k| / ((L : ℝ) / 2) ≤ 1 := (div_le_one hLp).mpr ha
    constructor <;> linarith
  | none => cases h
  | barthann =>
    injection h with h; subst h
    obtain ⟨k, hk, rfl⟩ := mem_map_xs hv
    unfold barthann
    have hk0 : (0 : ℝ) ≤ k := Nat.cast_nonneg k
    have hk1 : (k : ℝ) ≤ (L : ℝ) - 1 := by
      have : k + 1 ≤ L := hk
      have : ((k + 1 : Nat) : ℝ) ≤ L := by exact_mod_cast this
      push_cast at this; linarith
    have hLp : (0 : ℝ) < (L : ℝ) - 1 := by linarith
    have hq0 : 0 ≤ (k : ℝ) / ((L : ℝ) - 1) := div_nonneg hk0 hLp.le
    have hq1 : (k : ℝ) / ((L : ℝ) - 1) ≤ 1 := (div_le_one hLp).mpr hk1
    have hf : |(k : ℝ) / ((L : ℝ) - 1) - 0.5| ≤ 0.5 := abs_le.mpr ⟨by linarith, by norm_num; linarith⟩
    have hf0 := abs_nonneg ((k : ℝ) / ((L : ℝ) - 1) - 0.5)
    generalize |(k : ℝ) / ((L : ℝ) - 1) - 0.5| = f at hf hf0
    have h1 := neg_one_le_cos (2 * π * f)
    have h2 := cos_le_one (2 * π * f)
    norm_num at hf
    constructor <;> norm_num <;> linarith
  | tukey =>
    injection h with h; subst h
    by_cases h0 : alpha ≤ 0
    · have : tukey alpha L = List.replicate L 1 := by unfold tukey; rw [if_pos h0]
      rw [this] at hv
      rw [List.eq_of_mem_replicate hv]
      norm_num
    · by_cases h1 : alpha ≥ 1
      · have : tukey alpha L = (xs L).map (hanning L) := by unfold tukey; rw [if_neg h0, if_pos h1]
        rw [this] at hv
        obtain ⟨k, -, rfl⟩ := mem_map_xs hv
        exact hanning_bounds _ _
      · have h0' : 0 < alpha := not_le.mp h0
        have h1' : alpha < 1 := not_le.mp h1
        obtain ⟨k, hk, rfl⟩ := List.mem_iff_getElem.mp hv
        have hlen' : (tukey alpha L).length = L := (tukey_get h0' h1' hL 0 (by omega)).1
        have hkL : k < L := by rw [hlen'] at hk; exact hk
        have e := (tukey_get h0' h1' hL k hkL).2
        rw [List.getElem?_eq_getElem hk, Option.some.injEq] at e
        rw [e]
        split
        · exact half_bounds _
        · split
          · exact half_bounds _
          · norm_num

/-- **C41.**  In an array of odd length the cosine windows reach exactly 1 at the centre. -/
theorem c41_peak (m : Nat) (hm : 1 ≤ m) :
    ((xs (2 * m + 1)).map (hamming (2 * m + 1 : Nat)))[m]? = some 1 ∧
    ((xs (2 * m + 1)).map (hanning (2 * m + 1 : Nat)))[m]? = some 1 ∧
    ((xs (2 * m + 1)).map (blackman (2 * m + 1 : Nat)))[m]? = some 1 ∧
    ((xs (2 * m + 1)).map (blackmanHarris (2 * m + 1 : Nat)))[m]? = some 1 ∧
    ((xs (2 * m + 1)).map (gaussian04 (2 * m + 1 : Nat)))[m]? = some 1 := by
  have hm0 : (m : ℝ) ≠ 0 := by
    have : (1 : ℝ) ≤ m := by exact_mod_cast hm
    linarith
  have e : ((2 * m + 1 : Nat) : ℝ) - 1 = 2 * m := by push_cast; ring
  have c1 : ∀ a : ℝ, a * π * (m : ℝ) / (2 * m) = a / 2 * π := by intro a; field_simp
  have k1 : cos (2 * π * (m : ℝ) / (2 * m)) = -1 := by
    rw [c1]; norm_num
  have k2 : cos (4 * π * (m : ℝ) / (2 * m)) = 1 := by
    rw [c1]; norm_num
  have k3 : cos (6 * π * (m : ℝ) / (2 * m)) = -1 := by
    rw [c1]
    have : (6 : ℝ) / 2 * π = π + 2 * π := by ring
    rw [this, cos_add_two_pi, cos_pi]
  refine ⟨?_, ?_, ?_, ?_, ?_⟩
  · rw [xs_map_get _ _ m (by omega)]; unfold hamming; rw [e, k1]; norm_num
  · rw [xs_map_get _ _ m (by omega)]; unfold hanning; rw [e, k1]; norm_num
  · rw [xs_map_get _ _ m (by omega)]; unfold blackman; rw [e, k1, k2]; norm_num
  · rw [xs_map_get _ _ m (by omega)]; unfold blackmanHarris; rw [e, k1, k2, k3]; norm_num
  · rw [xs_map_get _ _ m (by omega)]; unfold gaussian04; rw [e]
    have : (m : ℝ) - 2 * m / 2 = 0 := by ring
    rw [this]; simp

/-- The hypotheses on `i0` are met by a concrete positive increasing function. -/
example : (∀ a b : ℝ, 0 ≤ a → a ≤ b → exp a ≤ exp b) ∧ ∀ a : ℝ, 0 ≤ a → 0 < exp a :=
  ⟨fun _ _ _ h => exp_le_exp.mpr h, fun a _ => exp_pos a⟩

/-- The windows are not constant: a Hann window starts at 0. -/
example : ((xs 5).map (hanning (5 : Nat)))[0]? = some 0 := by
  rw [xs_map_get _ 5 0 (by omega)]; unfold hanning; simp

end Verif.Dsp
