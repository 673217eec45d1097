import Mathlib.Analysis.SpecialFunctions.Pow.Real
import Mathlib.Algebra.Order.Floor.Ring
import Mathlib.Tactic.Ring
/-!
# Property C32 : storage of spherical-harmonic coefficients

Model of `Alm` in `/repo/aipy/healpix.py` 91-186.  The index arithmetic is `healpy.Alm.getidx`, `getlm` and `getsize`
(an external package; formulas as published in healpy's sphtfunc.py), with an exact square root in `getlm`.
-/
namespace Verif.Sky

/-! ## Model -/

/-- `healpy.Alm.getidx(lmax, l, m) = m*(2*lmax+1-m)//2 + l`, called at healpix.py 115, 119 -/
def almIdx (lmax l m : Nat) : Nat := m * (2 * lmax + 1 - m) / 2 + l

/-- `healpy.Alm.getsize(lmax, mmax)`, called at healpix.py 102 -/
def almSize (lmax mmax : Nat) : Nat := mmax * (2 * lmax + 1 - mmax) / 2 + lmax + 1

/-- `healpy.Alm.getlm(lmax, i)`, called at healpix.py 179 -/
noncomputable def almLm (lmax i : Nat) : Int × Int :=
  let m : Int := ⌈((2 * lmax + 1 : ℝ) - Real.sqrt ((2 * lmax + 1 : ℝ) ^ 2 - 8 * ((i : ℝ) - lmax))) / 2⌉
  ((i : Int) - m * (2 * lmax + 1 - m) / 2, m)

/-- an `Alm` object -/
structure AlmObj (V : Type) where
  lmax : Nat
  mmax : Nat
  data : List V

/-- `Alm.__init__`, healpix.py 93-106; `none` is the failed assertion -/
def AlmObj.new {V : Type} [Zero V] (lmax mmax : Nat) : Option (AlmObj V) :=
  if mmax ≤ lmax then some ⟨lmax, mmax, List.replicate (almSize lmax mmax) 0⟩ else none

/-- `alm[l,m]`, healpix.py 113-116; `none` is IndexError -/
def AlmObj.get {V : Type} (a : AlmObj V) (l m : Nat) : Option V := a.data[almIdx a.lmax l m]?

/-- `alm[l,m] = val`, healpix.py 117-120 -/
def AlmObj.set {V : Type} (a : AlmObj V) (l m : Nat) (v : V) : Option (AlmObj V) :=
  if almIdx a.lmax l m < a.data.length then some { a with data := a.data.set (almIdx a.lmax l m) v } else none

/-- `lm_indices()`, healpix.py 177-179 -/
noncomputable def AlmObj.lmIndices {V : Type} (a : AlmObj V) : List (Int × Int) :=
  (List.range (almSize a.lmax a.mmax)).map (almLm a.lmax)

/-- `set_data`, healpix.py 183-186 -/
def AlmObj.setData {V : Type} (a : AlmObj V) (d : List V) : Option (AlmObj V) :=
  if d.length = almSize a.lmax a.mmax then some { a with data := d } else none

/-! ## Specification -/

/-- the coefficients an `Alm` of these orders has -/
def IsCoeff (lmax mmax l m : Nat) : Prop := m ≤ l ∧ l ≤ lmax ∧ m ≤ mmax

/-- an object whose data have the declared size -/
def AlmObj.Ok {V : Type} (a : AlmObj V) : Prop := a.mmax ≤ a.lmax ∧ a.data.length = almSize a.lmax a.mmax

/-! ## Lemmas -/

theorem tri_even (lmax : Nat) : ∀ m, m ≤ 2 * lmax + 1 → 2 ∣ m * (2 * lmax + 1 - m) := by
  intro m hm
  rcases Nat.even_or_odd' m with ⟨k, rfl | rfl⟩
  · exact ⟨k * (2 * lmax + 1 - 2 * k), by ring⟩
  · have : 2 * lmax + 1 - (2 * k + 1) = 2 * (lmax - k) := by omega
    rw [this]
    exact ⟨(2 * k + 1) * (lmax - k), by ring⟩

theorem tri_succ (lmax m : Nat) (h : m < lmax) :
    (m + 1) * (2 * lmax + 1 - (m + 1)) / 2 = m * (2 * lmax + 1 - m) / 2 + (lmax - m) := by
  have e1 : (m + 1) * (2 * lmax + 1 - (m + 1)) = m * (2 * lmax + 1 - m) + 2 * (lmax - m) := by
    obtain ⟨d, rfl⟩ : ∃ d, lmax = m + 1 + d := ⟨lmax - m - 1, by omega⟩
    have h1 : 2 * (m + 1 + d) + 1 - (m + 1) = m + 2 + 2 * d := by omega
    have h2 : 2 * (m + 1 + d) + 1 - m = m + 3 + 2 * d := by omega
    have h3 : m + 1 + d - m = d + 1 := by omega
    rw [h1, h2, h3]
    ring
  rw [e1]
  omega

theorem tri_mono (lmax m n : Nat) (h : m ≤ n) (hn : n ≤ lmax) :
    m * (2 * lmax + 1 - m) / 2 + m ≤ n * (2 * lmax + 1 - n) / 2 + n := by
  induction n with
  | zero => have : m = 0 := by omega
            subst this; omega
  | succ n ih =>
    by_cases hm : m = n + 1
    · subst hm; omega
    · have := ih (by omega) (by omega)
      rw [tri_succ lmax n (by omega)]
      omega

theorem tri_block (lmax m n : Nat) (h : m < n) (hn : n ≤ lmax) :
    m * (2 * lmax + 1 - m) / 2 + lmax < n * (2 * lmax + 1 - n) / 2 + n := by
  have h1 := tri_mono lmax (m + 1) n h hn
  have h2 := tri_succ lmax m (by omega)
  omega

/-! ## C32 -/

/-- C32: every coefficient has a place in the array. -/
theorem c32_in_range (lmax mmax l m : Nat) (hl : mmax ≤ lmax) (h : IsCoeff lmax mmax l m) :
    almIdx lmax l m < almSize lmax mmax := by
  obtain ⟨h1, h2, h3⟩ := h
  unfold almIdx almSize
  by_cases he : m = mmax
  · subst he; omega
  · have := tri_block lmax m mmax (by omega) hl
    have h4 : mmax * (2 * lmax + 1 - mmax) / 2 + mmax ≤ mmax * (2 * lmax + 1 - mmax) / 2 + lmax := by omega
    omega

/-- C32: different coefficients have different places. -/
theorem c32_injective (lmax mmax l m l' m' : Nat) (h : IsCoeff lmax mmax l m) (h' : IsCoeff lmax mmax l' m')
    (he : almIdx lmax l m = almIdx lmax l' m') : l = l' ∧ m = m' := by
  obtain ⟨h1, h2, h3⟩ := h
  obtain ⟨h1', h2', h3'⟩ := h'
  unfold almIdx at he
  rcases lt_trichotomy m m' with hm | hm | hm
  · have := tri_block lmax m m' hm (by omega); omega
  · subst hm; omega
  · have := tri_block lmax m' m hm (by omega); omega

/-- C32: the coefficients fill the array. -/
theorem c32_surjective (lmax mmax i : Nat) (hl : mmax ≤ lmax) (hi : i < almSize lmax mmax) :
    ∃ l m, IsCoeff lmax mmax l m ∧ almIdx lmax l m = i := by
  unfold almSize at hi
  induction mmax with
  | zero =>
    refine ⟨i, 0, ⟨by omega, by simp at hi; omega, by omega⟩, ?_⟩
    simp [almIdx]
  | succ n ih =>
    by_cases hn : i < n * (2 * lmax + 1 - n) / 2 + lmax + 1
    · obtain ⟨l, m, ⟨a, b, c⟩, e⟩ := ih (by omega) hn
      exact ⟨l, m, ⟨a, b, by omega⟩, e⟩
    · have hs := tri_succ lmax n (by omega)
      refine ⟨i - (n + 1) * (2 * lmax + 1 - (n + 1)) / 2, n + 1, ⟨by omega, by omega, by omega⟩, ?_⟩
      unfold almIdx
      omega

/-- C32: setting a coefficient sets that one and changes no other. -/
theorem c32_set_get {V : Type} (a : AlmObj V) (l m : Nat) (v : V) (hok : a.Ok) (h : IsCoeff a.lmax a.mmax l m) :
    ∃ a', a.set l m v = some a' ∧ a'.Ok ∧ a'.lmax = a.lmax ∧ a'.mmax = a.mmax ∧ a'.get l m = some v ∧
      ∀ l' m', IsCoeff a.lmax a.mmax l' m' → (l', m') ≠ (l, m) → a'.get l' m' = a.get l' m' := by
  have hlt : almIdx a.lmax l m < a.data.length := by
    rw [hok.2]
    exact c32_in_range _ _ _ _ hok.1 h
  refine ⟨{ a with data := a.data.set (almIdx a.lmax l m) v }, by unfold AlmObj.set; rw [if_pos hlt], ?_, rfl, rfl, ?_, ?_⟩
  · exact ⟨hok.1, by simpa using hok.2⟩
  · unfold AlmObj.get
    exact List.getElem?_set_self hlt
  · intro l' m' h' hne
    unfold AlmObj.get
    refine List.getElem?_set_ne ?_
    intro he
    obtain ⟨e1, e2⟩ := c32_injective _ _ _ _ _ _ h h' he
    exact hne (by rw [e1, e2])

theorem almLm_idx (lmax l m : Nat) (h1 : m ≤ l) (h2 : l ≤ lmax) : almLm lmax (almIdx lmax l m) = ((l : Int), (m : Int)) := by
  have hdiv : (m * (2 * lmax + 1 - m) / 2) * 2 = m * (2 * lmax + 1 - m) := Nat.div_mul_cancel (tri_even lmax m (by omega))
  have hR : ((m * (2 * lmax + 1 - m) / 2 : Nat) : ℝ) * 2 = (m : ℝ) * (2 * lmax + 1 - m) := by
    have := congrArg (fun k : Nat => (k : ℝ)) hdiv
    simp only [Nat.cast_mul, Nat.cast_ofNat] at this
    rw [this, Nat.cast_sub (by omega)]
    push_cast
    ring
  have hm1 : (m : ℝ) ≤ l := by exact_mod_cast h1
  have hm2 : (l : ℝ) ≤ lmax := by exact_mod_cast h2
  have hD : (2 * (lmax : ℝ) + 1) ^ 2 - 8 * (((almIdx lmax l m : Nat) : ℝ) - lmax) =
      (2 * lmax + 1 - 2 * m) ^ 2 + 8 * (lmax - l) := by
    unfold almIdx
    rw [Nat.cast_add]
    linear_combination (-4 : ℝ) * hR
  have hmm : ⌈((2 * lmax + 1 : ℝ) - Real.sqrt ((2 * lmax + 1 : ℝ) ^ 2 - 8 * (((almIdx lmax l m : Nat) : ℝ) - lmax))) / 2⌉ = (m : Int) := by
    rw [hD, Int.ceil_eq_iff]
    have hlow : (2 * lmax + 1 - 2 * m : ℝ) ≤ Real.sqrt ((2 * lmax + 1 - 2 * m) ^ 2 + 8 * (lmax - l)) := by
      apply Real.le_sqrt_of_sq_le
      linarith
    have hup : Real.sqrt ((2 * lmax + 1 - 2 * m : ℝ) ^ 2 + 8 * (lmax - l)) < 2 * lmax + 3 - 2 * m := by
      rw [Real.sqrt_lt' (by linarith)]
      nlinarith
    constructor
    · push_cast
      linarith
    · push_cast
      linarith
  unfold almLm
  simp only
  rw [hmm]
  have hz : ((m : Int) * (2 * lmax + 1 - m) / 2) = ((m * (2 * lmax + 1 - m) / 2 : Nat) : Int) := by
    rw [Int.natCast_ediv, Nat.cast_mul, Nat.cast_sub (by omega)]
    push_cast
    rfl
  rw [hz]
  unfold almIdx
  rw [Nat.cast_add]
  congr 1
  omega

/-- C32: `lm_indices` lists every coefficient at the position where it is stored. -/
theorem c32_lm_indices {V : Type} (a : AlmObj V) (hok : a.Ok) :
    a.lmIndices.length = a.data.length ∧
    (∀ l m, IsCoeff a.lmax a.mmax l m → a.lmIndices[almIdx a.lmax l m]? = some ((l : Int), (m : Int))) ∧
    (∀ i, i < a.data.length → ∃ l m, IsCoeff a.lmax a.mmax l m ∧ a.lmIndices[i]? = some ((l : Int), (m : Int)) ∧
      a.get l m = a.data[i]?) := by
  have hget : ∀ l m, IsCoeff a.lmax a.mmax l m → a.lmIndices[almIdx a.lmax l m]? = some ((l : Int), (m : Int)) := by
    intro l m h
    unfold AlmObj.lmIndices
    rw [List.getElem?_map, List.getElem?_range (c32_in_range _ _ _ _ hok.1 h), Option.map_some, almLm_idx _ _ _ h.1 h.2.1]
  refine ⟨by unfold AlmObj.lmIndices; rw [List.length_map, List.length_range, hok.2], hget, ?_⟩
  intro i hi
  rw [hok.2] at hi
  obtain ⟨l, m, h, e⟩ := c32_surjective _ _ _ hok.1 hi
  refine ⟨l, m, h, ?_, ?_⟩
  · rw [← e]; exact hget l m h
  · unfold AlmObj.get; rw [e]

/-- C32: a new object is well-formed and has every coefficient zero. -/
theorem c32_new {V : Type} [Zero V] (lmax mmax : Nat) (hl : mmax ≤ lmax) :
    ∃ a : AlmObj V, AlmObj.new lmax mmax = some a ∧ a.Ok ∧ a.lmax = lmax ∧ a.mmax = mmax ∧
      ∀ l m, IsCoeff lmax mmax l m → a.get l m = some 0 := by
  refine ⟨⟨lmax, mmax, List.replicate (almSize lmax mmax) 0⟩, by unfold AlmObj.new; rw [if_pos hl], ⟨hl, by simp⟩, rfl, rfl, ?_⟩
  intro l m h
  unfold AlmObj.get
  rw [List.getElem?_replicate, if_pos (c32_in_range _ _ _ _ hl h)]

/-- pairs with l < m are not coefficients but are not refused: (0,1) names the place of (lmax,0) -/
theorem c32_alias {V : Type} (a : AlmObj V) : a.get 0 1 = a.get a.lmax 0 := by
  unfold AlmObj.get almIdx
  congr 1
  simp

/-- lmax 3, mmax 2: nine coefficients; (2,1) is the fifth -/
example : almSize 3 2 = 9 ∧ almIdx 3 2 1 = 5 ∧ IsCoeff 3 2 2 1 ∧ (⟨3, 2, List.replicate 9 (0 : Nat)⟩ : AlmObj Nat).Ok :=
  ⟨rfl, rfl, ⟨by decide, by decide, by decide⟩, ⟨by decide, by decide⟩⟩

end Verif.Sky
