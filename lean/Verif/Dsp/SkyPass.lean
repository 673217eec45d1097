import Verif.Dsp.FilterMore
import Verif.Amp.ApplyCal
import Verif.Codes.Props
/-!
# Property C91 : the sky-pass filter of `filter_src.py`

With `-d -1` the window of delays is made from the lengths of the baselines (`gen_skypass_delay`), so that it holds the delays
of everything on the sky.
-/
noncomputable section
namespace Verif.Dsp
open Verif.Util Verif.Coord Finset Matrix

/-! ## Model -/

/-- `np.round`: to the nearest integer, halves to the even one -/
def roundEven (x : ℝ) : ℤ :=
  if x - ⌊x⌋ < 1 / 2 then ⌊x⌋ else if 1 / 2 < x - ⌊x⌋ then ⌊x⌋ + 1 else if ⌊x⌋ % 2 = 0 then ⌊x⌋ else ⌊x⌋ + 1

/-- one entry of `filters`, filter_src.py 16-27: `offs` is what `get_phs_offset` returns (one value per channel), of which the
last two are taken for a delay and a phase; fewer than two cannot be unpacked.  `max_bl_frac` is 1.5. -/
def thresholds (sdf : ℝ) (nchan : Nat) (b : Vec) (offs : List ℝ) : Option (ℤ × ℤ) :=
  let binDly := 1 / (sdf * nchan)
  let maxBl := 3 / 2 * √(b ⬝ᵥ b)
  match offs.drop (offs.length - 2) with
  | [dly, _] => some (roundEven ((dly + maxBl) / binDly + 1), roundEven ((dly - maxBl) / binDly))
  | _ => none

/-- the pairs of antennas of the two loops, filter_src.py 17-19 -/
def skyPairs (nant : Nat) : List (Nat × Nat) :=
  (List.range nant).flatMap fun i => ((List.range nant).filter fun j => !decide (j ≤ i)).map fun j => (i, j)

/-- the entry of two antennas; `get_baseline(i,j)` is the topocentric baseline, phs.py 303-321 -/
def skyEntry (a : Verif.Amp.SArr) (sdf : ℝ) (pol : Char × Char) (p : Nat × Nat) : Option (ℤ × ℤ) :=
  match a.ants[p.1]?, a.ants[p.2]? with
  | some ai, some aj => thresholds sdf a.afreqs.length (eq2top_m 0 a.lat *ᵥ (aj.pos - ai.pos)) (a.afreqs.map (Verif.Amp.offsetAt ai aj pol))
  | _, _ => none

/-- `gen_skypass_delay`, filter_src.py 12-28 -/
def skyTable (a : Verif.Amp.SArr) (sdf : ℝ) (pol : Char × Char) : Option (List (Int × (ℤ × ℤ))) :=
  (skyPairs a.ants.length).foldl (fun t p => t.bind fun d => (skyEntry a sdf pol p).map fun s => dset (Verif.Codes.ij2bl p.1 p.2) s d) (some [])

/-- `filters`, filter_src.py 54-57 (no source); if one of the tables cannot be made the script raises before it reads any data -/
def skyFilters (a : Verif.Amp.SArr) (sdf : ℝ) (pols : List (Char × Char)) (pol : Char × Char) (bl : Int) : Option (ℤ × ℤ) :=
  if pol ∈ pols then (skyTable a sdf pol).bind (dget bl) else none

/-- the script without a source and with `-d -1` -/
def skyEnv (n : Nat) (a : Verif.Amp.SArr) (sdf : ℝ) (pols : List (Char × Char)) (extract : Bool) (tol : ℝ) (padlen : Nat → Nat) : Env n :=
  ⟨pols, -1, -1, false, extract, tol, padlen, fun _ _ _ _ => .nosrc, some (skyFilters a sdf pols)⟩

/-! ## Rounding -/

theorem roundEven_bounds (x : ℝ) : x - 1 / 2 ≤ roundEven x ∧ roundEven x ≤ x + 1 / 2 := by
  have h1 := Int.floor_le x
  have h2 := Int.lt_floor_add_one x
  unfold roundEven
  split
  · constructor <;> linarith
  · split
    · push_cast; constructor <;> linarith
    · split
      · constructor <;> linarith
      · push_cast; constructor <;> linarith

theorem le_roundEven {m : ℤ} {x : ℝ} (h : (m : ℝ) ≤ x) : m ≤ roundEven x := by
  have h1 : m ≤ ⌊x⌋ := Int.le_floor.2 h
  unfold roundEven
  split
  · exact h1
  · split
    · omega
    · split <;> omega

theorem roundEven_le {m : ℤ} {x : ℝ} (h : x ≤ m) : roundEven x ≤ m := by
  have h1 := Int.floor_le x
  have h2 : ⌊x⌋ ≤ m := by
    have : (⌊x⌋ : ℝ) ≤ m := le_trans h1 h
    exact_mod_cast this
  have key : ¬x - ⌊x⌋ < 1 / 2 → ⌊x⌋ + 1 ≤ m := by
    intro hx
    have : (⌊x⌋ : ℝ) < m := by linarith
    have : ⌊x⌋ < m := by exact_mod_cast this
    omega
  unfold roundEven
  split
  · exact h2
  · rename_i hx
    have := key hx
    split
    · exact this
    · split <;> omega

/-! ## The table -/

theorem skyPairs_mem (nant i j : Nat) : (i, j) ∈ skyPairs nant ↔ i < j ∧ j < nant := by
  unfold skyPairs
  simp only [List.mem_flatMap, List.mem_range, List.mem_map, List.mem_filter, Bool.not_eq_true', decide_eq_false_iff_not, Prod.mk.injEq]
  constructor
  · rintro ⟨x, hx, y, ⟨hy, hxy⟩, rfl, rfl⟩
    omega
  · rintro ⟨h1, h2⟩
    exact ⟨i, by omega, j, ⟨h2, by omega⟩, rfl, rfl⟩

/-- a fold of assignments whose values are all there: the value of a key that determines its pair -/
theorem sky_fold (E : Nat × Nat → Option (ℤ × ℤ)) (code : Nat × Nat → Int) : ∀ (l : List (Nat × Nat)) (d : List (Int × (ℤ × ℤ))),
    (∀ p ∈ l, (E p).isSome = true) →
    ∃ d', l.foldl (fun t p => t.bind fun d => (E p).map fun s => dset (code p) s d) (some d) = some d' ∧
      ∀ k, (∀ p ∈ l, code p = k → E p = dget k d) → dget k d' = dget k d
  | [], d, _ => ⟨d, rfl, fun _ _ => rfl⟩
  | p :: l, d, h => by
    obtain ⟨s, hs⟩ := Option.isSome_iff_exists.1 (h p (by simp))
    obtain ⟨d', h1, h2⟩ := sky_fold E code l (dset (code p) s d) fun q hq => h q (by simp [hq])
    refine ⟨d', by rw [List.foldl_cons]; simp only [Option.bind_some, hs, Option.map_some]; exact h1, ?_⟩
    intro k hk
    have e1 : dget k (dset (code p) s d) = dget k d := by
      rw [dget_dset]
      split
      · rename_i hc
        rw [← hk p (by simp) hc, hs]
      · rfl
    rw [h2 k, e1]
    intro q hq hc
    rw [e1]
    exact hk q (by simp [hq]) hc

theorem sky_fold_get (E : Nat × Nat → Option (ℤ × ℤ)) (code : Nat × Nat → Int) (l : List (Nat × Nat)) (hE : ∀ p ∈ l, (E p).isSome = true)
    (hinj : ∀ p ∈ l, ∀ q ∈ l, code p = code q → p = q) : ∀ (d : List (Int × (ℤ × ℤ))),
    ∃ d', l.foldl (fun t p => t.bind fun d => (E p).map fun s => dset (code p) s d) (some d) = some d' ∧
      ∀ p ∈ l, dget (code p) d' = E p := by
  induction l with
  | nil => intro d; exact ⟨d, rfl, by simp⟩
  | cons x l ih =>
    intro d
    obtain ⟨s, hs⟩ := Option.isSome_iff_exists.1 (hE x (by simp))
    obtain ⟨d', h1, h2⟩ := ih (fun p hp => hE p (by simp [hp])) (fun p hp q hq => hinj p (by simp [hp]) q (by simp [hq])) (dset (code x) s d)
    refine ⟨d', by rw [List.foldl_cons]; simp only [Option.bind_some, hs, Option.map_some]; exact h1, ?_⟩
    intro p hp
    by_cases hpl : p ∈ l
    · exact h2 p hpl
    · have hpx : p = x := (List.mem_cons.1 hp).resolve_right hpl
      subst hpx
      obtain ⟨d2, g1, g2⟩ := sky_fold E code l (dset (code p) s d) fun q hq => hE q (by simp [hq])
      rw [h1] at g1
      cases g1
      rw [g2 (code p), dget_dset, if_pos rfl, hs]
      intro q hq hc
      exact absurd (hinj q (by simp [hq]) p (by simp) hc ▸ hq) hpl

/-- the arrays the filter can be made for -/
structure SkyArr (n : Nat) (a : Verif.Amp.SArr) : Prop where
  nchan : a.afreqs.length = n + 1
  two : 1 ≤ n
  small : a.ants.length ≤ 2047

theorem skyEntry_some {n : Nat} {a : Verif.Amp.SArr} (ha : SkyArr n a) (sdf : ℝ) (pol : Char × Char) {p : Nat × Nat}
    (hp : p ∈ skyPairs a.ants.length) : (skyEntry a sdf pol p).isSome = true := by
  obtain ⟨i, j⟩ := p
  rw [skyPairs_mem] at hp
  have h1 : i < a.ants.length := by omega
  unfold skyEntry
  simp only [List.getElem?_eq_getElem h1, List.getElem?_eq_getElem hp.2]
  unfold thresholds
  simp only
  have hl : ((a.afreqs.map (Verif.Amp.offsetAt a.ants[i] a.ants[j] pol)).drop ((a.afreqs.map (Verif.Amp.offsetAt a.ants[i] a.ants[j] pol)).length - 2)).length = 2 := by
    have := ha.nchan
    have := ha.two
    simp only [List.length_drop, List.length_map]
    omega
  obtain ⟨x, y, hxy⟩ := List.length_eq_two.1 hl
  rw [hxy]
  rfl

theorem skyFilters_get {n : Nat} {a : Verif.Amp.SArr} (ha : SkyArr n a) (sdf : ℝ) {pols : List (Char × Char)} {pol : Char × Char} (hp : pol ∈ pols)
    {i j : Nat} (hij : i < j) (hj : j < a.ants.length) :
    skyFilters a sdf pols pol (Verif.Codes.ij2bl i j) = skyEntry a sdf pol (i, j) := by
  have hs := ha.small
  obtain ⟨d, h1, h2⟩ := sky_fold_get (skyEntry a sdf pol) (fun p => Verif.Codes.ij2bl p.1 p.2) (skyPairs a.ants.length)
    (fun p hp => skyEntry_some ha sdf pol hp) (by
      rintro ⟨i1, j1⟩ h1 ⟨i2, j2⟩ h2 hc
      rw [skyPairs_mem] at h1 h2
      have := Verif.Codes.c02_injective i1 j1 i2 j2 ⟨by omega, by omega⟩ ⟨by omega, by omega⟩ ⟨by omega, by omega⟩ ⟨by omega, by omega⟩ hc
      ext
      · simp only; omega
      · simp only; omega) []
  unfold skyFilters skyTable
  rw [if_pos hp, h1]
  exact h2 (i, j) ((skyPairs_mem _ _ _).2 ⟨hij, hj⟩)

/-! ## Specification -/

/-- the longest delay on the sky, with the margin of one half, in bins of delay -/
def skyLimit (n : Nat) (sdf : ℝ) (pi pj : Vec) : ℝ := 3 / 2 * √((pj - pi) ⬝ᵥ (pj - pi)) * (sdf * (n + 1))

/-- `k` is a delay of at most `M` bins, up to whole bands -/
def Near (n : Nat) (M : ℝ) (k : Fin (n + 1)) : Prop := ∃ m : ℤ, |(m : ℝ)| ≤ M ∧ ((n : ℤ) + 1) ∣ m - k.val

/-- all delays of `k` are larger than `M` by one and a half bins -/
def Far (n : Nat) (M : ℝ) (k : Fin (n + 1)) : Prop := ∀ m : ℤ, ((n : ℤ) + 1) ∣ m - k.val → M + 3 / 2 ≤ |(m : ℝ)|

/-! ## Slices -/

theorem slice_near {n : Nat} {M : ℝ} (hM : 0 ≤ M) {k : Fin (n + 1)} (h : Near n M k) (α : Row n) :
    zeroSlice (roundEven (M + 1)) (roundEven (-M)) α k = α k := by
  obtain ⟨m, hm, q, hq⟩ := h
  have hk := k.isLt
  have hu : 1 ≤ roundEven (M + 1) := le_roundEven (by push_cast; linarith)
  have hl : roundEven (-M) ≤ 0 := roundEven_le (by push_cast; linarith)
  unfold zeroSlice
  rw [if_neg]
  rintro ⟨h1, h2⟩
  have hlneg : roundEven (-M) < 0 := by
    by_contra hcon
    unfold bound at h2
    rw [if_neg hcon] at h2
    omega
  have h3 : (k.val : ℤ) < roundEven (-M) + (n + 1) := by
    unfold bound at h2
    rw [if_pos hlneg] at h2
    push_cast at h2
    omega
  have h4 : roundEven (M + 1) ≤ k.val := by
    unfold bound at h1
    rw [if_neg (by omega)] at h1
    omega
  rcases lt_or_ge q 0 with hq0 | hq0
  · have : ((n : ℤ) + 1) * q ≤ ((n : ℤ) + 1) * (-1) := mul_le_mul_of_nonneg_left (by omega) (by omega)
    have hmk : m ≤ k.val - ((n : ℤ) + 1) := by omega
    have hr : (m : ℝ) ≤ ((k.val - ((n : ℤ) + 1) : ℤ) : ℝ) := by exact_mod_cast hmk
    have : roundEven (-M) ≤ k.val - ((n : ℤ) + 1) := roundEven_le (by
      have := (abs_le.1 hm).1
      linarith)
    omega
  · have : 0 ≤ ((n : ℤ) + 1) * q := mul_nonneg (by omega) hq0
    have hmk : (k.val : ℤ) + 1 ≤ m + 1 := by omega
    have : (k.val : ℤ) + 1 ≤ roundEven (M + 1) := le_roundEven (by
      have h5 : (((k.val : ℤ) + 1 : ℤ) : ℝ) ≤ ((m + 1 : ℤ) : ℝ) := by exact_mod_cast hmk
      have h6 := (abs_le.1 hm).2
      push_cast at h5 ⊢
      linarith)
    omega

theorem slice_far {n : Nat} {M : ℝ} (hM : 1 / 2 < M) {k : Fin (n + 1)} (h : Far n M k) (α : Row n) :
    zeroSlice (roundEven (M + 1)) (roundEven (-M)) α k = 0 := by
  have hk := k.isLt
  have h1 := h k.val (by simp)
  have h2 := h (k.val - (n + 1)) ⟨-1, by ring⟩
  have hu := (roundEven_bounds (M + 1)).2
  have hl := roundEven_bounds (-M)
  have hlneg : roundEven (-M) < 0 := by
    have : (roundEven (-M) : ℝ) < 0 := by linarith [hl.2]
    exact_mod_cast this
  have hu1 : 1 ≤ roundEven (M + 1) := le_roundEven (by push_cast; linarith)
  unfold zeroSlice
  rw [if_pos]
  constructor
  · have h3 : roundEven (M + 1) ≤ k.val := by
      have : (roundEven (M + 1) : ℝ) ≤ ((k.val : ℤ) : ℝ) := by
        rw [abs_of_nonneg (by positivity)] at h1
        linarith
      exact_mod_cast this
    unfold bound
    rw [if_neg (by omega)]
    omega
  · have h3 : (k.val : ℤ) < roundEven (-M) + (n + 1) := by
      have hneg : (((k.val : ℤ) - (n + 1) : ℤ) : ℝ) ≤ 0 := by
        have : (k.val : ℤ) - (n + 1) ≤ 0 := by omega
        exact_mod_cast this
      rw [abs_of_nonpos hneg] at h2
      have : (((k.val : ℤ) : ℤ) : ℝ) < ((roundEven (-M) + (n + 1) : ℤ) : ℝ) := by
        push_cast at h2 ⊢
        linarith [hl.1]
      exact_mod_cast this
    unfold bound
    rw [if_pos hlneg]
    push_cast
    omega

theorem slice_short {n : Nat} {M : ℝ} (hM : 0 ≤ M) (hM2 : M < 1 / 2) (α : Row n) : zeroSlice (roundEven (M + 1)) (roundEven (-M)) α = α := by
  have hl : roundEven (-M) = 0 := by
    have h1 := roundEven_bounds (-M)
    have h2 : (-1 : ℝ) < roundEven (-M) := by linarith [h1.1]
    have h3 : (-1 : ℤ) < roundEven (-M) := by exact_mod_cast h2
    have h4 : roundEven (-M) ≤ 0 := roundEven_le (by push_cast; linarith)
    omega
  funext k
  unfold zeroSlice
  rw [hl, if_neg]
  rintro ⟨_, h2⟩
  simp [bound] at h2

/-! ## The script -/

/-- what a slice leaves of the records, without a source and without a delay-rate filter -/
theorem file_slice {n : Nat} (e : Env n) (recs : List (FRec n)) (hpol : ∀ r ∈ recs, r.i ≠ r.j → r.pol ∈ e.pols) (hpass : e.passband = false)
    (hpad : ∀ l, 0 < l → 1 ≤ e.padlen l ∧ e.padlen l ≤ l) (hsrc : ∀ t i j p, e.sight t i j p = .nosrc) (hdr : e.drw = -1)
    (sl : Key → ℤ × ℤ) (hsl : ∀ r ∈ recs, r.i ≠ r.j → delaySlice e r.key = .ok (sl r.key)) :
    ∃ out, filterFile e recs = .ok out ∧ List.Forall₂ (fun r r' => SameHead r r' ∧ (r.i = r.j → r' = r) ∧
      (r.i ≠ r.j → (∀ x, r.flags x = false) → ∀ α, r.data = tones α →
        r'.data = tones (if e.extract then zeroSlice (sl r.key).1 (sl r.key).2 α else α - zeroSlice (sl r.key).1 (sl r.key).2 α))) recs out := by
  have hw : Works e recs := ⟨hpol, hpass, fun t i j p ph h => (by rw [hsrc] at h; cases h), hpad⟩
  have hmem : ∀ k, rowsOf e k recs ≠ [] → ∃ r ∈ recs, r.i ≠ r.j ∧ r.key = k := by
    intro k hne
    unfold rowsOf at hne
    rw [Ne, List.map_eq_nil_iff, List.filter_eq_nil_iff] at hne
    push Not at hne
    obtain ⟨r, hr, hx⟩ := hne
    have hx := of_decide_eq_true hx
    exact ⟨r, hr, hx.1, hx.2⟩
  have hseen : ∀ r : FRec n, ∀ d, seen e r d = d := by
    intro r d
    unfold seen
    rw [hsrc]
  apply file_ok hw (fun k rows => rows.map fun row => fft (zeroSlice (sl k).1 (sl k).2 row))
  · intro k hne
    obtain ⟨r, hr, hij, rfl⟩ := hmem k hne
    have hup : anyUp e recs = true := up_any hr hij (by rw [hsrc]; exact fun h => by cases h)
    have hlen : 0 < (rowsOf e r.key recs).length := List.length_pos_iff.2 hne
    rw [hup]
    simp only [filterRows, hdr, hsl r hr hij, bind, Except.bind, Bool.true_eq_false, if_false, ne_eq, not_true_eq_false]
    rw [unpad_map_pad _ _ _ (hpad _ hlen).1 (hpad _ hlen).2]
  · intro r _ hij
    exact ⟨⟨rfl, ⟨rfl, rfl⟩, rfl, rfl⟩, fun _ => rfl, fun h => absurd hij h⟩
  · intro pre r suf hs hij
    have hat := rowsOf_at e pre r suf hij
    rw [← hs] at hat
    refine ⟨fft (zeroSlice (sl r.key).1 (sl r.key).2 (rowOf e r)), by simp [hat], emit_head e r _, fun h => absurd h hij, ?_⟩
    intro _ hf α hα
    have hd : e.sight r.time r.i r.j r.pol ≠ .down := by rw [hsrc]; exact fun h => by cases h
    have h1 := seen_emit hw.phs hf hd (fft (zeroSlice (sl r.key).1 (sl r.key).2 (rowOf e r)))
    rw [hseen, hseen] at h1
    rw [h1, rowOf_clear hw.pass r hf hd, hseen, hα, ← fft_tones, ifft_fft]
    cases e.extract
    · simp only [Bool.false_eq_true, if_false]
      rw [← fft_sub, fft_tones]
    · simp only [if_true]
      rw [fft_tones]

/-- the records of an array, for the polarisations chosen -/
structure OfArr {n : Nat} (a : Verif.Amp.SArr) (pols : List (Char × Char)) (r : FRec n) : Prop where
  i : r.i < a.ants.length
  j : r.j < a.ants.length
  pol : r.i ≠ r.j → r.pol ∈ pols

/-- the phases of the antennas need no correction -/
def NoOffsets (a : Verif.Amp.SArr) : Prop := ∀ x ∈ a.ants, ∀ c, ∀ f ∈ a.afreqs, Verif.Phs.polyval (x.phsoff c) f = 0

theorem skyEntry_zero {n : Nat} {a : Verif.Amp.SArr} (ha : SkyArr n a) (h0 : NoOffsets a) (sdf : ℝ) (pol : Char × Char) {i j : Nat}
    {ai aj : Verif.Amp.SAnt} (hi : a.ants[i]? = some ai) (hj : a.ants[j]? = some aj) :
    skyEntry a sdf pol (i, j) = some (roundEven (skyLimit n sdf ai.pos aj.pos + 1), roundEven (-skyLimit n sdf ai.pos aj.pos)) := by
  have hz : a.afreqs.map (Verif.Amp.offsetAt ai aj pol) = List.replicate (n + 1) 0 := by
    rw [List.eq_replicate_iff]
    refine ⟨by simp [ha.nchan], ?_⟩
    intro x hx
    obtain ⟨f, hf, rfl⟩ := List.mem_map.1 hx
    unfold Verif.Amp.offsetAt
    rw [h0 _ (List.mem_of_getElem? hi) _ _ hf, h0 _ (List.mem_of_getElem? hj) _ _ hf, sub_zero]
  have htwo := ha.two
  unfold skyEntry
  simp only [hi, hj, hz]
  unfold thresholds
  have hd : (List.replicate (n + 1) (0 : ℝ)).drop ((List.replicate (n + 1) (0 : ℝ)).length - 2) = [0, 0] := by
    rw [List.length_replicate, List.drop_replicate]
    have : n + 1 - (n + 1 - 2) = 2 := by omega
    rw [this]
    rfl
  simp only [hd, c20_isometry, ha.nchan]
  have e1 : (0 + 3 / 2 * √((aj.pos - ai.pos) ⬝ᵥ (aj.pos - ai.pos))) / (1 / (sdf * ((n + 1 : ℕ) : ℝ))) = skyLimit n sdf ai.pos aj.pos := by
    unfold skyLimit
    rw [div_div_eq_mul_div, div_one]
    push_cast
    ring
  have e2 : (0 - 3 / 2 * √((aj.pos - ai.pos) ⬝ᵥ (aj.pos - ai.pos))) / (1 / (sdf * ((n + 1 : ℕ) : ℝ))) = -skyLimit n sdf ai.pos aj.pos := by
    unfold skyLimit
    rw [div_div_eq_mul_div, div_one]
    push_cast
    ring
  rw [e1, e2]

theorem skyLimit_symm (n : Nat) (sdf : ℝ) (p q : Vec) : skyLimit n sdf p q = skyLimit n sdf q p := by
  unfold skyLimit
  have : (q - p) ⬝ᵥ (q - p) = (p - q) ⬝ᵥ (p - q) := by
    have : q - p = -(p - q) := by abel
    rw [this, neg_dotProduct, dotProduct_neg, neg_neg]
  rw [this]

theorem slice_of {n : Nat} {a : Verif.Amp.SArr} (ha : SkyArr n a) (h0 : NoOffsets a) (sdf : ℝ) {pols : List (Char × Char)} (extract : Bool)
    (tol : ℝ) (padlen : Nat → Nat) {r : FRec n} (hr : OfArr a pols r) (hij : r.i ≠ r.j) {ai aj : Verif.Amp.SAnt}
    (hi : a.ants[r.i]? = some ai) (hj : a.ants[r.j]? = some aj) :
    delaySlice (skyEnv n a sdf pols extract tol padlen) r.key =
      .ok (roundEven (skyLimit n sdf ai.pos aj.pos + 1), roundEven (-skyLimit n sdf ai.pos aj.pos)) := by
  have key : skyFilters a sdf pols r.pol (Verif.Codes.ij2bl r.i r.j) =
      some (roundEven (skyLimit n sdf ai.pos aj.pos + 1), roundEven (-skyLimit n sdf ai.pos aj.pos)) := by
    rcases lt_or_gt_of_ne hij with h | h
    · rw [skyFilters_get ha sdf (hr.pol hij) h hr.j, skyEntry_zero ha h0 sdf r.pol hi hj]
    · rw [Verif.Codes.c01_symmetric, skyFilters_get ha sdf (hr.pol hij) h hr.i, skyEntry_zero ha h0 sdf r.pol hj hi, skyLimit_symm]
  unfold delaySlice skyEnv
  simp only [ne_eq, not_true_eq_false, if_false]
  unfold FRec.key
  rw [key]

theorem skyLimit_nonneg (n : Nat) {sdf : ℝ} (h : 0 < sdf) (p q : Vec) : 0 ≤ skyLimit n sdf p q := by
  unfold skyLimit
  have := Real.sqrt_nonneg ((q - p) ⬝ᵥ (q - p))
  positivity

/-- a record of the result: some delays are taken as those of the sky -/
structure IsSkyPass {n : Nat} (a : Verif.Amp.SArr) (sdf : ℝ) (extract : Bool) (r r' : FRec n) : Prop where
  head : SameHead r r'
  auto : r.i = r.j → r' = r
  cross : r.i ≠ r.j → (∀ x, r.flags x = false) → ∀ ai aj, a.ants[r.i]? = some ai → a.ants[r.j]? = some aj →
    ∃ K : Fin (n + 1) → Bool, (∀ k, Near n (skyLimit n sdf ai.pos aj.pos) k → K k = true) ∧
      (1 / 2 < skyLimit n sdf ai.pos aj.pos → ∀ k, Far n (skyLimit n sdf ai.pos aj.pos) k → K k = false) ∧
      (skyLimit n sdf ai.pos aj.pos < 1 / 2 → ∀ k, K k = true) ∧
      ∀ α, r.data = tones α → r'.data = tones fun k => if K k = extract then α k else 0

/-- C91: without phase offsets and for baselines that are not too short, `-d -1` takes for the sky all delays of up to one and
a half times the length of the baseline, and none that is more than one and a half bins beyond. -/
theorem c91_window_partial {n : Nat} (a : Verif.Amp.SArr) (ha : SkyArr n a) (h0 : NoOffsets a) (sdf : ℝ) (hsdf : 0 < sdf)
    (pols : List (Char × Char)) (extract : Bool) (tol : ℝ) (padlen : Nat → Nat) (hpad : ∀ l, 0 < l → 1 ≤ padlen l ∧ padlen l ≤ l)
    (recs : List (FRec n)) (hr : ∀ r ∈ recs, OfArr a pols r) :
    ∃ out, filterFile (skyEnv n a sdf pols extract tol padlen) recs = .ok out ∧ List.Forall₂ (IsSkyPass a sdf extract) recs out := by
  classical
  let sl : Key → ℤ × ℤ := fun k => match delaySlice (skyEnv n a sdf pols extract tol padlen) k with
    | .ok s => s
    | .error _ => (0, 0)
  have hant : ∀ {i}, i < a.ants.length → ∃ x, a.ants[i]? = some x := fun h => ⟨_, List.getElem?_eq_getElem h⟩
  obtain ⟨out, h1, h2⟩ := file_slice (skyEnv n a sdf pols extract tol padlen) recs (fun r h hij => (hr r h).pol hij) rfl hpad (fun _ _ _ _ => rfl) rfl sl
    (by
      intro r h hij
      obtain ⟨ai, hi⟩ := hant (hr r h).i
      obtain ⟨aj, hj⟩ := hant (hr r h).j
      show _ = Except.ok (match delaySlice (skyEnv n a sdf pols extract tol padlen) r.key with | .ok s => s | .error _ => (0, 0))
      rw [slice_of ha h0 sdf extract tol padlen (hr r h) hij hi hj])
  refine ⟨out, h1, forall2_mem_imp h2 ?_⟩
  intro r h r' hrr
  refine ⟨hrr.1, hrr.2.1, ?_⟩
  intro hij hf ai aj hi hj
  have hs : sl r.key = (roundEven (skyLimit n sdf ai.pos aj.pos + 1), roundEven (-skyLimit n sdf ai.pos aj.pos)) := by
    show (match delaySlice (skyEnv n a sdf pols extract tol padlen) r.key with | .ok s => s | .error _ => (0, 0)) = _
    rw [slice_of ha h0 sdf extract tol padlen (hr r h) hij hi hj]
  have hM := skyLimit_nonneg n hsdf ai.pos aj.pos
  set M := skyLimit n sdf ai.pos aj.pos with hMdef
  let K : Fin (n + 1) → Bool := fun k => decide (zeroSlice (roundEven (M + 1)) (roundEven (-M)) (fun _ => (1 : ℂ)) k ≠ 0)
  have hK : ∀ (α : Row n) k, zeroSlice (roundEven (M + 1)) (roundEven (-M)) α k = if K k then α k else 0 := by
    intro α k
    show _ = if decide (zeroSlice (roundEven (M + 1)) (roundEven (-M)) (fun _ => (1 : ℂ)) k ≠ 0) = true then α k else 0
    unfold zeroSlice
    split <;> simp
  refine ⟨K, ?_, ?_, ?_, ?_⟩
  · intro k hk
    show decide _ = true
    rw [slice_near hM hk]
    simp
  · intro hgt k hk
    show decide _ = false
    rw [slice_far hgt hk]
    simp
  · intro hlt k
    show decide _ = true
    rw [slice_short hM hlt]
    simp
  · intro α hα
    have := hrr.2.2 hij hf α hα
    rw [hs] at this
    rw [this]
    show tones (if extract = true then _ else _) = _
    congr 1
    funext k
    cases extract
    · simp only [Bool.false_eq_true, if_false, Pi.sub_apply, hK]
      cases K k <;> simp
    · simp only [if_true, hK]

/-! ## A source -/

/-- what a source in the direction `s` gives on a baseline from `pi` to `pj`, with frequencies `f0 + x * sdf` -/
def fringe (n : Nat) (A : ℂ) (pi pj s : Vec) (f0 sdf : ℝ) (x : Fin (n + 1)) : ℂ :=
  A * Complex.exp (-(2 * Real.pi * Complex.I * (((pj - pi) ⬝ᵥ s : ℝ) * (f0 + x.val * sdf : ℝ))))

theorem dot_le (b s : Vec) (hs : s ⬝ᵥ s ≤ 1) : |b ⬝ᵥ s| ≤ √(b ⬝ᵥ b) := by
  apply Real.abs_le_sqrt
  have h0 : b ⬝ᵥ b = b 0 * b 0 + b 1 * b 1 + b 2 * b 2 := by simp [dotProduct, Fin.sum_univ_three]
  have h1 : b ⬝ᵥ s = b 0 * s 0 + b 1 * s 1 + b 2 * s 2 := by simp [dotProduct, Fin.sum_univ_three]
  have h2 : s ⬝ᵥ s = s 0 * s 0 + s 1 * s 1 + s 2 * s 2 := by simp [dotProduct, Fin.sum_univ_three]
  have hb : 0 ≤ b ⬝ᵥ b := by rw [h0]; nlinarith [sq_nonneg (b 0), sq_nonneg (b 1), sq_nonneg (b 2)]
  have h3 : (b ⬝ᵥ s) ^ 2 ≤ (b ⬝ᵥ b) * (s ⬝ᵥ s) := by
    rw [h0, h1, h2]
    nlinarith [sq_nonneg (b 0 * s 1 - b 1 * s 0), sq_nonneg (b 0 * s 2 - b 2 * s 0), sq_nonneg (b 1 * s 2 - b 2 * s 1)]
  nlinarith

theorem tone_mod (n : Nat) {m m' : ℤ} (h : ((n : ℤ) + 1) ∣ m - m') (x : Fin (n + 1)) : tone n m x = tone n m' x := by
  obtain ⟨q, hq⟩ := h
  have hn : (n : ℂ) + 1 ≠ 0 := by exact_mod_cast Nat.succ_ne_zero n
  unfold tone
  rw [Complex.exp_eq_exp_iff_exists_int]
  refine ⟨-(q * x.val), ?_⟩
  have : (m : ℂ) = m' + (n + 1) * q := by
    have : m = m' + (n + 1) * q := by omega
    rw [this]
    push_cast
    ring
  rw [this]
  push_cast
  field_simp
  ring

theorem tone_tones {n : Nat} (A : ℂ) (m : ℤ) :
    ∃ k : Fin (n + 1), ((n : ℤ) + 1) ∣ m - k.val ∧ (fun x => A * tone n m x) = tones (fun l => if l = k then A else 0) := by
  have hlt : (m % ((n : ℤ) + 1)).toNat < n + 1 := by
    have h1 := Int.emod_lt_of_pos m (show (0 : ℤ) < (n : ℤ) + 1 by omega)
    have h2 := Int.emod_nonneg m (show ((n : ℤ) + 1) ≠ 0 by omega)
    omega
  have hk : (((m % ((n : ℤ) + 1)).toNat : ℕ) : ℤ) = m % ((n : ℤ) + 1) := Int.toNat_of_nonneg (Int.emod_nonneg m (by omega))
  have hd : ((n : ℤ) + 1) ∣ m - (((m % ((n : ℤ) + 1)).toNat : ℕ) : ℤ) := by
    rw [hk]
    exact Int.dvd_self_sub_emod
  refine ⟨⟨_, hlt⟩, hd, ?_⟩
  funext x
  unfold tones
  rw [Finset.sum_eq_single ⟨(m % ((n : ℤ) + 1)).toNat, hlt⟩]
  · simp only [if_true]
    rw [tone_mod n hd]
  · intro l _ hne
    simp only [if_neg hne, zero_mul]
  · intro h
    exact absurd (Finset.mem_univ _) h

/-- a fringe at a whole number of bins is one tone -/
theorem fringe_tone {n : Nat} (A : ℂ) (pi pj s : Vec) (f0 : ℝ) {sdf : ℝ} {m : ℤ} (hm : ((pj - pi) ⬝ᵥ s) * (sdf * (n + 1)) = m) :
    fringe n A pi pj s f0 sdf = fun x => A * Complex.exp (-(2 * Real.pi * Complex.I * (((pj - pi) ⬝ᵥ s : ℝ) * (f0 : ℝ)))) * tone n m x := by
  have hn : (n : ℂ) + 1 ≠ 0 := by exact_mod_cast Nat.succ_ne_zero n
  funext x
  unfold fringe tone
  rw [mul_assoc A, ← Complex.exp_add]
  congr 2
  have : (m : ℂ) = (((pj - pi) ⬝ᵥ s : ℝ) : ℂ) * ((sdf : ℂ) * (n + 1)) := by
    have h := congrArg (fun y : ℝ => (y : ℂ)) hm
    push_cast at h
    rw [← h]
  rw [this]
  push_cast
  field_simp
  ring

/-- C91: a source anywhere on the sky (with a delay of a whole number of bins) goes through the extraction unchanged, and is
taken out whole by the filter. -/
theorem c91_source_partial {n : Nat} (a : Verif.Amp.SArr) (ha : SkyArr n a) (h0 : NoOffsets a) (sdf : ℝ) (hsdf : 0 < sdf)
    (pols : List (Char × Char)) (extract : Bool) (tol : ℝ) (padlen : Nat → Nat) (hpad : ∀ l, 0 < l → 1 ≤ padlen l ∧ padlen l ≤ l)
    (recs : List (FRec n)) (hr : ∀ r ∈ recs, OfArr a pols r) :
    ∃ out, filterFile (skyEnv n a sdf pols extract tol padlen) recs = .ok out ∧ List.Forall₂ (fun r r' => SameHead r r' ∧
      (r.i ≠ r.j → (∀ x, r.flags x = false) → ∀ ai aj, a.ants[r.i]? = some ai → a.ants[r.j]? = some aj → ∀ A s f0, s ⬝ᵥ s ≤ 1 →
        (∃ m : ℤ, ((aj.pos - ai.pos) ⬝ᵥ s) * (sdf * (n + 1)) = m) → r.data = fringe n A ai.pos aj.pos s f0 sdf →
        r'.data = if extract then r.data else fun _ => 0)) recs out := by
  obtain ⟨out, h1, h2⟩ := c91_window_partial a ha h0 sdf hsdf pols extract tol padlen hpad recs hr
  refine ⟨out, h1, h2.imp ?_⟩
  intro r r' h
  refine ⟨h.head, ?_⟩
  rintro hij hf ai aj hi hj A s f0 hs ⟨m, hm⟩ hd
  obtain ⟨K, hK, _, _, hdat⟩ := h.cross hij hf ai aj hi hj
  rw [fringe_tone A ai.pos aj.pos s f0 hm] at hd
  obtain ⟨k, hk, ht⟩ := tone_tones (n := n) (A * Complex.exp (-(2 * Real.pi * Complex.I * (((aj.pos - ai.pos) ⬝ᵥ s : ℝ) * (f0 : ℝ))))) m
  rw [ht] at hd
  have hnear : K k = true := by
    apply hK
    refine ⟨m, ?_, hk⟩
    rw [← hm, abs_mul]
    have hB : (0 : ℝ) < sdf * (n + 1) := by positivity
    rw [abs_of_pos hB]
    unfold skyLimit
    have h3 := dot_le (aj.pos - ai.pos) s hs
    have h4 := Real.sqrt_nonneg ((aj.pos - ai.pos) ⬝ᵥ (aj.pos - ai.pos))
    apply mul_le_mul_of_nonneg_right _ hB.le
    linarith
  rw [hdat _ hd, hd]
  cases extract
  · simp only [Bool.false_eq_true, if_false]
    have hz : (fun _ => 0 : Row n) = tones fun _ => 0 := by funext x; simp [tones]
    rw [hz]
    congr 1
    funext l
    by_cases hl : l = k
    · subst hl
      simp [hnear]
    · simp [hl]
  · simp only [if_true]
    congr 1
    funext l
    by_cases hl : l = k
    · subst hl
      simp [hnear]
    · simp [hl]

/-- every row is a sum of tones -/
theorem row_tones {n : Nat} (d : Row n) : ∃ α, d = tones α := ⟨ifft d, tones_ifft d⟩

/-- C91 fails for short baselines: when one and a half times the length of the baseline is less than half a bin, all delays are
taken for the sky, so that extraction keeps everything and the filter removes everything, whatever the data are. -/
theorem c91_short_violated {n : Nat} (a : Verif.Amp.SArr) (ha : SkyArr n a) (h0 : NoOffsets a) (sdf : ℝ) (hsdf : 0 < sdf)
    (pols : List (Char × Char)) (extract : Bool) (tol : ℝ) (padlen : Nat → Nat) (hpad : ∀ l, 0 < l → 1 ≤ padlen l ∧ padlen l ≤ l)
    (recs : List (FRec n)) (hr : ∀ r ∈ recs, OfArr a pols r) :
    ∃ out, filterFile (skyEnv n a sdf pols extract tol padlen) recs = .ok out ∧ List.Forall₂ (fun r r' =>
      r.i ≠ r.j → (∀ x, r.flags x = false) → ∀ ai aj, a.ants[r.i]? = some ai → a.ants[r.j]? = some aj →
        skyLimit n sdf ai.pos aj.pos < 1 / 2 → r'.data = if extract then r.data else fun _ => 0) recs out := by
  obtain ⟨out, h1, h2⟩ := c91_window_partial a ha h0 sdf hsdf pols extract tol padlen hpad recs hr
  refine ⟨out, h1, h2.imp ?_⟩
  intro r r' h hij hf ai aj hi hj hlt
  obtain ⟨K, _, _, hK, hdat⟩ := h.cross hij hf ai aj hi hj
  obtain ⟨α, hα⟩ := row_tones r.data
  rw [hdat _ hα, hα]
  cases extract
  · simp only [Bool.false_eq_true, if_false]
    have hz : (fun _ => 0 : Row n) = tones fun _ => 0 := by funext x; simp [tones]
    rw [hz]
    congr 1
    funext l
    simp [hK hlt l]
  · simp only [if_true]
    congr 1
    funext l
    simp [hK hlt l]

/-! ## An antenna with a delay -/

/-- two antennas `50/3` ns apart, the second with a cable delay of 100 ns; sixteen channels of 6.25 MHz from 62.5 MHz on -/
def offArr : Verif.Amp.SArr :=
  ⟨[⟨![0, 0, 0], fun _ => [0, 0], fun _ => [], fun _ => [], fun _ => 1, fun _ _ _ => 1⟩,
    ⟨![50 / 3, 0, 0], fun _ => [100, 0], fun _ => [], fun _ => [], fun _ => 1, fun _ _ _ => 1⟩],
    (List.range 16).map fun x => 1 / 16 + x * (1 / 160), 0, fun _ => 0, false⟩

theorem offArr_ok : SkyArr 15 offArr := ⟨by simp [offArr], by norm_num, by simp [offArr]⟩

theorem roundEven_int (z : ℤ) : roundEven z = z := le_antisymm (roundEven_le le_rfl) (le_roundEven le_rfl)

/-- a source overhead (no geometric delay), seen through the cable -/
def offRec : FRec 15 :=
  { i := 0, j := 1, time := 0, pol := ('x', 'x'), flags := fun _ => false
    data := fun x => Complex.exp (-(2 * Real.pi * Complex.I * ((100 * (1 / 16 + x.val * (1 / 160)) : ℝ)))) }

theorem off_entry : skyEntry offArr (1 / 160) ('x', 'x') (0, 1) = some (5, -1) := by
  have hd : (offArr.afreqs.map (Verif.Amp.offsetAt ⟨![0, 0, 0], fun _ => [0, 0], fun _ => [], fun _ => [], fun _ => 1, fun _ _ _ => 1⟩
      ⟨![50 / 3, 0, 0], fun _ => [100, 0], fun _ => [], fun _ => [], fun _ => 1, fun _ _ _ => 1⟩ ('x', 'x'))).drop (16 - 2) = [15, 125 / 8] := by
    simp [offArr, Verif.Amp.offsetAt, Verif.Phs.polyval, List.range, List.range.loop]
    norm_num
  have hs : √((![50 / 3, 0, 0] - ![0, 0, 0] : Vec) ⬝ᵥ (![50 / 3, 0, 0] - ![0, 0, 0])) = 50 / 3 := by
    have : ((![50 / 3, 0, 0] - ![0, 0, 0] : Vec) ⬝ᵥ (![50 / 3, 0, 0] - ![0, 0, 0])) = (50 / 3) * (50 / 3) := by
      simp [dotProduct, Fin.sum_univ_three]
    rw [this, Real.sqrt_mul_self (by norm_num)]
  have e1 : roundEven 5 = 5 := by exact_mod_cast roundEven_int 5
  have e2 : roundEven (-1) = -1 := by exact_mod_cast roundEven_int (-1)
  have hlen : offArr.afreqs.length = 16 := by simp [offArr]
  show thresholds (1 / 160) offArr.afreqs.length (eq2top_m 0 offArr.lat *ᵥ (![50 / 3, 0, 0] - ![0, 0, 0])) (offArr.afreqs.map _) = _
  unfold thresholds
  simp only [List.length_map, hlen, hd, c20_isometry, hs]
  norm_num
  exact ⟨e1, e2⟩

/-- C91 fails with phase offsets: a source overhead is seen through a cable of 100 ns, so that all of its signal is at that
delay; `gen_skypass_delay` takes the value of the offset in the last channel but one for the delay, puts the window at 15 ns,
and the extraction of "the sky" returns zeros. -/
theorem c91_offset_violated (pols : List (Char × Char)) (hx : ('x', 'x') ∈ pols) (tol : ℝ) (padlen : Nat → Nat)
    (hpad : ∀ l, 0 < l → 1 ≤ padlen l ∧ padlen l ≤ l) :
    OfArr offArr pols offRec ∧
      (∀ x : Fin 16, offRec.data x = Complex.exp (-(2 * Real.pi * Complex.I * ((![50 / 3, 0, 0] - ![0, 0, 0] : Vec) ⬝ᵥ ![0, 0, 1] * (1 / 16 + x.val * (1 / 160))
        + Verif.Phs.polyval [100, 0] (1 / 16 + x.val * (1 / 160)) : ℝ)))) ∧
      filterFile (skyEnv 15 offArr (1 / 160) pols true tol padlen) [offRec] = .ok [{ offRec with data := fun _ => 0 }] := by
  have hof : OfArr offArr pols offRec := ⟨by simp [offArr, offRec], by simp [offArr, offRec], fun _ => hx⟩
  refine ⟨hof, ?_, ?_⟩
  · intro x
    simp [offRec, dotProduct, Fin.sum_univ_three, Verif.Phs.polyval]
  · have hne : offRec.i ≠ offRec.j := by decide
    have hsl : delaySlice (skyEnv 15 offArr (1 / 160) pols true tol padlen) offRec.key = .ok (5, -1) := by
      have : skyFilters offArr (1 / 160) pols ('x', 'x') (Verif.Codes.ij2bl ((0 : ℕ) : ℤ) ((1 : ℕ) : ℤ)) = some (5, -1) := by
        rw [skyFilters_get (i := 0) (j := 1) offArr_ok (1 / 160) hx (by decide) (by simp [offArr]), off_entry]
      unfold delaySlice skyEnv
      simp only [ne_eq, not_true_eq_false, if_false]
      have hk : offRec.key = (('x', 'x'), Verif.Codes.ij2bl ((0 : ℕ) : ℤ) ((1 : ℕ) : ℤ)) := rfl
      rw [hk, this]
    obtain ⟨out, h1, h2⟩ := file_slice (skyEnv 15 offArr (1 / 160) pols true tol padlen) [offRec]
      (by intro r hr _; simp only [List.mem_singleton] at hr; subst hr; exact hx) rfl hpad (fun _ _ _ _ => rfl) rfl (fun _ => (5, -1))
      (by intro r hr _; simp only [List.mem_singleton] at hr; subst hr; exact hsl)
    cases h2 with
    | cons hh ht =>
      cases ht
      rename_i r'
      rw [h1]
      have hd : offRec.data = fun x => Complex.exp (-(2 * Real.pi * Complex.I * (25 / 4))) * tone 15 10 x := by
        funext x
        unfold offRec tone
        simp only
        rw [← Complex.exp_add]
        congr 1
        push_cast
        ring
      obtain ⟨k, hk, htn⟩ := tone_tones (n := 15) (Complex.exp (-(2 * Real.pi * Complex.I * (25 / 4)))) 10
      have hk10 : k.val = 10 := by
        have := k.isLt
        obtain ⟨q, hq⟩ := hk
        push_cast at hq
        omega
      rw [htn] at hd
      have hdat := hh.2.2 hne (fun _ => rfl) _ hd
      have hz : r'.data = fun _ => 0 := by
        rw [hdat]
        show tones (if true = true then _ else _) = _
        rw [if_pos rfl]
        have : zeroSlice 5 (-1) (fun l => if l = k then Complex.exp (-(2 * Real.pi * Complex.I * (25 / 4))) else 0) = fun _ => 0 := by
          funext l
          unfold zeroSlice
          by_cases hl : l = k
          · subst hl
            rw [if_pos]
            simp only [bound]
            norm_num
            omega
          · simp [hl]
        rw [this]
        funext x
        simp [tones]
      obtain ⟨ht, ⟨hi, hj⟩, hp, hfl⟩ := hh.1
      cases r'
      simp only at ht hi hj hp hfl hz
      subst ht hi hj hp hfl hz
      rfl

/-! ## With a source -/

/-- C91: with a source and `-d -1` the table of the windows is never made, and the script raises (a NameError) as soon as there is a
baseline on which the source is up. -/
theorem c91_with_source_raises {n : Nat} (e : Env n) (hf : e.filters = none) (hdw : e.dw = -1) (hdr : e.drw = -1) (hpass : e.passband = false)
    (recs : List (FRec n)) (hpol : ∀ r ∈ recs, r.i ≠ r.j → r.pol ∈ e.pols)
    (hup : ∃ r ∈ recs, r.i ≠ r.j ∧ e.sight r.time r.i r.j r.pol ≠ .down) : filterFile e recs = .error .name := by
  obtain ⟨r, hr, hij, hup⟩ := hup
  obtain ⟨tab, h1, h2⟩ := pass1_ok hpass recs [] [] hpol (by
    refine ⟨?_, ?_, ?_⟩ <;> simp [dget])
  rw [List.nil_append] at h1 h2
  have hany : anyUp e recs = true := up_any hr hij hup
  have hrows : ∀ k rows, filterRows e true k rows = .error .name := by
    intro k rows
    simp [filterRows, delaySlice, hf, hdw, hdr, bind, Except.bind]
  have hne : tab ≠ [] := by
    rintro rfl
    have := h2.has r hr hij
    simp [dget] at this
  unfold filterFile
  have h1 : pass1 e ([], false) recs = .ok (tab, true) := by rw [← hany]; exact h1
  simp only [h1, bind, Except.bind]
  cases tab with
  | nil => exact absurd rfl hne
  | cons x tab => simp [filterTab, hrows, bind, Except.bind]

/-! ## A case -/

/-- the same array without the cable -/
def clearArr : Verif.Amp.SArr :=
  ⟨[⟨![0, 0, 0], fun _ => [0, 0], fun _ => [], fun _ => [], fun _ => 1, fun _ _ _ => 1⟩,
    ⟨![50 / 3, 0, 0], fun _ => [0, 0], fun _ => [], fun _ => [], fun _ => 1, fun _ _ _ => 1⟩],
    (List.range 16).map fun x => 1 / 16 + x * (1 / 160), 0, fun _ => 0, false⟩

theorem clear_limit : skyLimit 15 (1 / 160) ![0, 0, 0] ![50 / 3, 0, 0] = 5 / 2 := by
  unfold skyLimit
  have hs : √((![50 / 3, 0, 0] - ![0, 0, 0] : Vec) ⬝ᵥ (![50 / 3, 0, 0] - ![0, 0, 0])) = 50 / 3 := by
    have : ((![50 / 3, 0, 0] - ![0, 0, 0] : Vec) ⬝ᵥ (![50 / 3, 0, 0] - ![0, 0, 0])) = (50 / 3) * (50 / 3) := by
      simp [dotProduct, Fin.sum_univ_three]
    rw [this, Real.sqrt_mul_self (by norm_num)]
  rw [hs]
  norm_num

/-- the hypotheses are met, and there are delays of both kinds -/
example : SkyArr 15 clearArr ∧ NoOffsets clearArr ∧ OfArr clearArr [('x', 'x')] offRec ∧ Near 15 (5 / 2) 14 ∧ Far 15 (5 / 2) 8 := by
  refine ⟨⟨by simp [clearArr], by norm_num, by simp [clearArr]⟩, ?_, ⟨by simp [clearArr, offRec], by simp [clearArr, offRec], fun _ => by simp [offRec]⟩,
    ⟨-2, by norm_num, by norm_num⟩, ?_⟩
  · intro x hx c f _
    simp only [clearArr, List.mem_cons, List.not_mem_nil, or_false] at hx
    rcases hx with rfl | rfl <;> simp [Verif.Phs.polyval]
  · rintro m ⟨q, hq⟩
    have hm : 8 ≤ |m| := by
      have : (8 : Fin 16).val = 8 := rfl
      push_cast at hq
      rw [le_abs]
      omega
    have : (8 : ℝ) ≤ |(m : ℝ)| := by exact_mod_cast hm
    linarith

/-- a source at the end of the baseline in the direction `(3/5, 4/5, 0)`: its delay of 10 ns is one bin -/
example : (![50 / 3, 0, 0] - ![0, 0, 0] : Vec) ⬝ᵥ ![3 / 5, 4 / 5, 0] * (1 / 160 * ((15 : ℕ) + 1)) = ((1 : ℤ) : ℝ) := by
  simp [dotProduct, Fin.sum_univ_three]
  norm_num

/-- two antennas 2 ns apart are too close -/
example : skyLimit 15 (1 / 160) ![0, 0, 0] ![2, 0, 0] < 1 / 2 := by
  unfold skyLimit
  have hs : √((![2, 0, 0] - ![0, 0, 0] : Vec) ⬝ᵥ (![2, 0, 0] - ![0, 0, 0])) = 2 := by
    have : ((![2, 0, 0] - ![0, 0, 0] : Vec) ⬝ᵥ (![2, 0, 0] - ![0, 0, 0])) = 2 * 2 := by
      simp [dotProduct, Fin.sum_univ_three]
    rw [this, Real.sqrt_mul_self (by norm_num)]
  rw [hs]
  norm_num

end Verif.Dsp
