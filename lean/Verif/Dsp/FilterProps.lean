import Verif.Dsp.FilterSrc
/-!
# Property C90 : what `filter_src.py` keeps and removes
-/
noncomputable section
namespace Verif.Dsp
open Verif.Util Verif.Deconv Finset

/-! ## Specification -/

/-- the visibilities of something with an integer number `k` of turns of phase over the band -/
def tone (n : Nat) (k : ℤ) (x : Fin (n + 1)) : ℂ := Complex.exp (-(2 * Real.pi * Complex.I * (k * x.val) / (n + 1)))

/-- a sum of tones -/
def tones {n : Nat} (a : Fin (n + 1) → ℂ) (x : Fin (n + 1)) : ℂ := ∑ k : Fin (n + 1), a k * tone n k.val x

/-- `k` is a delay `m` with `-dw ≤ m < dw`, up to whole bands (which no channel can tell apart) -/
def InWindow (n : Nat) (dw : ℤ) (k : Fin (n + 1)) : Prop := ∃ m : ℤ, -dw ≤ m ∧ m < dw ∧ ((n : ℤ) + 1) ∣ m - k.val

open Classical in
/-- the tones in the window -/
def inside {n : Nat} (dw : ℤ) (a : Fin (n + 1) → ℂ) (k : Fin (n + 1)) : ℂ := if InWindow n dw k then a k else 0

/-- the same record but for the data -/
structure SameHead {n : Nat} (r r' : FRec n) : Prop where
  time : r'.time = r.time
  ants : r'.i = r.i ∧ r'.j = r.j
  pol : r'.pol = r.pol
  flags : r'.flags = r.flags

/-- the records the script can work on -/
structure Works {n : Nat} (e : Env n) (recs : List (FRec n)) : Prop where
  pols : ∀ r ∈ recs, r.i ≠ r.j → r.pol ∈ e.pols
  pass : e.passband = false
  phs : ∀ t i j p ph, e.sight t i j p = .up ph → ∀ x, ph x ≠ 0
  pad : ∀ l, 0 < l → 1 ≤ e.padlen l ∧ e.padlen l ≤ l

/-- the data of a record as seen from the source -/
def seen {n : Nat} (e : Env n) (r : FRec n) (d : Row n) : Row n :=
  match e.sight r.time r.i r.j r.pol with
  | .up ph => fun x => d x * ph x
  | _ => d

/-! ## The transforms of one record -/

theorem cleanRow_ok {n : Nat} (tol : ℝ) (gain : ℂ) (ker d : Row n) : ∃ mdl res : Row n,
    cleanRow tol gain ker d = .ok (fun k => mdl k + res k / gain) ∧ ∀ k, res k + conv ker mdl k = d k := by
  obtain ⟨o, ho⟩ := c39_stop_if_div (c := cleanCfg tol ker) rfl d (fun _ => 0)
  have hc : cleanPy (cleanCfg tol ker) 10001 d (fun _ => 0) = some (report (cleanCfg tol ker) o) := by
    unfold cleanPy
    have : ((cleanCfg tol ker).maxiter.toNat + 1) = 10001 := rfl
    rw [this] at ho
    rw [ho]; rfl
  refine ⟨(report (cleanCfg tol ker) o).mdl, (report (cleanCfg tol ker) o).res, ?_, ?_⟩
  · unfold cleanRow
    rw [hc]
  · intro k
    have h0 : (fun x => d x - conv (cleanCfg tol ker).ker (fun _ => 0) x) = d := by
      funext x; simp [conv]
    exact c36_1d (c := cleanCfg tol ker) rfl d (fun _ => 0) 10001 _ (by rw [h0]; exact hc) k

theorem conv_delta {n : Nat} (ker mdl : Row n) (h : ∀ k, ker k = if k = 0 then 1 else 0) (k : Fin (n + 1)) : conv ker mdl k = mdl k := by
  unfold conv
  have : ∀ y, ker (k - y) * mdl y = if y = k then mdl k else 0 := by
    intro y
    rw [h]
    by_cases hy : y = k
    · subst hy; simp
    · rw [if_neg hy, if_neg (by rwa [sub_eq_zero, eq_comm]), zero_mul]
  rw [Finset.sum_congr rfl fun y _ => this y]
  simp

theorem rms_ones {n : Nat} (f : Row n) (h : ∀ k, f k = 1) : rmsFlags f = 1 := by
  have : (∑ k, Complex.normSq (f k)) / ((n : ℝ) + 1) = 1 := by
    have hn : (n : ℝ) + 1 ≠ 0 := by positivity
    simp [h, hn]
  unfold rmsFlags
  rw [this]
  simp

/-- without flags CLEAN returns what it got -/
theorem clean_ones {n : Nat} (tol : ℝ) (f d : Row n) (h : ∀ k, f k = 1) : cleanRow tol (rmsFlags f) (ifft f) d = .ok d := by
  obtain ⟨m, r, h1, h2⟩ := cleanRow_ok tol (rmsFlags f) (ifft f) d
  have hker : ∀ k, ifft f k = if k = 0 then 1 else 0 := by
    intro k
    have : f = fun _ => 1 := funext h
    rw [this, ifft_ones]
  have : (fun k => m k + r k / rmsFlags f) = d := by
    funext k
    rw [rms_ones f h, div_one, ← h2 k, conv_delta _ _ hker, add_comm]
  rw [h1, this]

theorem delays_ones {n : Nat} (tol : ℝ) (f d : Row n) (h : ∀ k, f k = 1) : delays tol f d = .ok (ifft d) := by
  unfold delays
  simp only
  split
  · rfl
  · exact clean_ones tol f _ h

theorem delays_ok {n : Nat} (tol : ℝ) (f d : Row n) : ∃ x, delays tol f d = .ok x := by
  unfold delays
  simp only
  split
  · exact ⟨_, rfl⟩
  · obtain ⟨m, r, h1, _⟩ := cleanRow_ok tol (rmsFlags f) (ifft f) (ifft d)
    exact ⟨_, h1⟩

theorem delayRow_ok {n : Nat} {e : Env n} (hp : e.passband = false) (r : FRec n) : ∃ x, delayRow e r = .ok x := by
  unfold delayRow
  cases e.of r with
  | down => exact ⟨_, rfl⟩
  | nosrc => simp only [hp, Bool.false_eq_true, if_false]; exact delays_ok _ _ _
  | up ph => simp only [hp, Bool.false_eq_true, if_false]; exact delays_ok _ _ _

/-- the delays of a record -/
def rowOf {n : Nat} (e : Env n) (r : FRec n) : Row n := match delayRow e r with
  | .ok x => x
  | .error _ => 0

theorem rowOf_spec {n : Nat} {e : Env n} (hp : e.passband = false) (r : FRec n) : delayRow e r = .ok (rowOf e r) := by
  obtain ⟨x, hx⟩ := delayRow_ok hp r
  unfold rowOf
  rw [hx]

theorem rowOf_clear {n : Nat} {e : Env n} (hp : e.passband = false) (r : FRec n) (hf : ∀ x, r.flags x = false)
    (hu : e.of r ≠ .down) : rowOf e r = ifft (seen e r r.data) := by
  have h := rowOf_spec hp r
  have hs : e.sight r.time r.i r.j r.pol = e.of r := rfl
  unfold delayRow at h
  unfold seen
  rw [hs]
  cases hx : e.of r with
  | down => exact absurd hx hu
  | nosrc =>
    rw [hx] at h
    simp only [hp, Bool.false_eq_true, if_false, hf] at h
    rw [delays_ones _ _ _ (fun _ => rfl)] at h
    exact (Except.ok.inj h).symm
  | up ph =>
    rw [hx] at h
    simp only [hp, Bool.false_eq_true, if_false, hf] at h
    rw [delays_ones _ _ _ (fun _ => rfl)] at h
    exact (Except.ok.inj h).symm

/-! ## The two passes -/

/-- the delays of the cross-correlations with a key, in the order of the records -/
def rowsOf {n : Nat} (e : Env n) (k : Key) (recs : List (FRec n)) : List (Row n) :=
  (recs.filter fun r => decide (r.i ≠ r.j ∧ r.key = k)).map (rowOf e)

/-- the number of cross-correlations with a key -/
def countOf {n : Nat} (k : Key) (recs : List (FRec n)) : Nat := (recs.filter fun r => decide (r.i ≠ r.j ∧ r.key = k)).length

def anyUp {n : Nat} (e : Env n) (recs : List (FRec n)) : Bool := recs.any fun r => decide (r.i ≠ r.j) && !isDown (e.of r)

/-- a table that holds the rows of some records -/
structure HoldsRows {n : Nat} (e : Env n) (tab : Tab n) (recs : List (FRec n)) : Prop where
  rows : ∀ k rows, dget k tab = some rows → rows = rowsOf e k recs ∧ rows ≠ []
  has : ∀ r ∈ recs, r.i ≠ r.j → (dget r.key tab).isSome = true
  nodup : (tab.map Prod.fst).Nodup

theorem rowsOf_append {n : Nat} (e : Env n) (k : Key) (a b : List (FRec n)) : rowsOf e k (a ++ b) = rowsOf e k a ++ rowsOf e k b := by
  simp [rowsOf]

theorem rowsOf_one {n : Nat} (e : Env n) (k : Key) (r : FRec n) (h : r.i ≠ r.j) : rowsOf e k [r] = if r.key = k then [rowOf e r] else [] := by
  unfold rowsOf
  by_cases hk : r.key = k <;> simp [h, hk]

theorem rowsOf_auto {n : Nat} (e : Env n) (k : Key) (r : FRec n) (h : r.i = r.j) : rowsOf e k [r] = [] := by
  unfold rowsOf
  simp [h]

theorem rowsOf_nil_of_absent {n : Nat} {e : Env n} {tab : Tab n} {recs : List (FRec n)} (h : HoldsRows e tab recs) {k : Key}
    (hk : dget k tab = none) : rowsOf e k recs = [] := by
  unfold rowsOf
  rw [List.map_eq_nil_iff, List.filter_eq_nil_iff]
  intro r hr hx
  have hx := of_decide_eq_true hx
  have := h.has r hr hx.1
  rw [hx.2, hk] at this
  cases this

theorem holds_step {n : Nat} {e : Env n} {tab : Tab n} {pre : List (FRec n)} (h : HoldsRows e tab pre) (r : FRec n) (hr : r.i ≠ r.j) :
    HoldsRows e (dset r.key ((dget r.key tab).getD [] ++ [rowOf e r]) tab) (pre ++ [r]) := by
  have hkey : (dget r.key tab).getD [] = rowsOf e r.key pre := by
    cases hd : dget r.key tab with
    | none => rw [rowsOf_nil_of_absent h hd]; rfl
    | some rows => exact (h.rows _ _ hd).1
  refine ⟨?_, ?_, nodup_dset _ _ _ h.nodup⟩
  · intro k rows hd
    rw [dget_dset] at hd
    rw [rowsOf_append, rowsOf_one e k r hr]
    by_cases hk : r.key = k
    · rw [if_pos hk] at hd
      rw [if_pos hk]
      subst hk
      rw [← Option.some.inj hd, hkey]
      exact ⟨rfl, by simp⟩
    · rw [if_neg hk] at hd
      rw [if_neg hk, List.append_nil]
      exact h.rows _ _ hd
  · intro r' hr' hc
    rw [dget_dset]
    split
    · rfl
    · rename_i hne
      rcases List.mem_append.1 hr' with hr' | hr'
      · exact h.has r' hr' hc
      · simp only [List.mem_singleton] at hr'
        subst hr'
        exact absurd rfl hne

theorem holds_auto {n : Nat} {e : Env n} {tab : Tab n} {pre : List (FRec n)} (h : HoldsRows e tab pre) (r : FRec n) (hr : r.i = r.j) :
    HoldsRows e tab (pre ++ [r]) := by
  refine ⟨?_, ?_, h.nodup⟩
  · intro k rows hd
    rw [rowsOf_append, rowsOf_auto e k r hr, List.append_nil]
    exact h.rows _ _ hd
  · intro r' hr' hc
    rcases List.mem_append.1 hr' with hr' | hr'
    · exact h.has r' hr' hc
    · simp only [List.mem_singleton] at hr'
      subst hr'
      exact absurd hr hc

theorem pass1_ok {n : Nat} {e : Env n} (hpass : e.passband = false) : ∀ (suf pre : List (FRec n)) (tab : Tab n),
    (∀ r ∈ suf, r.i ≠ r.j → r.pol ∈ e.pols) → HoldsRows e tab pre →
    ∃ tab', pass1 e (tab, anyUp e pre) suf = .ok (tab', anyUp e (pre ++ suf)) ∧ HoldsRows e tab' (pre ++ suf)
  | [], pre, tab, _, h => ⟨tab, by rw [List.append_nil]; rfl, by rw [List.append_nil]; exact h⟩
  | r :: rs, pre, tab, hp, h => by
    have happ : pre ++ r :: rs = (pre ++ [r]) ++ rs := by simp
    have hup : anyUp e (pre ++ [r]) = (anyUp e pre || (decide (r.i ≠ r.j) && !isDown (e.of r))) := by simp [anyUp]
    rw [happ]
    by_cases hij : r.i = r.j
    · have hstep : pass1 e (tab, anyUp e pre) (r :: rs) = pass1 e (tab, anyUp e (pre ++ [r])) rs := by
        rw [hup]
        simp [pass1, hij]
      rw [hstep]
      exact pass1_ok hpass rs (pre ++ [r]) tab (fun x hx => hp x (by simp [hx])) (holds_auto h r hij)
    · have hstep : pass1 e (tab, anyUp e pre) (r :: rs) =
          pass1 e (dset r.key ((dget r.key tab).getD [] ++ [rowOf e r]) tab, anyUp e (pre ++ [r])) rs := by
        rw [hup]
        have hpol := hp r (by simp) hij
        simp [pass1, hij, hpol, rowOf_spec hpass r, bind, Except.bind]
      rw [hstep]
      exact pass1_ok hpass rs (pre ++ [r]) _ (fun x hx => hp x (by simp [hx])) (holds_step h r hij)

theorem filterTab_ok {n : Nat} {e : Env n} {up : Bool} (F : Key → List (Row n) → List (Row n)) : ∀ (tab : Tab n),
    (∀ k rows, (k, rows) ∈ tab → filterRows e up k rows = .ok (F k rows)) →
    filterTab e up tab = .ok (tab.map fun x => (x.1, F x.1 x.2))
  | [], _ => rfl
  | (k, rows) :: tab, h => by
    have h1 := h k rows (by simp)
    have h2 := filterTab_ok F tab fun k' r' hm => h k' r' (by simp [hm])
    simp only [filterTab, h1, h2, bind, Except.bind, List.map_cons]

theorem dget_map {V W : Type} (F : Key → V → W) (k : Key) : ∀ (d : List (Key × V)),
    dget k (d.map fun x => (x.1, F x.1 x.2)) = (dget k d).map (F k)
  | [] => rfl
  | (k', v) :: d => by
    simp only [List.map_cons, dget]
    split
    · rename_i h; subst h; rfl
    · exact dget_map F k d

/-- the second pass hands every record the row with its own number -/
theorem pass2_ok {n : Nat} {e : Env n} {tab : Tab n} {R : FRec n → FRec n → Prop} (recs : List (FRec n))
    (hauto : ∀ r ∈ recs, r.i = r.j → R r r)
    (hrow : ∀ pre r suf, recs = pre ++ r :: suf → r.i ≠ r.j →
      ∃ rows row, dget r.key tab = some rows ∧ rows[countOf r.key pre]? = some row ∧ R r (emit e r row)) :
    ∀ (suf pre : List (FRec n)) (cnt : List (Key × Nat)), recs = pre ++ suf →
    (∀ r ∈ recs, r.i ≠ r.j → dget r.key cnt = some (countOf r.key pre)) →
    ∃ out, pass2 e tab cnt suf = .ok out ∧ List.Forall₂ R suf out
  | [], _, _, _, _ => ⟨[], rfl, .nil⟩
  | r :: rs, pre, cnt, hsplit, hcnt => by
    have happ : recs = (pre ++ [r]) ++ rs := by rw [hsplit]; simp
    have hmem : r ∈ recs := by rw [hsplit]; simp
    by_cases hij : r.i = r.j
    · obtain ⟨out, h1, h2⟩ := pass2_ok recs hauto hrow rs (pre ++ [r]) cnt happ (by
        intro x hx hc
        rw [hcnt x hx hc]
        simp [countOf, hij])
      exact ⟨r :: out, by simp only [pass2, hij, if_true, h1, bind, Except.bind], .cons (hauto r hmem hij) h2⟩
    · obtain ⟨rows, row, q1, q2, q3⟩ := hrow pre r rs hsplit hij
      obtain ⟨out, h1, h2⟩ := pass2_ok recs hauto hrow rs (pre ++ [r]) (dset r.key (countOf r.key pre + 1) cnt) happ (by
        intro x hx hc
        rw [dget_dset]
        by_cases hk : r.key = x.key
        · rw [if_pos hk, ← hk]
          simp [countOf, hij]
        · rw [if_neg hk, hcnt x hx hc]
          simp [countOf, hk])
      refine ⟨emit e r row :: out, ?_, .cons q3 h2⟩
      simp only [pass2, hij, if_false, q1, hcnt r hmem hij, q2, h1, bind, Except.bind]

/-- the script, once it is known what happens to the rows of a key -/
theorem file_ok {n : Nat} {e : Env n} {recs : List (FRec n)} (hw : Works e recs) {R : FRec n → FRec n → Prop}
    (F : Key → List (Row n) → List (Row n))
    (hF : ∀ k, rowsOf e k recs ≠ [] → filterRows e (anyUp e recs) k (rowsOf e k recs) = .ok (F k (rowsOf e k recs)))
    (hauto : ∀ r ∈ recs, r.i = r.j → R r r)
    (hrow : ∀ pre r suf, recs = pre ++ r :: suf → r.i ≠ r.j →
      ∃ row, (F r.key (rowsOf e r.key recs))[countOf r.key pre]? = some row ∧ R r (emit e r row)) :
    ∃ out, filterFile e recs = .ok out ∧ List.Forall₂ R recs out := by
  obtain ⟨tab, h1, h2⟩ := pass1_ok hw.pass recs [] [] hw.pols ⟨by simp [dget], by simp, by simp⟩
  simp only [List.nil_append] at h1 h2
  have e0 : anyUp e ([] : List (FRec n)) = false := rfl
  rw [e0] at h1
  have h3 := filterTab_ok (e := e) (up := anyUp e recs) F tab (by
    intro k rows hm
    have := h2.rows k rows (dget_of_mem h2.nodup hm)
    rw [this.1]
    exact hF k (this.1 ▸ this.2))
  obtain ⟨out, h4, h5⟩ := pass2_ok (e := e) (tab := tab.map fun x => (x.1, F x.1 x.2)) (R := R) recs hauto (by
    intro pre r suf hs hij
    obtain ⟨row, q1, q2⟩ := hrow pre r suf hs hij
    have hsome := h2.has r (by rw [hs]; simp) hij
    obtain ⟨rows, hrows⟩ := Option.isSome_iff_exists.1 hsome
    refine ⟨F r.key rows, row, by rw [dget_map, hrows]; rfl, ?_, q2⟩
    rw [(h2.rows _ _ hrows).1]
    exact q1) recs [] ((tab.map fun x => (x.1, F x.1 x.2)).map fun x => (x.1, 0)) rfl (by
    intro r hr hij
    rw [List.map_map]
    have := dget_map (fun _ (_ : List (Row n)) => (0 : Nat)) r.key tab
    rw [show (tab.map ((fun x => (x.1, 0)) ∘ fun x => (x.1, F x.1 x.2))) = tab.map fun x => (x.1, (0 : Nat)) from rfl, this]
    obtain ⟨rows, hrows⟩ := Option.isSome_iff_exists.1 (h2.has r hr hij)
    rw [hrows]
    simp [countOf])
  exact ⟨out, by simp only [filterFile, h1, h3, h4, bind, Except.bind], h5⟩

theorem rowsOf_at {n : Nat} (e : Env n) (pre : List (FRec n)) (r : FRec n) (suf : List (FRec n)) (hij : r.i ≠ r.j) :
    (rowsOf e r.key (pre ++ r :: suf))[countOf r.key pre]? = some (rowOf e r) := by
  have : pre ++ r :: suf = pre ++ ([r] ++ suf) := rfl
  rw [this, rowsOf_append, rowsOf_append, rowsOf_one e r.key r hij, if_pos rfl]
  have hl : countOf r.key pre = (rowsOf e r.key pre).length := by simp [countOf, rowsOf]
  rw [hl, List.getElem?_append_right (Nat.le_refl _), Nat.sub_self]
  rfl

end Verif.Dsp
