import Verif.Img.WModel
import Verif.Img.HermProps
/-!
# Properties C25 (w batches) and C59 (planes cached by `ImgW.get`)
-/
noncomputable section
namespace Verif.Img

/-! ## Specification -/

/-- `order` lists the indices 0..n-1 once each -/
def IsOrder (order : List Nat) (n : Nat) : Prop := order.Perm (List.range n)

/-- `order` is what `argsort` may return for the w of these samples -/
def SortsByW (order : List Nat) (samples : List Samp) : Prop :=
  IsOrder order samples.length ∧ ((takeIdx samples order).map (fun p => p.w)).Pairwise (· ≤ ·)

/-- `deorder` is `argsort(order)` -/
def IsArgsort (deorder order : List Nat) : Prop :=
  IsOrder deorder order.length ∧ (takeIdx order deorder).Pairwise (· ≤ ·)

/-! ## Lemmas -/

theorem ssqrt_mono {a b : ℝ} (h : a ≤ b) : ssqrt a ≤ ssqrt b := by
  unfold ssqrt
  rcases lt_trichotomy a 0 with ha | ha | ha
  · rw [if_neg (by linarith), if_pos ha]
    rcases lt_trichotomy b 0 with hb | hb | hb
    · rw [if_neg (by linarith), if_pos hb]
      have : √|b| ≤ √|a| := Real.sqrt_le_sqrt (by rw [abs_of_neg ha, abs_of_neg hb]; linarith)
      linarith
    · rw [if_neg (by linarith), if_neg (by linarith)]
      have := Real.sqrt_nonneg |a|
      linarith
    · rw [if_pos hb]
      have := Real.sqrt_nonneg |a|
      have := Real.sqrt_nonneg |b|
      linarith
  · subst ha
    rw [if_neg (by linarith), if_neg (by linarith)]
    rcases lt_or_ge 0 b with hb | hb
    · rw [if_pos hb]
      have := Real.sqrt_nonneg |b|
      linarith
    · have : b = 0 := le_antisymm hb h
      subst this
      simp
  · rw [if_pos ha, if_pos (by linarith)]
    have : √|a| ≤ √|b| := Real.sqrt_le_sqrt (by rw [abs_of_pos ha, abs_of_pos (by linarith)]; exact h)
    linarith

theorem searchLeft_le (s : List ℝ) (x : ℝ) : searchLeft s x ≤ s.length := by
  unfold searchLeft
  exact (List.takeWhile_sublist _).length_le

/-- on an ascending array the leading elements below x are exactly the elements below x -/
theorem searchLeft_spec (s : List ℝ) (hs : s.Pairwise (· ≤ ·)) (x : ℝ) (k : Nat) (y : ℝ) (hy : s[k]? = some y) :
    y < x ↔ k < searchLeft s x := by
  unfold searchLeft
  induction s generalizing k with
  | nil => simp at hy
  | cons a s ih =>
    rw [List.pairwise_cons] at hs
    rw [List.takeWhile_cons]
    cases k with
    | zero =>
      simp only [List.getElem?_cons_zero, Option.some.injEq] at hy
      subst hy
      by_cases h : a < x <;> simp [h]
    | succ k =>
      rw [List.getElem?_cons_succ] at hy
      by_cases h : a < x
      · rw [if_pos (by simpa using h), List.length_cons, Nat.succ_lt_succ_iff]
        exact ih hs.2 k hy
      · rw [if_neg (by simpa using h)]
        have := hs.1 y (List.mem_of_getElem? hy)
        simp only [List.length_nil, Nat.not_lt_zero, iff_false, not_lt]
        linarith

/-- consecutive non-empty intervals from `i` to `n` -/
def Tiles : Nat → Nat → List (Nat × Nat) → Prop
  | i, n, [] => i = n
  | i, n, (a, b) :: r => a = i ∧ a < b ∧ Tiles b n r

theorem batches_spec (s : List ℝ) (hs : s.Pairwise (· ≤ ·)) (wres : ℝ) (hw : 0 < wres) :
    ∀ (fuel i : Nat), i < s.length → s.length ≤ i + fuel →
    ∃ bs, batches s wres fuel i = some bs ∧ Tiles i s.length bs ∧
      ∀ ij ∈ bs, ∀ si, s[ij.1]? = some si → ∀ k y, s[k]? = some y → ij.1 ≤ k → (k < ij.2 ↔ y < si + wres) := by
  intro fuel
  induction fuel with
  | zero => intro i h1 h2; omega
  | succ f ih =>
    intro i h1 h2
    obtain ⟨si, hsi⟩ : ∃ y, s[i]? = some y := ⟨s[i], List.getElem?_eq_getElem h1⟩
    have hlt : i < searchLeft s (si + wres) := (searchLeft_spec s hs _ i si hsi).1 (by linarith)
    have hle := searchLeft_le s (si + wres)
    have hb : ∀ si', s[i]? = some si' → ∀ k y, s[k]? = some y → i ≤ k →
        (k < searchLeft s (si + wres) ↔ y < si' + wres) := by
      intro si' h' k y hy _
      rw [hsi] at h'
      cases h'
      exact (searchLeft_spec s hs _ k y hy).symm
    unfold batches
    rw [hsi]
    simp only
    by_cases hc : s.length ≤ searchLeft s (si + wres)
    · rw [if_pos hc]
      refine ⟨_, rfl, ⟨rfl, hlt, by unfold Tiles; omega⟩, ?_⟩
      intro ij hij
      rw [List.mem_singleton] at hij
      subst hij
      exact hb
    · rw [if_neg hc]
      obtain ⟨bs, e1, e2, e3⟩ := ih (searchLeft s (si + wres)) (by omega) (by omega)
      rw [e1]
      refine ⟨_, rfl, ⟨rfl, hlt, e2⟩, ?_⟩
      intro ij hij
      rw [List.mem_cons] at hij
      rcases hij with rfl | hij
      · exact hb
      · exact e3 ij hij

theorem tiles_le : ∀ (bs : List (Nat × Nat)) (i n : Nat), Tiles i n bs → i ≤ n := by
  intro bs
  induction bs with
  | nil => intro i n h; exact Nat.le_of_eq h
  | cons b r ih =>
    intro i n h
    obtain ⟨a, c⟩ := b
    obtain ⟨rfl, h2, h3⟩ := h
    have := ih _ _ h3
    omega

theorem tiles_flatten {α : Type} (l : List α) : ∀ (bs : List (Nat × Nat)) (i : Nat), Tiles i l.length bs →
    (bs.map (slice l)).flatten = l.drop i := by
  intro bs
  induction bs with
  | nil =>
    intro i h
    have : i = l.length := h
    subst this
    simp
  | cons b r ih =>
    intro i h
    obtain ⟨a, c⟩ := b
    obtain ⟨rfl, h2, h3⟩ := h
    rw [List.map_cons, List.flatten_cons, ih c h3]
    unfold slice
    simp only
    have e : l.drop c = (l.drop a).drop (c - a) := by
      rw [List.drop_drop]; congr 1; omega
    rw [e, List.take_append_drop]

theorem tiles_mem {bs : List (Nat × Nat)} : ∀ {i n : Nat}, Tiles i n bs → ∀ ij ∈ bs, i ≤ ij.1 ∧ ij.1 < ij.2 ∧ ij.2 ≤ n := by
  induction bs with
  | nil => intro i n _ ij h; simp at h
  | cons b r ih =>
    intro i n h ij hij
    obtain ⟨a, c⟩ := b
    obtain ⟨rfl, h2, h3⟩ := h
    rw [List.mem_cons] at hij
    rcases hij with rfl | hij
    · exact ⟨Nat.le_refl _, h2, tiles_le _ _ _ h3⟩
    · have := ih h3 ij hij
      omega

theorem takeIdx_perm {α : Type} (l : List α) (order : List Nat) (h : IsOrder order l.length) :
    (takeIdx l order).Perm l := by
  unfold takeIdx
  have h1 : (order.filterMap (fun k => l[k]?)).Perm ((List.range l.length).filterMap (fun k => l[k]?)) :=
    List.Perm.filterMap _ h
  have h2 : (List.range l.length).filterMap (fun k => l[k]?) = l := by
    clear h h1
    induction l using List.reverseRecOn with
    | nil => rfl
    | append_singleton l a ih =>
      rw [List.length_append, List.length_singleton, List.range_succ, List.filterMap_append]
      congr 1
      · conv_rhs => rw [← ih]
        apply List.filterMap_congr
        intro k hk
        rw [List.mem_range] at hk
        exact List.getElem?_append_left hk
      · simp
  rwa [h2] at h1

theorem takeIdx_getElem? {α : Type} (l : List α) (order : List Nat) (h : ∀ k ∈ order, k < l.length) (m : Nat) :
    (takeIdx l order)[m]? = (order[m]?).bind (fun k => l[k]?) := by
  unfold takeIdx
  induction order generalizing m with
  | nil => simp
  | cons a r ih =>
    have ha : a < l.length := h a (by simp)
    rw [List.filterMap_cons_some (List.getElem?_eq_getElem ha)]
    cases m with
    | zero =>
      rw [List.getElem?_cons_zero, List.getElem?_cons_zero, Option.bind_some, List.getElem?_eq_getElem ha]
    | succ m =>
      rw [List.getElem?_cons_succ, List.getElem?_cons_succ]
      exact ih (fun k hk => h k (by simp [hk])) m

theorem takeIdx_length {α : Type} (l : List α) (order : List Nat) (h : ∀ k ∈ order, k < l.length) :
    (takeIdx l order).length = order.length := by
  unfold takeIdx
  induction order with
  | nil => rfl
  | cons a r ih =>
    rw [List.filterMap_cons_some (List.getElem?_eq_getElem (h a (by simp)))]
    simp only [List.length_cons]
    rw [ih (fun k hk => h k (by simp [hk]))]

theorem isOrder_lt {order : List Nat} {n : Nat} (h : IsOrder order n) : ∀ k ∈ order, k < n := by
  intro k hk
  exact List.mem_range.1 (h.mem_iff.1 hk)

theorem isOrder_length {order : List Nat} {n : Nat} (h : IsOrder order n) : order.length = n := by
  rw [h.length_eq, List.length_range]

/-- `argsort` of a permutation is its inverse -/
theorem argsort_inv {deorder order : List Nat} {n : Nat} (ho : IsOrder order n) (hd : IsArgsort deorder order) (k : Nat) (hk : k < n) :
    ∃ m, deorder[k]? = some m ∧ order[m]? = some k := by
  have hp := takeIdx_perm order deorder hd.1
  have hr : takeIdx order deorder = List.range n := by
    apply List.Perm.eq_of_pairwise' hd.2 (List.pairwise_lt_range.imp (fun h => Nat.le_of_lt h)) (hp.trans ho)
  have hl := isOrder_length ho
  have e : (takeIdx order deorder)[k]? = some k := by
    rw [hr, List.getElem?_range hk]
  rw [takeIdx_getElem? order deorder (isOrder_lt hd.1)] at e
  cases hm : deorder[k]? with
  | none => rw [hm] at e; cases e
  | some m => rw [hm] at e; exact ⟨m, rfl, e⟩

/-! ## C25 -/

/-- C25: every `put`/`get` with a positive `wres` ends, and its chunks contain every sample exactly once, none is empty,
and the samples of a chunk are within `wres` of each other in signed sqrt(w). -/
theorem c25_partition (wres : ℝ) (hw : 0 < wres) (order : List Nat) (samples : List Samp) (hne : samples ≠ [])
    (ho : SortsByW order samples) :
    ∃ cs, chunks wres order samples = some cs ∧ cs.flatten.Perm samples ∧ (∀ c ∈ cs, c ≠ []) ∧
      ∀ c ∈ cs, ∀ p ∈ c, ∀ q ∈ c, |ssqrt p.w - ssqrt q.w| < wres := by
  have hp := takeIdx_perm samples order ho.1
  unfold chunks
  simp only
  generalize hS : takeIdx samples order = sorted at *
  have hsort : (sorted.map (fun p => ssqrt p.w)).Pairwise (· ≤ ·) := by
    have := ho.2
    rw [hS, List.pairwise_map] at this
    rw [List.pairwise_map]
    exact this.imp (fun h => ssqrt_mono h)
  have hpos : 0 < sorted.length := by
    rw [hp.length_eq]; exact List.length_pos_iff.2 hne
  obtain ⟨bs, e1, e2, e3⟩ := batches_spec _ hsort wres hw sorted.length 0 (by simpa using hpos) (by simp)
  rw [e1]
  rw [List.length_map] at e2
  refine ⟨_, rfl, ?_, ?_, ?_⟩
  · rw [tiles_flatten sorted bs 0 e2, List.drop_zero]; exact hp
  · intro c hc
    rw [List.mem_map] at hc
    obtain ⟨ij, hij, rfl⟩ := hc
    have := tiles_mem e2 ij hij
    unfold slice
    rw [← List.length_pos_iff, List.length_take, List.length_drop]
    omega
  · intro c hc p hp' q hq'
    rw [List.mem_map] at hc
    obtain ⟨ij, hij, rfl⟩ := hc
    have hb := tiles_mem e2 ij hij
    have key : ∀ p ∈ slice sorted ij, ∃ si, (sorted.map (fun p => ssqrt p.w))[ij.1]? = some si ∧ si ≤ ssqrt p.w ∧
        ssqrt p.w < si + wres := by
      intro p hp'
      have hlt : ij.1 < sorted.length := by omega
      refine ⟨ssqrt sorted[ij.1].w, by rw [List.getElem?_map, List.getElem?_eq_getElem hlt]; rfl, ?_⟩
      obtain ⟨m, hm, hpm⟩ := List.getElem_of_mem hp'
      have hm' : m < ij.2 - ij.1 := by
        unfold slice at hm
        rw [List.length_take] at hm
        omega
      have hmlt : ij.1 + m < sorted.length := by omega
      have hpe : p = sorted[ij.1 + m] := by
        rw [← hpm]
        simp only [slice, List.getElem_take, List.getElem_drop]
      constructor
      · rw [hpe]
        rcases Nat.eq_zero_or_pos m with rfl | hm0
        · simp
        · have := List.pairwise_iff_getElem.1 hsort ij.1 (ij.1 + m) (by simpa using hlt) (by simpa using hmlt) (by omega)
          simpa using this
      · have := (e3 ij hij (ssqrt sorted[ij.1].w) (by rw [List.getElem?_map, List.getElem?_eq_getElem hlt]; rfl)
          (ij.1 + m) (ssqrt p.w) (by rw [List.getElem?_map, List.getElem?_eq_getElem hmlt, hpe]; rfl) (by omega)).1 (by omega)
        exact this
    obtain ⟨si, a1, a2, a3⟩ := key p hp'
    obtain ⟨si', b1, b2, b3⟩ := key q hq'
    rw [a1] at b1
    cases b1
    rw [abs_lt]
    constructor <;> linarith

/-- C25: with `wres ≤ 0` the loop never ends, whatever the samples. -/
theorem c25_loops_forever (wres : ℝ) (hw : wres ≤ 0) (s : List ℝ) (hs : s.Pairwise (· ≤ ·)) (fuel i : Nat) :
    batches s wres fuel i = none := by
  induction fuel generalizing i with
  | zero => rfl
  | succ f ih =>
    unfold batches
    cases h : s[i]? with
    | none => rfl
    | some si =>
      simp only
      have hi : i < s.length := (List.getElem?_eq_some_iff.1 h).1
      have : ¬ i < searchLeft s (si + wres) := by
        rw [← searchLeft_spec s hs _ i si h]
        linarith
      rw [if_neg (by omega), ih]
      rfl

/-- C25: gridding through chunks with a trivial kernel (every kernel the identity, as for data in the plane w = 0 before
masking) deposits every sample exactly once: the planes grow by the deposit of all samples, whatever `order` was. -/
theorem c25_put_total (g : WImage) (hd : g.dim ≠ 0) (hw : 0 < g.wres) (order : List Nat) (samples : List Samp)
    (ho : SortsByW order samples) :
    ∃ g', g.put (fun _ m => m) order samples = some g' ∧ g'.dim = g.dim ∧ ∀ k1 k2, k1 < g.dim → k2 < g.dim →
      g'.uv (k1 * g.dim + k2) = g.uv (k1 * g.dim + k2) +
        deposit g.dim g.dim 3 (samples.map (fun p => (getIndices g.res (p.u, p.v), p.d))) k1 k2 ∧
      g'.bm (k1 * g.dim + k2) = g.bm (k1 * g.dim + k2) +
        deposit g.dim g.dim 3 (samples.map (fun p => (getIndices g.res (p.u, p.v), p.wt))) k1 k2 := by
  unfold WImage.put
  by_cases hne : samples = []
  · rw [if_pos hne]
    subst hne
    exact ⟨g, rfl, rfl, fun k1 k2 _ _ => by simp [deposit]⟩
  · rw [if_neg hne]
    obtain ⟨cs, e1, e2, _⟩ := c25_partition g.wres hw order samples hne ho
    rw [e1]
    simp only
    have fold : ∀ (cs : List (List Samp)) (g : WImage), g.dim ≠ 0 → ∃ g', cs.foldlM (putChunk (fun _ m => m)) g = some g' ∧
        g'.dim = g.dim ∧ ∀ k1 k2, k1 < g.dim → k2 < g.dim →
      g'.uv (k1 * g.dim + k2) = g.uv (k1 * g.dim + k2) +
        deposit g.dim g.dim 3 (cs.flatten.map (fun p => (getIndices g.res (p.u, p.v), p.d))) k1 k2 ∧
      g'.bm (k1 * g.dim + k2) = g.bm (k1 * g.dim + k2) +
        deposit g.dim g.dim 3 (cs.flatten.map (fun p => (getIndices g.res (p.u, p.v), p.wt))) k1 k2 := by
      intro cs
      induction cs with
      | nil => intro g _; exact ⟨g, rfl, rfl, fun k1 k2 _ _ => by simp [deposit]⟩
      | cons c cs ih =>
        intro g hd
        obtain ⟨m, a1, a2, _⟩ := c28_square_partial g.dim 3 hd (c.map (fun p => (getIndices g.res (p.u, p.v), p.d))) (fun _ => 0)
        obtain ⟨q, b1, b2, _⟩ := c28_square_partial g.dim 3 hd (c.map (fun p => (getIndices g.res (p.u, p.v), p.wt))) (fun _ => 0)
        have hstep : putChunk (fun _ m => m) g c = some { g with uv := fun k => g.uv k + m k, bm := fun k => g.bm k + q k } := by
          unfold putChunk
          rw [a1, b1]
          rfl
        obtain ⟨g', c1, c2, c3⟩ := ih { g with uv := fun k => g.uv k + m k, bm := fun k => g.bm k + q k } hd
        refine ⟨g', ?_, c2, ?_⟩
        · rw [List.foldlM_cons, hstep]; exact c1
        · intro k1 k2 h1 h2
          obtain ⟨d1, d2⟩ := c3 k1 k2 h1 h2
          simp only at d1 d2
          rw [d1, d2, a2 k1 k2 h1 h2, b2 k1 k2 h1 h2, List.flatten_cons, List.map_append, List.map_append]
          simp only [deposit, List.map_append, List.sum_append]
          constructor <;> ring
    obtain ⟨g', a1, a2, a3⟩ := fold cs g hd
    refine ⟨g', a1, a2, ?_⟩
    intro k1 k2 h1 h2
    obtain ⟨b1, b2⟩ := a3 k1 k2 h1 h2
    rw [b1, b2]
    unfold deposit
    constructor
    · congr 1
      exact ((e2.map _).map _).sum_eq
    · congr 1
      exact ((e2.map _).map _).sum_eq

theorem getChunk_const (conv : ℝ → (Nat → ℂ) → (Nat → ℂ)) (rnd : ℝ → ℤ) (st : WImage × List (Option ℂ)) (b : List Samp) :
    ∃ pl, (getChunk conv rnd st b).2 = st.2 ++ b.map (readPlane st.1.dim st.1.res pl) ∧
      (lookupPlane (planeId rnd st.1.wres b) (getChunk conv rnd st b).1.wcache = some pl) ∧
      (getChunk conv rnd st b).1.dim = st.1.dim ∧ (getChunk conv rnd st b).1.res = st.1.res ∧
      (getChunk conv rnd st b).1.wres = st.1.wres ∧ (getChunk conv rnd st b).1.uv = st.1.uv ∧
      (getChunk conv rnd st b).1.bm = st.1.bm ∧
      (∀ i pl', lookupPlane i st.1.wcache = some pl' → lookupPlane i (getChunk conv rnd st b).1.wcache = some pl') := by
  unfold getChunk
  cases h : lookupPlane (planeId rnd st.1.wres b) st.1.wcache with
  | some pl => exact ⟨pl, rfl, h, rfl, rfl, rfl, rfl, rfl, fun _ _ h => h⟩
  | none =>
    refine ⟨_, rfl, ?_, rfl, rfl, rfl, rfl, rfl, ?_⟩
    · simp only [lookupPlane, if_pos]
    · intro i pl' h'
      simp only [lookupPlane]
      rw [if_neg]
      · exact h'
      · intro he
        rw [he, h'] at h
        cases h

/-- the fold over the chunks: every chunk is read from the plane the final cache has for it -/
theorem getFold (conv : ℝ → (Nat → ℂ) → (Nat → ℂ)) (rnd : ℝ → ℤ) : ∀ (cs : List (List Samp)) (st : WImage × List (Option ℂ)),
    let r := cs.foldl (getChunk conv rnd) st
    (∀ i pl', lookupPlane i st.1.wcache = some pl' → lookupPlane i r.1.wcache = some pl') ∧
    (∀ c ∈ cs, ∃ pl, lookupPlane (planeId rnd st.1.wres c) r.1.wcache = some pl) ∧
    r.1.dim = st.1.dim ∧ r.1.res = st.1.res ∧ r.1.wres = st.1.wres ∧ r.1.uv = st.1.uv ∧ r.1.bm = st.1.bm ∧
    r.2 = st.2 ++ cs.flatMap (fun c => match lookupPlane (planeId rnd st.1.wres c) r.1.wcache with
      | some pl => c.map (readPlane st.1.dim st.1.res pl)
      | none => []) := by
  intro cs
  induction cs with
  | nil => intro st; exact ⟨fun _ _ h => h, by simp, rfl, rfl, rfl, rfl, rfl, by simp⟩
  | cons c cs ih =>
    intro st
    obtain ⟨pl, a1, a2, a3, a4, a5, a6, a7, a8⟩ := getChunk_const conv rnd st c
    obtain ⟨b1, b2, b3, b4, b5, b6, b7, b8⟩ := ih (getChunk conv rnd st c)
    simp only [List.foldl_cons] at *
    generalize hr : List.foldl (getChunk conv rnd) (getChunk conv rnd st c) cs = r at *
    rw [a5] at b2 b8
    rw [a3, a4] at b8
    have hc := b1 _ _ a2
    refine ⟨fun i pl' h => b1 i pl' (a8 i pl' h), ?_, by rw [b3, a3], by rw [b4, a4], by rw [b5, a5], by rw [b6, a6],
      by rw [b7, a7], ?_⟩
    · intro c' hc'
      rw [List.mem_cons] at hc'
      rcases hc' with rfl | hc'
      · exact ⟨pl, hc⟩
      · exact b2 c' hc'
    · rw [b8, a1, List.flatMap_cons, hc, List.append_assoc]

/-- C25: `get` answers in the order of the request: the k-th value was read for the k-th sample, from the plane of the
chunk it belongs to. -/
theorem c25_get_order (conv : ℝ → (Nat → ℂ) → (Nat → ℂ)) (rnd : ℝ → ℤ) (g : WImage) (hw : 0 < g.wres)
    (order deorder : List Nat) (samples : List Samp) (h2 : 2 ≤ samples.length) (ho : SortsByW order samples)
    (hd : IsArgsort deorder order) :
    ∃ g' vals, g.get conv rnd order deorder samples = some (g', vals) ∧ vals.length = samples.length ∧
      ∀ (k : Nat) (p : Samp), samples[k]? = some p → ∃ cs c pl, chunks g.wres order samples = some cs ∧ c ∈ cs ∧ p ∈ c ∧
        lookupPlane (planeId rnd g.wres c) g'.wcache = some pl ∧ vals[k]? = some (readPlane g.dim g.res pl p) := by
  have hne : samples ≠ [] := by intro h; rw [h] at h2; simp at h2
  obtain ⟨cs, e1, e2, e3, e4⟩ := c25_partition g.wres hw order samples hne ho
  have hflat : cs.flatten = takeIdx samples order := by
    unfold chunks at e1
    simp only at e1
    cases hb : batches ((takeIdx samples order).map (fun p => ssqrt p.w)) g.wres (takeIdx samples order).length 0 with
    | none => rw [hb] at e1; cases e1
    | some bs =>
      rw [hb] at e1
      simp only [Option.map_some, Option.some.injEq] at e1
      have hsort : ((takeIdx samples order).map (fun p => ssqrt p.w)).Pairwise (· ≤ ·) := by
        have := ho.2
        rw [List.pairwise_map] at this
        rw [List.pairwise_map]
        exact this.imp (fun h => ssqrt_mono h)
      have hpos : 0 < (takeIdx samples order).length := by
        rw [(takeIdx_perm samples order ho.1).length_eq]; omega
      obtain ⟨bs', f1, f2, _⟩ := batches_spec _ hsort g.wres hw (takeIdx samples order).length 0 (by simpa using hpos) (by simp)
      rw [hb] at f1
      cases f1
      rw [List.length_map] at f2
      rw [← e1, tiles_flatten _ bs 0 f2, List.drop_zero]
  obtain ⟨f1, f2, f3, f4, f5, f6, f7, f8⟩ := getFold conv rnd cs (g, [])
  have hget : g.get conv rnd order deorder samples = some ((cs.foldl (getChunk conv rnd) (g, [])).1,
      takeIdx (cs.foldl (getChunk conv rnd) (g, [])).2 deorder) := by
    unfold WImage.get
    rw [if_neg (by omega), e1]
  simp only at f8
  generalize hr : cs.foldl (getChunk conv rnd) (g, []) = r at *
  rw [List.nil_append] at f8
  -- positions in the concatenated output
  have pos : ∀ (cs' : List (List Samp)), (∀ c ∈ cs', c ∈ cs) →
      (cs'.flatMap (fun c => match lookupPlane (planeId rnd g.wres c) r.1.wcache with
        | some pl => c.map (readPlane g.dim g.res pl)
        | none => [])).length = cs'.flatten.length ∧
      ∀ (m : Nat) (p : Samp), cs'.flatten[m]? = some p → ∃ c ∈ cs', p ∈ c ∧ ∃ pl, lookupPlane (planeId rnd g.wres c) r.1.wcache = some pl ∧
        (cs'.flatMap (fun c => match lookupPlane (planeId rnd g.wres c) r.1.wcache with
        | some pl => c.map (readPlane g.dim g.res pl)
        | none => []))[m]? = some (readPlane g.dim g.res pl p) := by
    intro cs'
    induction cs' with
    | nil => intro _; exact ⟨rfl, by simp⟩
    | cons c cs' ih =>
      intro hall
      obtain ⟨i1, i2⟩ := ih (fun c hc => hall c (by simp [hc]))
      obtain ⟨pl, hpl⟩ := f2 c (hall c (by simp))
      rw [List.flatMap_cons, List.flatten_cons]
      have hpl' : lookupPlane (planeId rnd g.wres c) r.1.wcache = some pl := hpl
      rw [hpl']
      simp only
      refine ⟨by rw [List.length_append, List.length_append, List.length_map, i1], ?_⟩
      intro m p hm
      by_cases hlt : m < c.length
      · rw [List.getElem?_append_left hlt] at hm
        refine ⟨c, by simp, List.mem_of_getElem? hm, pl, hpl', ?_⟩
        rw [List.getElem?_append_left (by rw [List.length_map]; exact hlt), List.getElem?_map, hm]
        rfl
      · rw [List.getElem?_append_right (by omega)] at hm
        obtain ⟨c', hc', hp', pl', h1', h2'⟩ := i2 _ p hm
        refine ⟨c', by simp [hc'], hp', pl', h1', ?_⟩
        rw [List.getElem?_append_right (by rw [List.length_map]; omega), List.length_map]
        exact h2'
  obtain ⟨p1, p2⟩ := pos cs (fun _ h => h)
  rw [← f8] at p1 p2
  have hlen : r.2.length = samples.length := by rw [p1, e2.length_eq]
  have hol := isOrder_length ho.1
  have hdl : ∀ k ∈ deorder, k < r.2.length := by
    intro k hk
    have := isOrder_lt hd.1 k hk
    omega
  refine ⟨_, _, hget, ?_, ?_⟩
  · rw [takeIdx_length _ _ hdl, isOrder_length hd.1, hol]
  · intro k p hk
    have hklt : k < samples.length := (List.getElem?_eq_some_iff.1 hk).1
    obtain ⟨m, hm1, hm2⟩ := argsort_inv ho.1 hd k hklt
    have hs : cs.flatten[m]? = some p := by
      rw [hflat, takeIdx_getElem? samples order (isOrder_lt ho.1), hm2, Option.bind_some, hk]
    obtain ⟨c, hc, hpc, pl, hpl, hv⟩ := p2 m p hs
    refine ⟨cs, c, pl, e1, hc, hpc, hpl, ?_⟩
    rw [takeIdx_getElem? _ _ hdl, hm1, Option.bind_some, hv]

/-- C25: a request for a single sample (or none) is not answered at all. -/
theorem c25_single_violated (conv : ℝ → (Nat → ℂ) → (Nat → ℂ)) (rnd : ℝ → ℤ) (g : WImage) (order deorder : List Nat) (p : Samp) :
    g.get conv rnd order deorder [p] = none := rfl

/-! ## C59 -/

/-- every cached plane is a projection of the current uv and beam matrices -/
def Fresh (conv : ℝ → (Nat → ℂ) → (Nat → ℂ)) (g : WImage) : Prop :=
  ∀ i pl, lookupPlane i g.wcache = some pl → ∃ a, pl = (conv a g.uv, conv a g.bm)

theorem fresh_fold (conv : ℝ → (Nat → ℂ) → (Nat → ℂ)) (rnd : ℝ → ℤ) : ∀ (cs : List (List Samp)) (st : WImage × List (Option ℂ)),
    Fresh conv st.1 → Fresh conv (cs.foldl (getChunk conv rnd) st).1 := by
  intro cs
  induction cs with
  | nil => intro st h; exact h
  | cons c cs ih =>
    intro st h
    rw [List.foldl_cons]
    apply ih
    unfold getChunk
    cases hl : lookupPlane (planeId rnd st.1.wres c) st.1.wcache with
    | some pl => exact h
    | none =>
      intro i pl hi
      simp only [lookupPlane] at hi
      split at hi
      · cases hi
        exact ⟨_, rfl⟩
      · exact h i pl hi

/-- C59, the part that holds: as long as the cache is fresh (for instance empty, as in a new image, also after any `put`s),
any sequence of `get`s reads planes projected from the current matrices.  Missing: a `put` after a `get`
(`c59_stale_violated`). -/
theorem c59_fresh_partial (conv : ℝ → (Nat → ℂ) → (Nat → ℂ)) (rnd : ℝ → ℤ) (g g' : WImage) (hf : Fresh conv g)
    (hw : 0 < g.wres) (order deorder : List Nat) (samples : List Samp) (vals : List (Option ℂ)) (ho : SortsByW order samples)
    (hd : IsArgsort deorder order) (h : g.get conv rnd order deorder samples = some (g', vals)) :
    Fresh conv g' ∧ g'.uv = g.uv ∧ g'.bm = g.bm ∧
      ∀ (k : Nat) (p : Samp), samples[k]? = some p → ∃ a, vals[k]? = some (readPlane g.dim g.res (conv a g.uv, conv a g.bm) p) := by
  have h2 : 2 ≤ samples.length := by
    by_contra hc
    unfold WImage.get at h
    rw [if_pos (by omega)] at h
    cases h
  obtain ⟨g'', vals', e1, e2, e3⟩ := c25_get_order conv rnd g hw order deorder samples h2 ho hd
  rw [h] at e1
  cases e1
  have hg : Fresh conv g' ∧ g'.uv = g.uv ∧ g'.bm = g.bm := by
    unfold WImage.get at h
    rw [if_neg (by omega)] at h
    cases hc : chunks g.wres order samples with
    | none => rw [hc] at h; cases h
    | some cs =>
      rw [hc] at h
      simp only [Option.some.injEq, Prod.mk.injEq] at h
      obtain ⟨_, _, _, _, _, f6, f7, _⟩ := getFold conv rnd cs (g, [])
      rw [← h.1]
      exact ⟨fresh_fold conv rnd cs (g, []) hf, f6, f7⟩
  refine ⟨hg.1, hg.2.1, hg.2.2, ?_⟩
  intro k p hk
  obtain ⟨cs, c, pl, _, _, _, a4, a5⟩ := e3 k p hk
  obtain ⟨a, ha⟩ := hg.1 _ _ a4
  rw [hg.2.1, hg.2.2] at ha
  exact ⟨a, by rw [a5, ha]⟩

theorem putChunk_cache {conv : ℝ → (Nat → ℂ) → (Nat → ℂ)} {g g' : WImage} {b : List Samp} (h : putChunk conv g b = some g') :
    g'.wcache = g.wcache ∧ g'.dim = g.dim ∧ g'.res = g.res ∧ g'.wres = g.wres := by
  unfold putChunk at h
  cases h1 : grid2D g.dim g.dim 3 (fun _ => 0) (b.map (fun p => (getIndices g.res (p.u, p.v), p.d))) with
  | none => rw [h1] at h; cases h
  | some m =>
    cases h2 : grid2D g.dim g.dim 3 (fun _ => 0) (b.map (fun p => (getIndices g.res (p.u, p.v), p.wt))) with
    | none => rw [h1, h2] at h; cases h
    | some q =>
      rw [h1, h2] at h
      simp only [bind, Option.bind, Option.some.injEq] at h
      rw [← h]
      exact ⟨rfl, rfl, rfl, rfl⟩

theorem put_cache (conv : ℝ → (Nat → ℂ) → (Nat → ℂ)) (g g' : WImage) (order : List Nat) (samples : List Samp)
    (h : g.put conv order samples = some g') : g'.wcache = g.wcache ∧ g'.dim = g.dim ∧ g'.res = g.res ∧ g'.wres = g.wres := by
  unfold WImage.put at h
  split at h
  · cases h; exact ⟨rfl, rfl, rfl, rfl⟩
  · cases hc : chunks g.wres order samples with
    | none => rw [hc] at h; cases h
    | some cs =>
      rw [hc] at h
      simp only at h
      clear hc
      induction cs generalizing g with
      | nil =>
        simp only [List.foldlM_nil] at h
        cases h; exact ⟨rfl, rfl, rfl, rfl⟩
      | cons c cs ih =>
        rw [List.foldlM_cons] at h
        cases hp : putChunk conv g c with
        | none => rw [hp] at h; cases h
        | some g1 =>
          rw [hp] at h
          obtain ⟨a1, a2, a3, a4⟩ := putChunk_cache hp
          obtain ⟨b1, b2, b3, b4⟩ := ih g1 h
          exact ⟨by rw [b1, a1], by rw [b2, a2], by rw [b3, a3], by rw [b4, a4]⟩

/-- reading again with every plane in the cache -/
theorem getFold_cached (conv : ℝ → (Nat → ℂ) → (Nat → ℂ)) (rnd : ℝ → ℤ) : ∀ (cs : List (List Samp)) (st : WImage × List (Option ℂ)),
    (∀ c ∈ cs, ∃ pl, lookupPlane (planeId rnd st.1.wres c) st.1.wcache = some pl) →
    (cs.foldl (getChunk conv rnd) st).1 = st.1 := by
  intro cs
  induction cs with
  | nil => intro st _; rfl
  | cons c cs ih =>
    intro st h
    obtain ⟨pl, hpl⟩ := h c (by simp)
    rw [List.foldl_cons]
    have : (getChunk conv rnd st c).1 = st.1 := by
      unfold getChunk
      rw [hpl]
    rw [ih, this]
    intro c' hc'
    rw [this]
    exact h c' (by simp [hc'])

/-- C59 fails: repeating a `get` after any `put` returns exactly the values it returned before the `put`. -/
theorem c59_stale_violated (conv : ℝ → (Nat → ℂ) → (Nat → ℂ)) (rnd : ℝ → ℤ) (g g1 g2 : WImage) (order deorder order' : List Nat)
    (samples put : List Samp) (vals : List (Option ℂ)) (h1 : g.get conv rnd order deorder samples = some (g1, vals))
    (h2 : g1.put conv order' put = some g2) : g2.get conv rnd order deorder samples = some (g2, vals) := by
  obtain ⟨c1, c2, c3, c4⟩ := put_cache conv g1 g2 order' put h2
  unfold WImage.get at h1 ⊢
  split at h1
  · cases h1
  · rename_i hn
    rw [if_neg hn]
    cases hc : chunks g.wres order samples with
    | none => rw [hc] at h1; cases h1
    | some cs =>
      rw [hc] at h1
      simp only [Option.some.injEq, Prod.mk.injEq] at h1
      obtain ⟨f1, f2, f3, f4, f5, f6, f7, f8⟩ := getFold conv rnd cs (g, [])
      have hw : g2.wres = g.wres := by rw [c4, ← h1.1, f5]
      rw [hw, hc]
      simp only [Option.some.injEq, Prod.mk.injEq]
      have hall : ∀ c ∈ cs, ∃ pl, lookupPlane (planeId rnd g2.wres c) g2.wcache = some pl := by
        intro c hc'
        obtain ⟨pl, hpl⟩ := f2 c hc'
        refine ⟨pl, ?_⟩
        rw [hw, c1, ← h1.1]
        exact hpl
      have hst := getFold_cached conv rnd cs (g2, []) hall
      refine ⟨hst, ?_⟩
      obtain ⟨_, _, _, _, _, _, _, e8⟩ := getFold conv rnd cs (g2, [])
      have : (cs.foldl (getChunk conv rnd) (g2, [])).2 = (cs.foldl (getChunk conv rnd) (g, [])).2 := by
        rw [e8, f8, hst]
        simp only
        rw [c1, hw, c2, c3, ← h1.1, f3, f4]
      rw [this, h1.2]

/-- the case: two samples in the plane w = 0, requested in this order -/
example : SortsByW [0, 1] [⟨0, 0, 0, 1, 1⟩, ⟨1, 0, 0, 2, 1⟩] ∧ IsArgsort [0, 1] [0, 1] := by
  refine ⟨⟨List.Perm.refl _, ?_⟩, List.Perm.refl _, ?_⟩ <;> simp [takeIdx]

/-- an order that is not the identity -/
example : SortsByW [1, 0] [⟨0, 0, 9, 1, 1⟩, ⟨1, 0, 4, 2, 1⟩] ∧ IsArgsort [1, 0] [1, 0] := by
  refine ⟨⟨List.Perm.swap _ _ _, ?_⟩, List.Perm.swap _ _ _, ?_⟩
  · simp [takeIdx]; norm_num
  · simp [takeIdx]

/-- C59 on a definite history: asking (with no data yet) gives nan; after gridding a datum at the origin the same question
still gives nan, although a fresh image answers with the datum. -/
theorem c59_stale_case :
    ∃ g0 g1 g2 g3 : WImage, g0 = ⟨100, 1, 1, fun _ => 0, fun _ => 0, []⟩ ∧
      g0.get (fun _ m => m) round [0, 1] [0, 1] [⟨0, 0, 0, 0, 0⟩, ⟨0, 0, 0, 0, 0⟩] = some (g1, [none, none]) ∧
      g1.put (fun _ m => m) [0] [⟨0, 0, 0, 5, 1⟩] = some g2 ∧
      g2.get (fun _ m => m) round [0, 1] [0, 1] [⟨0, 0, 0, 0, 0⟩, ⟨0, 0, 0, 0, 0⟩] = some (g2, [none, none]) ∧
      g0.put (fun _ m => m) [0] [⟨0, 0, 0, 5, 1⟩] = some g3 ∧
      ∃ g4, g3.get (fun _ m => m) round [0, 1] [0, 1] [⟨0, 0, 0, 0, 0⟩, ⟨0, 0, 0, 0, 0⟩] = some (g4, [some 5, some 5]) := by
  have hs : SortsByW [0, 1] [⟨0, 0, 0, 0, 0⟩, ⟨0, 0, 0, 0, 0⟩] := by
    refine ⟨List.Perm.refl _, ?_⟩
    simp [takeIdx]
  have hd : IsArgsort [0, 1] [0, 1] := by
    refine ⟨List.Perm.refl _, ?_⟩
    simp [takeIdx]
  have hp : SortsByW [0] [⟨0, 0, 0, 5, 1⟩] := by
    refine ⟨List.Perm.refl _, ?_⟩
    simp [takeIdx]
  let g0 : WImage := ⟨100, 1, 1, fun _ => 0, fun _ => 0, []⟩
  have fr : ∀ g : WImage, g.wcache = [] → Fresh (fun _ m => m) g := by
    intro g hg i pl h
    rw [hg] at h
    simp [lookupPlane] at h
  obtain ⟨g1, v1, a1, a2, -⟩ := c25_get_order (fun _ m => m) round g0 (by norm_num [g0]) [0, 1] [0, 1] _ (by simp) hs hd
  obtain ⟨-, a4, a5, a6⟩ := c59_fresh_partial _ _ g0 g1 (fr g0 rfl) (by norm_num [g0]) _ _ _ v1 hs hd a1
  have zero : readPlane g0.dim g0.res (g0.uv, g0.bm) ⟨0, 0, 0, 0, 0⟩ = none := by
    show Image.get ⟨100, 1, fun _ => 0, [fun _ => 0]⟩ (0, 0) = none
    unfold Image.get
    simp only
    rw [(c29_weighted_mean 100 3 (by decide) _ _).1]
    simp [weightedMean]
  have hv1 : v1 = [none, none] := by
    obtain ⟨_, b0⟩ := a6 0 ⟨0, 0, 0, 0, 0⟩ rfl
    obtain ⟨_, b1⟩ := a6 1 ⟨0, 0, 0, 0, 0⟩ rfl
    rw [zero] at b0 b1
    match v1, a2, b0, b1 with
    | [x, y], _, b0, b1 =>
      simp only [List.getElem?_cons_zero, List.getElem?_cons_succ, Option.some.injEq] at b0 b1
      rw [b0, b1]
  rw [hv1] at a1
  have hg1 : g1.dim = 100 ∧ g1.res = 1 ∧ g1.wres = 1 := by
    unfold WImage.get at a1
    rw [if_neg (by simp)] at a1
    cases hc : chunks g0.wres [0, 1] [⟨0, 0, 0, 0, 0⟩, ⟨0, 0, 0, 0, 0⟩] with
    | none => rw [hc] at a1; cases a1
    | some cs =>
      rw [hc] at a1
      simp only [Option.some.injEq, Prod.mk.injEq] at a1
      obtain ⟨_, _, f3, f4, f5, _, _, _⟩ := getFold (fun _ m => m) round cs (g0, [])
      rw [← a1.1]
      exact ⟨f3, f4, f5⟩
  obtain ⟨g2, c1, c2, c3⟩ := c25_put_total g1 (by rw [hg1.1]; decide) (by rw [hg1.2.2]; norm_num) [0] [⟨0, 0, 0, 5, 1⟩] hp
  obtain ⟨g3, d1, d2, d3⟩ := c25_put_total g0 (by simp [g0]) (by norm_num [g0]) [0] [⟨0, 0, 0, 5, 1⟩] hp
  obtain ⟨k1, k2, k3, k4⟩ := put_cache _ g0 g3 _ _ d1
  obtain ⟨g4, v4, e1, e2, -⟩ := c25_get_order (fun _ m => m) round g3 (by rw [k4]; norm_num [g0]) [0, 1] [0, 1] _ (by simp) hs hd
  obtain ⟨-, -, -, e6⟩ := c59_fresh_partial _ _ g3 g4 (fr g3 k1) (by rw [k4]; norm_num [g0]) _ _ _ v4 hs hd e1
  -- the plain image after the same put
  have five : readPlane g3.dim g3.res (g3.uv, g3.bm) ⟨0, 0, 0, 0, 0⟩ = some 5 := by
    obtain ⟨g, p1, p2, p3, b, p4, p5, p6⟩ := put_total (dim := 100) (by decide) 1 0 0 5 1
    have hget := c58_get_mirrored_partial 100 (by decide) 1 0 0 5 g p1
    rw [neg_zero] at hget
    unfold readPlane
    unfold Image.get at hget ⊢
    rw [p4] at hget
    simp only at hget ⊢
    rw [p2, (c29_weighted_mean 100 3 (by decide) g.uv _).1, (c29_weighted_mean 100 3 (by decide) b _).1] at hget
    rw [k2, k3]
    show (do
      let a ← degridAt 100 100 3 g3.uv (getReadIndices 1 (0, 0)) 0
      let b ← degridAt 100 100 3 g3.bm (getReadIndices 1 (0, 0)) 0
      if b = 0 then none else some (a / b)) = some 5
    rw [(c29_weighted_mean 100 3 (by decide) g3.uv _).1, (c29_weighted_mean 100 3 (by decide) g3.bm _).1,
      weightedMean_congr (by decide) g3.uv g.uv, weightedMean_congr (by decide) g3.bm b]
    · rw [p3] at hget
      exact hget
    · intro k1 k2 l1 l2
      have := (d3 k1 k2 l1 l2).2
      rw [p6 k1 k2 l1 l2]
      simpa [g0, deposit] using this
    · intro k1 k2 l1 l2
      have := (d3 k1 k2 l1 l2).1
      rw [p5 k1 k2 l1 l2]
      simpa [g0, deposit] using this
  have hv4 : v4 = [some 5, some 5] := by
    obtain ⟨_, b0⟩ := e6 0 ⟨0, 0, 0, 0, 0⟩ rfl
    obtain ⟨_, b1⟩ := e6 1 ⟨0, 0, 0, 0, 0⟩ rfl
    rw [five] at b0 b1
    match v4, e2, b0, b1 with
    | [x, y], _, b0, b1 =>
      simp only [List.getElem?_cons_zero, List.getElem?_cons_succ, Option.some.injEq] at b0 b1
      rw [b0, b1]
  rw [hv4] at e1
  exact ⟨g0, g1, g2, g3, rfl, a1, c1, c59_stale_violated _ _ g0 g1 g2 _ _ _ _ _ _ a1 c1, d1, g4, e1⟩

end Verif.Img
