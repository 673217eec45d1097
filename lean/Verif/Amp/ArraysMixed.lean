import Verif.Amp.Arrays

/-!
C84: numbers and arrays together in one of the tuples `ionrefs` or `srcshapes` of `AntennaArray.sim_cache` (amp.py 312-357).
An array followed by a number is fine (`c84_sources_partial`).  A number followed by an array is not: the compression to the
sources that are up (amp.py 335-345) and the reshaping (phs.py 362-366) stop at the first number.
-/

noncomputable section
namespace Verif.Amp

open Verif.Coord Verif.Phs Verif.ND Real
open Verif.Phs (expPhs airy refractAt resolveAt)

/-- a vector along the rows and a matrix -/
theorem vec_mat {α β γ : Type} {x : ND.Arr α} {y : ND.Arr β} {m n : Nat} {F : Nat → α} {G : Nat → Nat → β} (f : α → β → γ)
    (hx : IsVec x n F) (hy : IsMat y m n G) : ∃ z, map2 f x y = some z ∧ IsMat z m n (fun k c => f (F c) (G k c)) := by
  have hb : bshape [n] [m, n] = some [m, n] := by simp [bshape, bshapeR]
  unfold map2
  rw [hx.shape, hy.shape, hb]
  refine ⟨_, rfl, rfl, ?_⟩
  intro k c hk hc
  show f (x.get (pick [n] [k, c])) (y.get (pick [m, n] [k, c])) = _
  rw [pick1, pick2, inside hk, inside hc, hx.get c hc, hy.get k c hk hc]

/-- `resolve_src` given a number, an array and a number -/
theorem resolveA_mixed {J1 : ℝ → ℝ} {bs : List Vec} {fs : List ℝ} {p t : ℝ} {y : ND.Arr ℝ} {q : Nat → ℝ}
    (hy : IsVec y fs.length q) :
    ∃ x, resolveA J1 (uvwMat bs fs 0) (uvwMat bs fs 1) (.num p, .arr y, .num t) = some ((.num p, .arr y, .num t), x.squeeze) ∧
      IsMat x bs.length fs.length (fun k c => resolveAt J1 ((bs.getD k 0) 0 * fs.getD c 0) ((bs.getD k 0) 1 * fs.getD c 0)
        (p, q c, t)) := by
  have s3 : Col bs.length (fun _ => p) (.num p) := .num p fun _ _ => rfl
  have s5 : Col bs.length (fun _ => t) (.num t) := .num t fun _ _ => rfl
  obtain ⟨uc, uc1, uc2⟩ := col_right (fun a b => a * b) cos s5 (uvwMat_ok bs fs 0)
  obtain ⟨vs, vs1, vs2⟩ := col_right (fun a b => a * b) sin s5 (uvwMat_ok bs fs 1)
  obtain ⟨d, d1, d2⟩ := mat_mat (fun a b => a - b) uc2 vs2
  obtain ⟨ru, ru1, ru2⟩ := col_left (fun a b => a * b) (fun a => a) s3 d2
  obtain ⟨us, us1, us2⟩ := col_right (fun a b => a * b) sin s5 (uvwMat_ok bs fs 0)
  obtain ⟨vc, vc1, vc2⟩ := col_right (fun a b => a * b) cos s5 (uvwMat_ok bs fs 1)
  obtain ⟨e, e1, e2⟩ := mat_mat (fun a b => a + b) us2 vc2
  obtain ⟨rv, rv1, rv2⟩ := vec_mat (fun a b => a * b) hy e2
  obtain ⟨x, x1, x2⟩ := mat_mat (fun a b => 2 * π * sqrt (a ^ 2 + b ^ 2)) ru2 rv2
  rw [map_id'] at ru1
  refine ⟨x.map (airy J1), ?_, x2.map (airy J1)⟩
  unfold resolveA
  have hs : shapeAxes (uvwMat bs fs 0).shape.length (.num p, .arr y, .num t) = some (.num p, .arr y, .num t) := rfl
  have hn : (Val.arr y).nd = y := rfl
  simp only [bind, Option.bind, hs, uc1, vs1, d1, ru1, us1, vc1, e1, hn, rv1, x1]

/-- another `srcshapes` changes only the shapes in the cache -/
theorem simCacheA_shape {m : Mat} {c : Cols} {s : Val × Val × Val} {d : ACache}
    (h : simCacheA m { c with shape := s } = some (some d)) {sh : Val × Val × Val}
    (hs : compressShape (valid m c.eqs) c.shape = some sh) : simCacheA m c = some (some { d with shape := sh }) := by
  unfold simCacheA at h ⊢
  simp only [bind, Option.bind] at h ⊢
  by_cases hall : (valid m c.eqs).all (!·) = true
  · rw [if_pos hall] at h; cases h
  · rw [if_neg hall] at h ⊢
    cases e1 : c.jys.compress (valid m c.eqs) with
    | none => rw [e1] at h; cases h
    | some j =>
      rw [e1] at h
      simp only at h ⊢
      cases e2 : compressFreq (valid m c.eqs) c.mfreqs with
      | none => rw [e2] at h; cases h
      | some f =>
        rw [e2] at h
        simp only at h ⊢
        rw [hs]
        cases e3 : compressShape (valid m c.eqs) s with
        | none => rw [e3] at h; cases h
        | some s' =>
          rw [e3] at h
          simp only at h ⊢
          cases e4 : compressIon (valid m c.eqs) c.ion with
          | none => rw [e4] at h; cases h
          | some i =>
            rw [e4] at h
            simp only [Option.some.injEq] at h ⊢
            rw [← h]

/-- another `ionrefs` changes only the refractions in the cache -/
theorem simCacheA_ion {m : Mat} {c : Cols} {s : Val × Val} {d : ACache}
    (h : simCacheA m { c with ion := s } = some (some d)) {io : Val × Val}
    (hs : compressIon (valid m c.eqs) c.ion = some io) : simCacheA m c = some (some { d with ion := io }) := by
  unfold simCacheA at h ⊢
  simp only [bind, Option.bind] at h ⊢
  by_cases hall : (valid m c.eqs).all (!·) = true
  · rw [if_pos hall] at h; cases h
  · rw [if_neg hall] at h ⊢
    cases e1 : c.jys.compress (valid m c.eqs) with
    | none => rw [e1] at h; cases h
    | some j =>
      rw [e1] at h
      simp only at h ⊢
      cases e2 : compressFreq (valid m c.eqs) c.mfreqs with
      | none => rw [e2] at h; cases h
      | some f =>
        rw [e2] at h
        simp only at h ⊢
        cases e3 : compressShape (valid m c.eqs) c.shape with
        | none => rw [e3] at h; cases h
        | some s' =>
          rw [e3] at h
          simp only at h ⊢
          rw [hs]
          cases e4 : compressIon (valid m c.eqs) s with
          | none => rw [e4] at h; cases h
          | some i =>
            rw [e4] at h
            simp only [Option.some.injEq] at h ⊢
            rw [← h]

/-- `sim` from a cache with a number, an array and a number as shapes -/
theorem simsA_mixed {a : SArr} {lst : ℝ} {rows : List Row} (hf : (0 : ℝ) ∉ a.afreqs) (h1 : a.afreqs.length ≠ 1) {p t : ℝ}
    {y : ND.Arr ℝ} {q : Nat → ℝ} (hy : IsVec y a.afreqs.length q) (calls : List (SAnt × SAnt × (Char × Char))) :
    ∀ d, Rep (eq2top_m (-lst) a.lat) a.afreqs rows d → simsA a lst { d with shape := (.num p, .arr y, .num t) } calls =
      some (calls.map fun x => (List.range a.afreqs.length).map fun j => (rows.map fun r =>
        vis1 a lst x.1 x.2.1 x.2.2 (a.afreqs.getD j 0) { r with shape := (p, q j, t) }).sum) := by
  induction calls with
  | nil => intro d _; rfl
  | cons x xs ih =>
    obtain ⟨ai, aj, pol⟩ := x
    intro d hd
    let bs := d.eqs.map fun e => (eq2top_m (lst - (eq2radec e).1) (eq2radec e).2).mulVec (aj.pos - ai.pos)
    have hb : bs.length = rows.length := by simp [bs, hd.eqs]
    obtain ⟨x, x1, x3⟩ := resolveA_mixed (J1 := a.J1) (bs := bs) (fs := a.afreqs) (p := p) (t := t) hy
    obtain ⟨mf, ion, r2, r3, r4, g1, _⟩ := genPhsA_of (c := { d with shape := (.num p, .arr y, .num t) })
      (by rw [hb]; exact hd.mfreq) (by rw [hb]; exact hd.ra) (by rw [hb]; exact hd.dec) (offsetAt ai aj pol) x1 x3
    obtain ⟨z, z1, z2⟩ := g1 (Or.inl h1)
    rw [hb] at z2 r2 r3 r4
    have e := simA_of (c := { d with shape := (.num p, .arr y, .num t) }) hd.tops hd.jys hf ai aj pol z1 z2
    have := ih { d with mfreq := mf, ion := ion } ⟨hd.eqs, hd.tops, hd.jys, r2, Or.inr r3, Or.inr r4, hd.axes⟩
    unfold simsA
    simp only [bind, Option.bind, e, this, List.map_cons, Option.some.injEq]
    refine List.cons_eq_cons.2 ⟨?_, rfl⟩
    apply List.map_congr_left
    intro j _
    rw [← sum_range rows default]
    congr 1
    apply List.map_congr_left
    intro k hk
    rw [List.mem_range] at hk
    have hbk : bs.getD k 0 = (eq2top_m (lst - (eq2radec (rows.getD k default).eq).1) (eq2radec (rows.getD k default).eq).2).mulVec (aj.pos - ai.pos) := by
      show (d.eqs.map _).getD k 0 = _
      rw [hd.eqs, List.map_map, getD_map_lt _ hk default]
      rfl
    rw [hbk]
    rfl

/-- C84: with `srcshapes=(number, array, number)`, as many channels as sources and all of them up, `sim` raises nothing but
uses entry j of the array for channel j of all sources instead of for source j. -/
theorem c84_mixed_shape_violated (a : SArr) (lst : ℝ) (rows : List Row) (c : Cols) (p t : ℝ) (y : ND.Arr ℝ) (q : Nat → ℝ)
    (hs : c.shape = (.num p, .arr y, .num t)) (hy : IsVec y rows.length q)
    (h : Describes a.afreqs rows { c with shape := (.num p, .num 0, .num t) }) (hf : (0 : ℝ) ∉ a.afreqs)
    (hn : a.afreqs.length = rows.length) (h2 : 1 < rows.length) (hup : upRows a lst rows = rows)
    (calls : List (SAnt × SAnt × (Char × Char))) :
    sessionA a lst c calls = some (calls.map fun x => (List.range a.afreqs.length).map fun j => (rows.map fun r =>
      vis1 a lst x.1 x.2.1 x.2.2 (a.afreqs.getD j 0) { r with shape := (p, q j, t) }).sum) := by
  rcases simCacheA_ok (lst := lst) h with ⟨he, _⟩ | ⟨_, d, e, hd⟩
  · rw [hup] at he
    rw [he] at h2
    simp at h2
  · have e' := simCacheA_shape e (sh := (.num p, .arr y, .num t)) (by rw [hs]; rfl)
    rw [hup] at hd
    unfold sessionA
    simp only [bind, Option.bind, e']
    exact simsA_mixed hf (by omega) (by rw [hn]; exact hy) calls d hd

/-- C84: with `ionrefs=(number, array)` every `sim` raises as soon as some, but not all, of the sources are up: the array still
has the entries of the sources below the horizon. -/
theorem c84_mixed_ion_violated (a : SArr) (lst : ℝ) (rows : List Row) (c : Cols) (x : ℝ) (y : ND.Arr ℝ) (q : Nat → ℝ)
    (hs : c.ion = (.num x, .arr y)) (hy : IsVec y rows.length q)
    (h : Describes a.afreqs rows { c with ion := (.num x, .num 0) }) (h0 : upRows a lst rows ≠ [])
    (hlt : (upRows a lst rows).length < rows.length) (calls : List (SAnt × SAnt × (Char × Char))) (hc : calls ≠ []) :
    sessionA a lst c calls = none := by
  rcases simCacheA_ok (lst := lst) h with ⟨he, _⟩ | ⟨_, d, e, hd⟩
  · exact absurd he h0
  · have e' := simCacheA_ion e (io := (.num x, .arr y)) (by rw [hs]; rfl)
    unfold sessionA
    simp only [bind, Option.bind, e']
    match calls, hc with
    | (ai, aj, pol) :: xs, _ =>
      let bs := d.eqs.map fun e => (eq2top_m (lst - (eq2radec e).1) (eq2radec e).2).mulVec (aj.pos - ai.pos)
      have hb : bs.length = (upRows a lst rows).length := by simp [bs, hd.eqs]
      have hr : y.reshape [bs.length, 1] = none := by
        unfold ND.Arr.reshape
        rw [if_neg]
        rw [hy.shape, hb]
        simp [size]
        omega
      have hg : ∀ off, genPhsA a.J1 bs a.afreqs off { d with ion := (.num x, .arr y) } = none := by
        intro off
        unfold genPhsA refractA
        simp only [bind, Option.bind, asColumn, hr, Option.map_none]
      unfold simsA simA
      simp only [bind, Option.bind]
      by_cases hf : (0 : ℝ) ∈ a.afreqs
      · rw [if_pos hf]
      · rw [if_neg hf]
        have := hg (offsetAt ai aj pol)
        simp only [bs] at this
        rw [this]

/-! ## Examples -/

/-- the array of sizes 0.1 and 0.2 -/
def sizes : ND.Arr ℝ := ⟨[2], fun i => if i = [0] then 0.1 else 0.2⟩

/-- two sources overhead whose sizes are used for the two channels -/
example : sessionA { pair with afreqs := [1, 2] } 0 { copies [1, 2] 2 with shape := (.num 0, .arr sizes, .num 0) }
    [(unitAnt 0, unitAnt 1, ('x', 'x'))] = some [(List.range 2).map fun j => ((List.replicate 2 src0).map fun r =>
      vis1 { pair with afreqs := [1, 2] } 0 (unitAnt 0) (unitAnt 1) ('x', 'x') (([1, 2] : List ℝ).getD j 0)
        { r with shape := (0, sizes.get [j], 0) }).sum] :=
  c84_mixed_shape_violated { pair with afreqs := [1, 2] } 0 _ _ 0 0 sizes (fun j => sizes.get [j]) rfl
    ⟨rfl, fun _ _ => rfl⟩ (copies_ok [1, 2] 2) (by simp) (by simp) (by simp) (copies_up _ 2) _

/-- a source overhead and one below the horizon -/
def upDown : List Row := [src0, { src0 with eq := ![-1, 0, 0] }]

theorem upDown_up (fs : List ℝ) : upRows { pair with afreqs := fs } 0 upDown = [src0] := by
  have h1 : skyTop 0 0 src0.eq 2 = 1 := by rw [skyTop_src0]; simp
  have h2 : skyTop 0 0 ![-1, 0, 0] 2 = -1 := by
    unfold skyTop eq2top_m
    simp [Matrix.mulVec, dotProduct, Fin.sum_univ_three]
  have h1' : 0 < skyTop ({ pair with afreqs := fs } : SArr).lat 0 src0.eq 2 := by
    show 0 < skyTop 0 0 src0.eq 2
    rw [h1]; norm_num
  have h2' : ¬ 0 < skyTop ({ pair with afreqs := fs } : SArr).lat 0 ![-1, 0, 0] 2 := by
    show ¬ 0 < skyTop 0 0 ![-1, 0, 0] 2
    rw [h2]; norm_num
  unfold upRows upDown
  simp [h1', h2']

/-- an array followed by numbers describes two sources -/
theorem upDown_ok : Describes [1, 2] upDown
    ⟨upDown.map Row.eq, ⟨[2, 2], fun _ => 1⟩, .num 1, (.num 0, .num 0), (.arr ⟨[2], fun _ => 0⟩, .num 0, .num 0)⟩ := by
  have two : ∀ k, k < upDown.length → k = 0 ∨ k = 1 := fun k hk => by
    simp only [upDown, List.length_cons, List.length_nil] at hk
    omega
  refine ⟨rfl, ⟨rfl, ?_⟩, .num _ ?_, .num _ ?_, .num _ ?_, fun _ _ => ⟨_, rfl⟩, .vec _ ⟨rfl, ?_⟩, .num _ ?_, .num _ ?_,
    ⟨fun _ h => (by cases h), fun _ _ => ⟨_, rfl⟩⟩⟩
  · intro k j hk _
    rcases two k hk with rfl | rfl <;> rfl
  all_goals
    intro k hk
    rcases two k hk with rfl | rfl <;> rfl

/-- the answer given an array and two numbers -/
example : sessionA { pair with afreqs := [1, 2] } 0
    ⟨upDown.map Row.eq, ⟨[2, 2], fun _ => 1⟩, .num 1, (.num 0, .num 0), (.arr ⟨[2], fun _ => 0⟩, .num 0, .num 0)⟩
    [(unitAnt 0, unitAnt 1, ('x', 'x'))] =
    some [vis { pair with afreqs := [1, 2] } 0 (unitAnt 0) (unitAnt 1) ('x', 'x') upDown] :=
  c84_sources_partial { pair with afreqs := [1, 2] } 0 _ _ upDown_ok (by simp) (Or.inl (by simp)) _

/-- no answer given a number and an array of refractions -/
example : sessionA { pair with afreqs := [1, 2] } 0
    ⟨upDown.map Row.eq, ⟨[2, 2], fun _ => 1⟩, .num 1, (.num 0, .arr sizes), (.arr ⟨[2], fun _ => 0⟩, .num 0, .num 0)⟩
    [(unitAnt 0, unitAnt 1, ('x', 'x'))] = none :=
  c84_mixed_ion_violated { pair with afreqs := [1, 2] } 0 upDown _ 0 sizes (fun j => sizes.get [j]) rfl
    ⟨rfl, fun _ _ => rfl⟩ upDown_ok (by rw [upDown_up]; simp) (by rw [upDown_up]; simp [upDown]) _ (by simp)

end Verif.Amp
