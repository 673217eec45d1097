import Mathlib.Analysis.SpecialFunctions.Pow.Real
import Verif.Amp.Props
import Verif.Util.ND
/-!
# Property C84 : the arrays behind `sim_cache` and `sim`

`Amp/Model` works with one row per source.  Here `sim_cache`, `sim`, `gen_phs`, `refract` and `resolve_src` are modelled with
the numpy arrays they really use: columns that are compressed, reshaped, squeezed and broadcast.  The theorems say that each
source is computed from its own column entries, and that the arrays mean what the rows of C17 and C18 mean.

The baselines towards the sources (phs.py 318-321, matrices stacked along the first axis) and the cached beams are given as
lists with one entry per source.
-/
noncomputable section
namespace Verif.Amp
open Verif.Coord Verif.Phs Verif.ND Real
open Verif.Phs (expPhs airy refractAt resolveAt)

/-! ## Model -/

/-- an argument that may be a number (it has neither `compress` nor a `shape` to assign) or an array -/
inductive Val
  | num (x : ℝ)
  | arr (x : ND.Arr ℝ)

def Val.nd : Val → ND.Arr ℝ
  | .num x => ND.scalar x
  | .arr x => x

/-- the arguments of `sim_cache`; `eqs` has three axes along the first index, here it is the list of its columns -/
structure Cols where
  eqs : List Vec
  jys : ND.Arr ℝ
  mfreqs : Val
  ion : Val × Val
  shape : Val × Val × Val

/-- `self._cache` without the beams -/
structure ACache where
  eqs : List Vec
  tops : List Vec
  jys : ND.Arr ℝ
  mfreq : Val
  ion : Val × Val
  shape : Val × Val × Val

/-- `mfreqs.compress(valid)` and its new shape, amp.py 331-334 -/
def compressFreq (valid : List Bool) : Val → Option Val
  | .num x => some (.num x)
  | .arr x => do
    let y ← x.compress valid
    let z ← y.reshape [size y.shape, 1]
    some (.arr z)

/-- amp.py 335-340: an `AttributeError` ends the compression where it happens -/
def compressShape (valid : List Bool) : Val × Val × Val → Option (Val × Val × Val)
  | (.arr a1, .arr a2, .arr th) => do
    let b1 ← a1.compress valid
    let b2 ← a2.compress valid
    let h ← th.compress valid
    some (.arr b1, .arr b2, .arr h)
  | (.arr a1, .arr a2, .num th) => do
    let b1 ← a1.compress valid
    let b2 ← a2.compress valid
    some (.arr b1, .arr b2, .num th)
  | (.arr a1, .num a2, th) => do
    let b1 ← a1.compress valid
    some (.arr b1, .num a2, th)
  | (.num a1, a2, th) => some (.num a1, a2, th)

/-- amp.py 341-345 -/
def compressIon (valid : List Bool) : Val × Val → Option (Val × Val)
  | (.arr dra, .arr ddec) => do
    let a ← dra.compress valid
    let b ← ddec.compress valid
    some (.arr a, .arr b)
  | (.arr dra, .num ddec) => do
    let a ← dra.compress valid
    some (.arr a, .num ddec)
  | (.num dra, ddec) => some (.num dra, ddec)

/-- `src_top[2,:] > 0`, amp.py 326-328 -/
def valid (m : Mat) (eqs : List Vec) : List Bool :=
  eqs.map fun v => @decide (0 < (m.mulVec v) 2) (Classical.propDecidable _)

/-- `sim_cache`, amp.py 312-357; the inner `none` is an empty cache -/
def simCacheA (m : Mat) (c : Cols) : Option (Option ACache) :=
  let v := valid m c.eqs
  if v.all (!·) then some none
  else do
    let jys ← c.jys.compress v
    let mf ← compressFreq v c.mfreqs
    let sh ← compressShape v c.shape
    let ion ← compressIon v c.ion
    let eqs := (kept v).map fun k => c.eqs.getD k 0
    some (some ⟨eqs, eqs.map fun e => m.mulVec e, jys, mf, ion, sh⟩)

/-- an array given the shape of a column, phs.py 385-390 -/
def asColumn (s : Nat) : Val → Option Val
  | .num x => some (.num x)
  | .arr x => (x.reshape [s, 1]).map .arr

/-- `gen_uvw` for vectors, phs.py 325-338: one axis of the baseline times frequency, `np.dot` of a column and a row -/
def uvwMat (bs : List Vec) (fs : List ℝ) (axis : Fin 3) : ND.Arr ℝ :=
  ⟨[bs.length, fs.length], fun i => (bs.getD (i.getD 0 0) 0) axis * fs.getD (i.getD 1 0) 0⟩

/-- the frequencies as a row -/
def freqRow (fs : List ℝ) : ND.Arr ℝ := ⟨[1, fs.length], fun i => fs.getD (i.getD 1 0) 0⟩

/-- `refract`, phs.py 372-392; returns its (reshaped) arguments too -/
def refractA (u v : ND.Arr ℝ) (s : Nat) (fs : List ℝ) (mfreq : Val) (ion : Val × Val) :
    Option (Val × (Val × Val) × ND.Arr ℝ) := do
  let dra ← asColumn s ion.1
  let ddec ← asColumn s ion.2
  let mf ← asColumn s mfreq
  let x ← map2 (· * ·) dra.nd u
  let y ← map2 (· * ·) ddec.nd v
  let z ← map2 (· + ·) x y
  let t ← map2 (· * ·) z (mf.nd.map (· ^ 2))
  let r ← map2 (· / ·) t ((freqRow fs).map (· ^ 2))
  some (mf, (dra, ddec), r)

/-- phs.py 362-366: an `AttributeError` ends the reshaping where it happens -/
def shapeAxes (rank : Nat) : Val × Val × Val → Option (Val × Val × Val)
  | (.arr a1, a2, th) =>
    if a1.shape.length < rank then do
      let b1 ← a1.reshape (a1.shape ++ [1])
      match a2 with
      | .num _ => some (.arr b1, a2, th)
      | .arr a2 => do
        let b2 ← a2.reshape (a2.shape ++ [1])
        match th with
        | .num _ => some (.arr b1, .arr b2, th)
        | .arr th => do
          let h ← th.reshape (th.shape ++ [1])
          some (.arr b1, .arr b2, .arr h)
    else some (.arr a1, a2, th)
  | x => some x

/-- `resolve_src`, phs.py 356-371; returns its (reshaped) arguments too -/
def resolveA (J1 : ℝ → ℝ) (u v : ND.Arr ℝ) (shape : Val × Val × Val) : Option ((Val × Val × Val) × ND.Arr ℝ) := do
  let (a1, a2, th) ← shapeAxes u.shape.length shape
  let uc ← map2 (· * ·) u (th.nd.map cos)
  let vs ← map2 (· * ·) v (th.nd.map sin)
  let p ← map2 (· - ·) uc vs
  let ru ← map2 (· * ·) a1.nd p
  let us ← map2 (· * ·) u (th.nd.map sin)
  let vc ← map2 (· * ·) v (th.nd.map cos)
  let q ← map2 (· + ·) us vc
  let rv ← map2 (· * ·) a2.nd q
  let x ← map2 (fun a b => 2 * π * sqrt (a ^ 2 + b ^ 2)) ru rv
  some ((a1, a2, th), (x.map (airy J1)).squeeze)

/-- `gen_phs(s_eqs, i, j, mfreq, ionref, srcshape, resolve_src=True)`, phs.py 339-355; `bs` are the baselines towards the
sources, `off` the offsets -/
def genPhsA (J1 : ℝ → ℝ) (bs : List Vec) (fs : List ℝ) (off : ℝ → ℝ) (c : ACache) : Option (ACache × ND.Arr ℂ) := do
  let u := uvwMat bs fs 0
  let v := uvwMat bs fs 1
  let (mf, ion, r) ← refractA u v bs.length fs c.mfreq c.ion
  let w ← inplace (· + ·) (uvwMat bs fs 2) r
  let o : ND.Arr ℝ := ⟨[fs.length], fun i => off (fs.getD (i.getD 0 0) 0)⟩
  let phs ← map2 (fun a b => expPhs a b) w o
  let (sh, a) ← resolveA J1 u v c.shape
  let phs ← inplace (fun p (x : ℝ) => p * (x : ℂ)) phs a
  some ({ c with mfreq := mf, ion := ion, shape := sh }, phs.squeeze)

/-- `E_sf.shape = I_sf.shape`, amp.py 375-376; a number (`np.conjugate` of an array without axes) has no shape to assign, and
the `AttributeError` is caught -/
def assignShape (e : ND.Arr ℂ) (s : List Nat) : Option (ND.Arr ℂ) := if e.shape = [] then some e else e.reshape s

/-- `GBIE_sf.sum(axis=0)` of a matrix -/
def sumRows (x : ND.Arr ℂ) : Option (List ℂ) :=
  match x.shape with
  | [s, f] => some ((List.range f).map fun c => ((List.range s).map fun k => x.get [k, c]).sum)
  | _ => none

/-- `sim` with sources in the cache, amp.py 366-381; `bi`, `bj` are the cached responses of the two antennas, one per source -/
def simA (J1 : ℝ → ℝ) (lst : ℝ) (ai aj : SAnt) (pol : Char × Char) (fs : List ℝ) (c : ACache) (bi bj : List (ℝ → ℂ)) :
    Option (ACache × List ℂ) := do
  let bs := c.eqs.map fun e => (eq2top_m (lst - (eq2radec e).1) (eq2radec e).2).mulVec (aj.pos - ai.pos)
  if (0 : ℝ) ∈ fs then none else
  let g : ND.Arr ℂ := ⟨[1, fs.length], fun i => passbandAt ai aj pol (fs.getD (i.getD 1 0) 0)⟩
  let b : ND.Arr ℂ := ⟨[c.tops.length, fs.length], fun i =>
    (bj.getD (i.getD 0 0) fun _ => 0) (fs.getD (i.getD 1 0) 0) *
      (starRingEnd ℂ) ((bi.getD (i.getD 0 0) fun _ => 0) (fs.getD (i.getD 1 0) 0))⟩
  let (c', e) ← genPhsA J1 bs fs (offsetAt ai aj pol) c
  let e ← assignShape (e.map (starRingEnd ℂ)) c.jys.shape
  let x ← map2 (· * ·) g b
  let y ← map2 (fun (p : ℂ) (z : ℝ) => p * (z : ℂ)) x c.jys
  let z ← map2 (· * ·) y e
  let r ← sumRows z
  some (c', r)

/-! ## What is expected -/

instance : Inhabited Row := ⟨⟨0, fun _ => 0, 0, (0, 0), (0, 0, 0)⟩⟩

/-- a number for all sources, or an array with one entry per source -/
inductive Gives (n : Nat) (F : Nat → ℝ) : Val → Prop
  | num (x : ℝ) (h : ∀ k, k < n → F k = x) : Gives n F (.num x)
  | vec (x : ND.Arr ℝ) (h : IsVec x n F) : Gives n F (.arr x)

/-- the arguments describe these sources: entry k of every array belongs to source k -/
structure Describes (fs : List ℝ) (rows : List Row) (c : Cols) : Prop where
  eqs : c.eqs = rows.map Row.eq
  jys : IsMat c.jys rows.length fs.length (fun k j => (rows.getD k default).jys (fs.getD j 0))
  mfreq : Gives rows.length (fun k => (rows.getD k default).mfreq) c.mfreqs
  ra : Gives rows.length (fun k => (rows.getD k default).ion.1) c.ion.1
  dec : Gives rows.length (fun k => (rows.getD k default).ion.2) c.ion.2
  /-- no array comes after a number -/
  ion : ∀ x, c.ion.1 = .num x → ∃ y, c.ion.2 = .num y
  a1 : Gives rows.length (fun k => (rows.getD k default).shape.1) c.shape.1
  a2 : Gives rows.length (fun k => (rows.getD k default).shape.2.1) c.shape.2.1
  th : Gives rows.length (fun k => (rows.getD k default).shape.2.2) c.shape.2.2
  shape : (∀ x, c.shape.1 = .num x → ∃ y, c.shape.2.1 = .num y) ∧ ∀ y, c.shape.2.1 = .num y → ∃ z, c.shape.2.2 = .num z

/-! ## Lemmas -/

/-- a number or a column -/
inductive Col (n : Nat) (F : Nat → ℝ) : Val → Prop
  | num (x : ℝ) (h : ∀ k, k < n → F k = x) : Col n F (.num x)
  | col (x : ND.Arr ℝ) (h : IsMat x n 1 (fun k _ => F k)) : Col n F (.arr x)

theorem isMat_congr {α : Type} {x : ND.Arr α} {m n : Nat} {F G : Nat → Nat → α} (h : IsMat x m n F)
    (e : ∀ k c, k < m → c < n → F k c = G k c) : IsMat x m n G :=
  ⟨h.shape, fun k c hk hc => (h.get k c hk hc).trans (e k c hk hc)⟩

theorem col_left {β γ : Type} {n m : Nat} {F : Nat → ℝ} {v : Val} {y : ND.Arr β} {G : Nat → Nat → β} (f : ℝ → β → γ)
    (g : ℝ → ℝ) (hv : Col n F v) (hy : IsMat y n m G) :
    ∃ z, map2 f (v.nd.map g) y = some z ∧ IsMat z n m (fun k c => f (g (F k)) (G k c)) := by
  cases hv with
  | num x h =>
    obtain ⟨z, h1, h2⟩ := num_mat (a := g x) f hy
    exact ⟨z, h1, isMat_congr h2 fun k c hk _ => by rw [h k hk]⟩
  | col x h => exact col_mat f (h.map g) hy

theorem col_right {α γ : Type} {n m : Nat} {F : Nat → ℝ} {v : Val} {y : ND.Arr α} {G : Nat → Nat → α} (f : α → ℝ → γ)
    (g : ℝ → ℝ) (hv : Col n F v) (hy : IsMat y n m G) :
    ∃ z, map2 f y (v.nd.map g) = some z ∧ IsMat z n m (fun k c => f (G k c) (g (F k))) := by
  cases hv with
  | num x h =>
    obtain ⟨z, h1, h2⟩ := mat_num (b := g x) f hy
    exact ⟨z, h1, isMat_congr h2 fun k c hk _ => by rw [h k hk]⟩
  | col x h => exact mat_col f hy (h.map g)

theorem map_id' {α : Type} (x : ND.Arr α) : x.map (fun a => a) = x := rfl

theorem asColumn_ok {n : Nat} {F : Nat → ℝ} {v : Val} (h : Gives n F v ∨ Col n F v) : ∃ v', asColumn n v = some v' ∧ Col n F v' := by
  rcases h with h | h
  · cases h with
    | num x h => exact ⟨_, rfl, .num x h⟩
    | vec x h =>
      obtain ⟨z, h1, h2⟩ := vec_column h
      exact ⟨.arr z, by simp [asColumn, h1], .col z h2⟩
  · cases h with
    | num x h => exact ⟨_, rfl, .num x h⟩
    | col x h =>
      obtain ⟨z, h1, h2⟩ := column_column h
      exact ⟨.arr z, by simp [asColumn, h1], .col z h2⟩

/-- the axes of the sources: three numbers, or vectors, or columns, and then numbers -/
inductive Axes (n : Nat) (A B H : Nat → ℝ) : Val × Val × Val → Prop
  | num (a b h : ℝ) (ha : ∀ k, k < n → A k = a) (hb : ∀ k, k < n → B k = b) (hh : ∀ k, k < n → H k = h) :
    Axes n A B H (.num a, .num b, .num h)
  | vec (a : ND.Arr ℝ) (b h : Val) (ha : IsVec a n A) (hb : Gives n B b) (hh : Gives n H h)
      (ho : ∀ y, b = .num y → ∃ z, h = .num z) : Axes n A B H (.arr a, b, h)
  | col (a : ND.Arr ℝ) (b h : Val) (ha : IsMat a n 1 (fun k _ => A k)) (hb : Col n B b) (hh : Col n H h) : Axes n A B H (.arr a, b, h)

theorem shapeAxes_ok {n : Nat} {A B H : Nat → ℝ} {v : Val × Val × Val} (h : Axes n A B H v) :
    ∃ a b t, shapeAxes 2 v = some (a, b, t) ∧ Axes n A B H (a, b, t) ∧ Col n A a ∧ Col n B b ∧ Col n H t := by
  cases h with
  | num a b h ha hb hh => exact ⟨_, _, _, rfl, .num a b h ha hb hh, .num a ha, .num b hb, .num h hh⟩
  | vec a b h ha hb hh ho =>
    obtain ⟨z1, e1, f1⟩ := vec_column ha
    cases hb with
    | num b gb =>
      obtain ⟨t, rfl⟩ := ho b rfl
      cases hh with
      | num _ gh =>
        refine ⟨.arr z1, .num b, .num t, ?_, .col z1 _ _ f1 (.num b gb) (.num t gh), .col z1 f1, .num b gb, .num t gh⟩
        unfold shapeAxes
        simp only [ha.shape, List.length_cons, List.length_nil, List.cons_append, List.nil_append, e1]
        rfl
    | vec b gb =>
      obtain ⟨z2, e2, f2⟩ := vec_column gb
      cases hh with
      | num t gh =>
        refine ⟨.arr z1, .arr z2, .num t, ?_, .col z1 _ _ f1 (.col z2 f2) (.num t gh), .col z1 f1, .col z2 f2, .num t gh⟩
        unfold shapeAxes
        simp only [ha.shape, gb.shape, List.length_cons, List.length_nil, List.cons_append, List.nil_append, e1, e2]
        rfl
      | vec h gh =>
        obtain ⟨z3, e3, f3⟩ := vec_column gh
        refine ⟨.arr z1, .arr z2, .arr z3, ?_, .col z1 _ _ f1 (.col z2 f2) (.col z3 f3), .col z1 f1, .col z2 f2, .col z3 f3⟩
        unfold shapeAxes
        simp only [ha.shape, gb.shape, gh.shape, List.length_cons, List.length_nil, List.cons_append, List.nil_append, e1, e2, e3]
        rfl
  | col a b h ha hb hh =>
    refine ⟨.arr a, b, h, ?_, .col a b h ha hb hh, .col a ha, hb, hh⟩
    unfold shapeAxes
    simp only [ha.shape, List.length_cons, List.length_nil]
    rfl

theorem uvwMat_ok (bs : List Vec) (fs : List ℝ) (x : Fin 3) :
    IsMat (uvwMat bs fs x) bs.length fs.length (fun k c => (bs.getD k 0) x * fs.getD c 0) := ⟨rfl, fun _ _ _ _ => rfl⟩

theorem freqRow_ok (fs : List ℝ) : IsMat (freqRow fs) 1 fs.length (fun _ c => fs.getD c 0) := ⟨rfl, fun _ _ _ _ => rfl⟩

theorem refractA_ok {bs : List Vec} {fs : List ℝ} {mf : Val} {ion : Val × Val} {M D E : Nat → ℝ}
    (hm : Col bs.length M mf) (hd : Gives bs.length D ion.1 ∨ Col bs.length D ion.1)
    (he : Gives bs.length E ion.2 ∨ Col bs.length E ion.2) :
    ∃ mf' ion' r, refractA (uvwMat bs fs 0) (uvwMat bs fs 1) bs.length fs mf ion = some (mf', ion', r) ∧
      Col bs.length M mf' ∧ Col bs.length D ion'.1 ∧ Col bs.length E ion'.2 ∧
      IsMat r bs.length fs.length (fun k c => refractAt ((bs.getD k 0) 0 * fs.getD c 0) ((bs.getD k 0) 1 * fs.getD c 0) (M k)
        (D k, E k) (fs.getD c 0)) := by
  obtain ⟨d, d1, d2⟩ := asColumn_ok hd
  obtain ⟨e, e1, e2⟩ := asColumn_ok he
  obtain ⟨m, m1, m2⟩ := asColumn_ok (Or.inr hm)
  obtain ⟨x, x1, x2⟩ := col_left (fun a b => a * b) (fun a => a) d2 (uvwMat_ok bs fs 0)
  obtain ⟨y, y1, y2⟩ := col_left (fun a b => a * b) (fun a => a) e2 (uvwMat_ok bs fs 1)
  obtain ⟨z, z1, z2⟩ := mat_mat (fun a b => a + b) x2 y2
  obtain ⟨t, t1, t2⟩ := col_right (fun a b => a * b) (fun a => a ^ 2) m2 z2
  obtain ⟨r, r1, r2⟩ := mat_row (fun a b => a / b) t2 ((freqRow_ok fs).map (fun a => a ^ 2))
  rw [map_id'] at x1 y1
  refine ⟨m, (d, e), r, ?_, m2, d2, e2, r2⟩
  unfold refractA
  simp only [bind, Option.bind, d1, e1, m1, x1, y1, z1, t1, r1]

theorem resolveA_ok {J1 : ℝ → ℝ} {bs : List Vec} {fs : List ℝ} {sh : Val × Val × Val} {A B H : Nat → ℝ}
    (h : Axes bs.length A B H sh) :
    ∃ sh' x, resolveA J1 (uvwMat bs fs 0) (uvwMat bs fs 1) sh = some (sh', x.squeeze) ∧ Axes bs.length A B H sh' ∧
      IsMat x bs.length fs.length (fun k c => resolveAt J1 ((bs.getD k 0) 0 * fs.getD c 0) ((bs.getD k 0) 1 * fs.getD c 0)
        (A k, B k, H k)) := by
  obtain ⟨a, b, t, s1, s2, s3, s4, s5⟩ := shapeAxes_ok h
  obtain ⟨uc, uc1, uc2⟩ := col_right (fun a b => a * b) cos s5 (uvwMat_ok bs fs 0)
  obtain ⟨vs, vs1, vs2⟩ := col_right (fun a b => a * b) sin s5 (uvwMat_ok bs fs 1)
  obtain ⟨p, p1, p2⟩ := mat_mat (fun a b => a - b) uc2 vs2
  obtain ⟨ru, ru1, ru2⟩ := col_left (fun a b => a * b) (fun a => a) s3 p2
  obtain ⟨us, us1, us2⟩ := col_right (fun a b => a * b) sin s5 (uvwMat_ok bs fs 0)
  obtain ⟨vc, vc1, vc2⟩ := col_right (fun a b => a * b) cos s5 (uvwMat_ok bs fs 1)
  obtain ⟨q, q1, q2⟩ := mat_mat (fun a b => a + b) us2 vc2
  obtain ⟨rv, rv1, rv2⟩ := col_left (fun a b => a * b) (fun a => a) s4 q2
  obtain ⟨x, x1, x2⟩ := mat_mat (fun a b => 2 * π * sqrt (a ^ 2 + b ^ 2)) ru2 rv2
  rw [map_id'] at ru1 rv1
  refine ⟨(a, b, t), x.map (airy J1), ?_, s2, x2.map (airy J1)⟩
  unfold resolveA
  have hl : (uvwMat bs fs 0).shape.length = 2 := rfl
  simp only [bind, Option.bind, hl, s1, uc1, vs1, p1, ru1, us1, vc1, q1, rv1, x1]

/-- what the cache holds -/
structure Rep (m : Mat) (fs : List ℝ) (rows : List Row) (c : ACache) : Prop where
  eqs : c.eqs = rows.map Row.eq
  tops : c.tops = rows.map fun r => m.mulVec r.eq
  jys : IsMat c.jys rows.length fs.length (fun k j => (rows.getD k default).jys (fs.getD j 0))
  mfreq : Col rows.length (fun k => (rows.getD k default).mfreq) c.mfreq
  ra : Gives rows.length (fun k => (rows.getD k default).ion.1) c.ion.1 ∨ Col rows.length (fun k => (rows.getD k default).ion.1) c.ion.1
  dec : Gives rows.length (fun k => (rows.getD k default).ion.2) c.ion.2 ∨ Col rows.length (fun k => (rows.getD k default).ion.2) c.ion.2
  axes : Axes rows.length (fun k => (rows.getD k default).shape.1) (fun k => (rows.getD k default).shape.2.1)
    (fun k => (rows.getD k default).shape.2.2) c.shape

/-- the phase of each source at each frequency from what `resolve_src` gives -/
theorem genPhsA_of {J1 : ℝ → ℝ} {fs : List ℝ} {c : ACache} {bs : List Vec} {M R D : Nat → ℝ} (hm : Col bs.length M c.mfreq)
    (hr : Gives bs.length R c.ion.1 ∨ Col bs.length R c.ion.1) (hd : Gives bs.length D c.ion.2 ∨ Col bs.length D c.ion.2)
    (off : ℝ → ℝ) {sh : Val × Val × Val} {x : ND.Arr ℝ} {X : Nat → Nat → ℝ}
    (x1 : resolveA J1 (uvwMat bs fs 0) (uvwMat bs fs 1) c.shape = some (sh, x.squeeze)) (x3 : IsMat x bs.length fs.length X) :
    ∃ mf ion, Col bs.length M mf ∧ Col bs.length R ion.1 ∧ Col bs.length D ion.2 ∧
    (fs.length ≠ 1 ∨ bs.length = 1 → ∃ z,
      genPhsA J1 bs fs off c = some ({ c with mfreq := mf, ion := ion, shape := sh }, z.squeeze) ∧
      IsMat z bs.length fs.length (fun k j =>
        expPhs (wAt (bs.getD k 0) (fs.getD j 0) (M k) (some (R k, D k))) (off (fs.getD j 0)) * (X k j : ℂ))) ∧
    (fs.length = 1 → bs.length ≠ 1 → genPhsA J1 bs fs off c = none) := by
  obtain ⟨mf, ion, r, r1, r2, r3, r4, r5⟩ := refractA_ok (bs := bs) (fs := fs) (mf := c.mfreq) (ion := c.ion) hm hr hd
  obtain ⟨w, w1, w2⟩ := inplace_mat (fun a b => a + b) (uvwMat_ok bs fs 2) r5
  have ho : IsVec (⟨[fs.length], fun i => off (fs.getD (i.getD 0 0) 0)⟩ : ND.Arr ℝ) fs.length (fun j => off (fs.getD j 0)) :=
    ⟨rfl, fun _ _ => rfl⟩
  obtain ⟨p, p1, p2⟩ := mat_vec (fun a b => expPhs a b) w2 ho
  refine ⟨mf, ion, r2, r3, r4, ?_, ?_⟩
  · intro hlen
    obtain ⟨z, z1, z2⟩ := inplace_squeeze (fun p (x : ℝ) => p * (x : ℂ)) p2 x3 hlen
    refine ⟨z, ?_, z2⟩
    unfold genPhsA
    simp only [bind, Option.bind, r1, w1, p1, x1, z1]
  · intro h1 h2
    rw [h1] at p2 x3
    have z1 := inplace_squeeze_raises (fun p (x : ℝ) => p * (x : ℂ)) p2 x3 h2
    unfold genPhsA
    simp only [bind, Option.bind, r1, w1, p1, x1, z1]

/-- the phase of each source at each frequency before it is squeezed, or the shapes do not fit -/
theorem genPhsA_ok {J1 : ℝ → ℝ} {m : Mat} {fs : List ℝ} {rows : List Row} {c : ACache} (hc : Rep m fs rows c) {bs : List Vec}
    (hb : bs.length = rows.length) (off : ℝ → ℝ) :
    (fs.length ≠ 1 ∨ rows.length = 1 → ∃ c' x, genPhsA J1 bs fs off c = some (c', x.squeeze) ∧ Rep m fs rows c' ∧
      IsMat x rows.length fs.length (fun k j =>
        expPhs (wAt (bs.getD k 0) (fs.getD j 0) (rows.getD k default).mfreq (some (rows.getD k default).ion)) (off (fs.getD j 0)) *
          (ampAt J1 (bs.getD k 0) (fs.getD j 0) (some (rows.getD k default).shape) : ℂ))) ∧
    (fs.length = 1 → rows.length ≠ 1 → genPhsA J1 bs fs off c = none) := by
  obtain ⟨sh, x, x1, x2, x3⟩ := resolveA_ok (J1 := J1) (bs := bs) (fs := fs) (sh := c.shape) (by rw [hb]; exact hc.axes)
  obtain ⟨mf, ion, r2, r3, r4, g1, g2⟩ := genPhsA_of (by rw [hb]; exact hc.mfreq) (by rw [hb]; exact hc.ra)
    (by rw [hb]; exact hc.dec) off x1 x3
  rw [hb] at g1 g2 r2 r3 r4 x2
  refine ⟨fun hlen => ?_, g2⟩
  obtain ⟨z, z1, z2⟩ := g1 hlen
  exact ⟨_, z, z1, ⟨hc.eqs, hc.tops, hc.jys, r2, Or.inr r3, Or.inr r4, x2⟩, z2⟩

theorem getD_map_lt {α β : Type} (f : α → β) {l : List α} {k : Nat} (h : k < l.length) (d : α) (e : β) :
    (l.map f).getD k e = f (l.getD k d) := by
  rw [List.getD_eq_getElem?_getD, List.getD_eq_getElem?_getD, List.getElem?_map, List.getElem?_eq_getElem h]
  rfl

theorem sum_range {α : Type} (l : List α) (d : α) (g : α → ℂ) :
    ((List.range l.length).map fun k => g (l.getD k d)).sum = (l.map g).sum := by
  congr 1
  apply List.ext_getElem
  · simp
  · intro k h1 h2
    simp only [List.length_map] at h2
    simp only [List.getElem_map, List.getElem_range, List.getD_eq_getElem?_getD, List.getElem?_eq_getElem h2, Option.getD_some]

theorem map_range {α β : Type} (l : List α) (d : α) (g : α → β) :
    ((List.range l.length).map fun k => g (l.getD k d)) = l.map g := by
  apply List.ext_getElem
  · simp
  · intro k h1 h2
    simp only [List.length_map] at h2
    simp only [List.getElem_map, List.getElem_range, List.getD_eq_getElem?_getD, List.getElem?_eq_getElem h2, Option.getD_some]

/-- the value of `sim` from the phases that `gen_phs` gives -/
theorem simA_of {a : SArr} {lst : ℝ} {rows : List Row} {c c' : ACache}
    (ht : c.tops = rows.map fun r => (eq2top_m (-lst) a.lat).mulVec r.eq)
    (hj : IsMat c.jys rows.length a.afreqs.length (fun k j => (rows.getD k default).jys (a.afreqs.getD j 0)))
    (hf : (0 : ℝ) ∉ a.afreqs) (ai aj : SAnt) (pol : Char × Char) {x : ND.Arr ℂ} {P : Nat → Nat → ℂ}
    (x1 : genPhsA a.J1 (c.eqs.map fun e => (eq2top_m (lst - (eq2radec e).1) (eq2radec e).2).mulVec (aj.pos - ai.pos)) a.afreqs
      (offsetAt ai aj pol) c = some (c', x.squeeze)) (x3 : IsMat x rows.length a.afreqs.length P) :
    simA a.J1 lst ai aj pol a.afreqs c (c.tops.map (ai.beam pol.1)) (c.tops.map (aj.beam pol.2)) =
      some (c', (List.range a.afreqs.length).map fun j => ((List.range rows.length).map fun k =>
        (passbandAt ai aj pol (a.afreqs.getD j 0) * (aj.beam pol.2 (skyTop a.lat lst (rows.getD k default).eq) (a.afreqs.getD j 0) *
          (starRingEnd ℂ) (ai.beam pol.1 (skyTop a.lat lst (rows.getD k default).eq) (a.afreqs.getD j 0))) *
          ((rows.getD k default).jys (a.afreqs.getD j 0) : ℂ)) * (starRingEnd ℂ) (P k j)).sum) := by
  set fs := a.afreqs with hfs
  have hG : IsMat (⟨[1, fs.length], fun i => passbandAt ai aj pol (fs.getD (i.getD 1 0) 0)⟩ : ND.Arr ℂ) 1 fs.length
      (fun _ j => passbandAt ai aj pol (fs.getD j 0)) := ⟨rfl, fun _ _ _ _ => rfl⟩
  have hB : IsMat (⟨[c.tops.length, fs.length], fun i =>
      ((c.tops.map (aj.beam pol.2)).getD (i.getD 0 0) fun _ => 0) (fs.getD (i.getD 1 0) 0) *
        (starRingEnd ℂ) (((c.tops.map (ai.beam pol.1)).getD (i.getD 0 0) fun _ => 0) (fs.getD (i.getD 1 0) 0))⟩ : ND.Arr ℂ)
      rows.length fs.length (fun k j => aj.beam pol.2 (skyTop a.lat lst (rows.getD k default).eq) (fs.getD j 0) *
        (starRingEnd ℂ) (ai.beam pol.1 (skyTop a.lat lst (rows.getD k default).eq) (fs.getD j 0))) := by
    refine ⟨by simp [ht], ?_⟩
    intro k j hk hj'
    show ((c.tops.map (aj.beam pol.2)).getD k fun _ => 0) (fs.getD j 0) *
      (starRingEnd ℂ) (((c.tops.map (ai.beam pol.1)).getD k fun _ => 0) (fs.getD j 0)) = _
    rw [ht, List.map_map, List.map_map, getD_map_lt _ hk default, getD_map_lt _ hk default]
    rfl
  obtain ⟨y1, h1, h2⟩ := row_mat (fun a b => a * b) hG hB
  obtain ⟨y2, h3, h4⟩ := mat_mat (fun (p : ℂ) (z : ℝ) => p * (z : ℂ)) h2 hj
  -- the phases in the shape of the fluxes
  have hE : ∃ e, assignShape ((x.squeeze).map (starRingEnd ℂ)) c.jys.shape = some e ∧
      ∃ z, map2 (fun a b => a * b) y2 e = some z ∧ IsMat z rows.length fs.length (fun k j =>
        (passbandAt ai aj pol (fs.getD j 0) * (aj.beam pol.2 (skyTop a.lat lst (rows.getD k default).eq) (fs.getD j 0) *
        (starRingEnd ℂ) (ai.beam pol.1 (skyTop a.lat lst (rows.getD k default).eq) (fs.getD j 0))) *
        ((rows.getD k default).jys (fs.getD j 0) : ℂ)) * (starRingEnd ℂ)
        (P k j)) := by
    by_cases h11 : rows.length = 1 ∧ fs.length = 1
    · obtain ⟨e1, e2⟩ := h11
      have hs : ((x.squeeze).map (starRingEnd ℂ)).shape = [] := by
        show x.shape.filter _ = []
        rw [x3.shape, e1, e2]; rfl
      refine ⟨_, by unfold assignShape; rw [if_pos hs], ?_⟩
      have hsc : (x.squeeze).map (starRingEnd ℂ) = (⟨[], ((x.squeeze).map (starRingEnd ℂ)).get⟩ : ND.Arr ℂ) := by
        rw [← hs]
      unfold map2
      rw [hs, h4.shape, (bshape_nil _).2]
      refine ⟨_, rfl, rfl, ?_⟩
      intro k j hk hj'
      have hk0 : k = 0 := by omega
      have hj0 : j = 0 := by omega
      show y2.get (pick [rows.length, fs.length] [k, j]) * (starRingEnd ℂ) (x.get (expand x.shape (pick [] [k, j]))) = _
      rw [pick2, inside hk, inside hj', h4.get k j hk hj', pick0, x3.shape]
      have : expand [rows.length, fs.length] [] = [k, j] := by
        rw [e1, e2, hk0, hj0]; rfl
      rw [this, x3.get k j hk hj']
    · have hs : ((x.squeeze).map (starRingEnd ℂ)).shape ≠ [] := by
        show x.shape.filter _ ≠ []
        rw [x3.shape]
        intro h0
        rw [List.filter_eq_nil_iff] at h0
        exact h11 ⟨by simpa using h0 _ List.mem_cons_self, by simpa using h0 fs.length (by simp)⟩
      obtain ⟨e, e1, e2⟩ := squeeze_reshape (x3.map (starRingEnd ℂ)) (by omega)
      refine ⟨e, by unfold assignShape; rw [if_neg hs, hj.shape]; exact e1, ?_⟩
      exact mat_mat (fun a b => a * b) h4 e2
  obtain ⟨e, e1, z, z1, z2⟩ := hE
  unfold simA
  simp only [bind, Option.bind, if_neg hf]
  rw [x1]
  simp only [e1, h1, h3, z1]
  unfold sumRows
  rw [z2.shape]
  simp only
  congr 2
  apply List.map_congr_left
  intro j hj'
  rw [List.mem_range] at hj'
  congr 1
  apply List.map_congr_left
  intro k hk
  rw [List.mem_range] at hk
  rw [z2.get k j hk hj']

/-- the value of `sim` from a cache that represents sources -/
theorem simA_ok {a : SArr} {lst : ℝ} {rows : List Row} {c : ACache} (hc : Rep (eq2top_m (-lst) a.lat) a.afreqs rows c)
    (hf : (0 : ℝ) ∉ a.afreqs) (ai aj : SAnt) (pol : Char × Char) :
    (a.afreqs.length ≠ 1 ∨ rows.length = 1 → ∃ c', simA a.J1 lst ai aj pol a.afreqs c (c.tops.map (ai.beam pol.1))
        (c.tops.map (aj.beam pol.2)) = some (c', a.afreqs.map fun f => (rows.map (vis1 a lst ai aj pol f)).sum) ∧
      Rep (eq2top_m (-lst) a.lat) a.afreqs rows c') ∧
    (a.afreqs.length = 1 → rows.length ≠ 1 → simA a.J1 lst ai aj pol a.afreqs c (c.tops.map (ai.beam pol.1))
        (c.tops.map (aj.beam pol.2)) = none) := by
  let bs := c.eqs.map fun e => (eq2top_m (lst - (eq2radec e).1) (eq2radec e).2).mulVec (aj.pos - ai.pos)
  have hb : bs.length = rows.length := by simp [bs, hc.eqs]
  obtain ⟨g1, g2⟩ := genPhsA_ok (J1 := a.J1) hc hb (offsetAt ai aj pol)
  constructor
  · intro hlen
    obtain ⟨c', x, x1, x2, x3⟩ := g1 hlen
    refine ⟨c', ?_, x2⟩
    rw [simA_of hc.tops hc.jys hf ai aj pol x1 x3, ← map_range a.afreqs 0]
    congr 2
    apply List.map_congr_left
    intro j _
    rw [← sum_range rows default]
    congr 1
    apply List.map_congr_left
    intro k hk
    rw [List.mem_range] at hk
    have hbk : bs.getD k 0 = (eq2top_m (lst - (eq2radec (rows.getD k default).eq).1) (eq2radec (rows.getD k default).eq).2).mulVec (aj.pos - ai.pos) := by
      show (c.eqs.map _).getD k 0 = _
      rw [hc.eqs, List.map_map, getD_map_lt _ hk default]
      rfl
    rw [hbk]
    rfl
  · intro h1 h2
    unfold simA
    simp only [bind, Option.bind, if_neg hf]
    rw [g2 h1 h2]

/-- a vector of entries belonging to the rows that are kept -/
theorem compress_gives {v : List Bool} {n : Nat} (hv : v.length = n) {F : Nat → ℝ} {x : ND.Arr ℝ} (h : IsVec x n F) :
    ∃ z, x.compress v = some z ∧ IsVec z (kept v).length (fun k => F ((kept v).getD k 0)) := compress_vec h hv

theorem vec_congr {α : Type} {x : ND.Arr α} {n : Nat} {F G : Nat → α} (h : IsVec x n F) (e : ∀ k, k < n → F k = G k) :
    IsVec x n G := ⟨h.shape, fun k hk => (h.get k hk).trans (e k hk)⟩

theorem compressFreq_ok {v : List Bool} {n : Nat} (hv : v.length = n) {F G : Nat → ℝ} {x : Val} (h : Gives n F x)
    (e : ∀ k, k < (kept v).length → F ((kept v).getD k 0) = G k) :
    ∃ y, compressFreq v x = some y ∧ Col (kept v).length G y := by
  cases h with
  | num x h =>
    exact ⟨_, rfl, .num x fun k hk => by rw [← e k hk]; exact h _ (by rw [← hv]; exact kept_getD hk)⟩
  | vec x h =>
    obtain ⟨z, h1, h2⟩ := compress_gives hv h
    obtain ⟨w, h3, h4⟩ := vec_column (vec_congr h2 e)
    refine ⟨.arr w, ?_, .col w h4⟩
    unfold compressFreq
    have : size z.shape = (kept v).length := by rw [h2.shape]; simp [size]
    simp only [bind, Option.bind, h1, this, h3]

theorem compressIon_ok {v : List Bool} {n : Nat} (hv : v.length = n) {F F' G G' : Nat → ℝ} {x : Val × Val}
    (h1 : Gives n F x.1) (h2 : Gives n G x.2) (hx : ∀ a, x.1 = .num a → ∃ b, x.2 = .num b)
    (e : ∀ k, k < (kept v).length → F ((kept v).getD k 0) = F' k) (e' : ∀ k, k < (kept v).length → G ((kept v).getD k 0) = G' k) :
    ∃ y, compressIon v x = some y ∧ Gives (kept v).length F' y.1 ∧ Gives (kept v).length G' y.2 := by
  have hlt : ∀ k, k < (kept v).length → (kept v).getD k 0 < n := fun k hk => by rw [← hv]; exact kept_getD hk
  obtain ⟨x1, x2⟩ := x
  simp only at h1 h2 hx
  cases h1 with
  | num a h =>
    obtain ⟨b, rfl⟩ := hx a rfl
    refine ⟨_, rfl, .num a fun k hk => by rw [← e k hk]; exact h _ (hlt k hk), ?_⟩
    cases h2 with
    | num _ h' => exact .num b fun k hk => by rw [← e' k hk]; exact h' _ (hlt k hk)
  | vec a h =>
    obtain ⟨y, y1, y2⟩ := compress_gives hv h
    cases h2 with
    | num b h' =>
      refine ⟨(.arr y, .num b), ?_, .vec y (vec_congr y2 e), .num b fun k hk => by rw [← e' k hk]; exact h' _ (hlt k hk)⟩
      unfold compressIon
      simp only [bind, Option.bind, y1]
    | vec b h' =>
      obtain ⟨z, z1, z2⟩ := compress_gives hv h'
      refine ⟨(.arr y, .arr z), ?_, .vec y (vec_congr y2 e), .vec z (vec_congr z2 e')⟩
      unfold compressIon
      simp only [bind, Option.bind, y1, z1]

theorem compressShape_ok {v : List Bool} {n : Nat} (hv : v.length = n) {A B H A' B' H' : Nat → ℝ} {x : Val × Val × Val}
    (h1 : Gives n A x.1) (h2 : Gives n B x.2.1) (h3 : Gives n H x.2.2)
    (hx : (∀ a, x.1 = .num a → ∃ b, x.2.1 = .num b) ∧ ∀ b, x.2.1 = .num b → ∃ c, x.2.2 = .num c)
    (e : ∀ k, k < (kept v).length → A ((kept v).getD k 0) = A' k) (e' : ∀ k, k < (kept v).length → B ((kept v).getD k 0) = B' k)
    (e'' : ∀ k, k < (kept v).length → H ((kept v).getD k 0) = H' k) :
    ∃ y, compressShape v x = some y ∧ Axes (kept v).length A' B' H' y := by
  have hlt : ∀ k, k < (kept v).length → (kept v).getD k 0 < n := fun k hk => by rw [← hv]; exact kept_getD hk
  obtain ⟨x1, x2, x3⟩ := x
  simp only at h1 h2 h3 hx
  cases h1 with
  | num a g1 =>
    obtain ⟨b, rfl⟩ := hx.1 a rfl
    obtain ⟨c, rfl⟩ := hx.2 b rfl
    cases h2 with
    | num _ g2 =>
      cases h3 with
      | num _ g3 =>
        exact ⟨_, rfl, .num a b c (fun k hk => by rw [← e k hk]; exact g1 _ (hlt k hk))
          (fun k hk => by rw [← e' k hk]; exact g2 _ (hlt k hk)) (fun k hk => by rw [← e'' k hk]; exact g3 _ (hlt k hk))⟩
  | vec a g1 =>
    obtain ⟨y, y1, y2⟩ := compress_gives hv g1
    cases h2 with
    | num b g2 =>
      obtain ⟨c, rfl⟩ := hx.2 b rfl
      cases h3 with
      | num _ g3 =>
        refine ⟨(.arr y, .num b, .num c), ?_, .vec y _ _ (vec_congr y2 e) (.num b fun k hk => by rw [← e' k hk]; exact g2 _ (hlt k hk))
          (.num c fun k hk => by rw [← e'' k hk]; exact g3 _ (hlt k hk)) fun _ _ => ⟨c, rfl⟩⟩
        unfold compressShape
        simp only [bind, Option.bind, y1]
    | vec b g2 =>
      obtain ⟨z, z1, z2⟩ := compress_gives hv g2
      cases h3 with
      | num c g3 =>
        refine ⟨(.arr y, .arr z, .num c), ?_, .vec y _ _ (vec_congr y2 e) (.vec z (vec_congr z2 e'))
          (.num c fun k hk => by rw [← e'' k hk]; exact g3 _ (hlt k hk)) fun _ _ => ⟨c, rfl⟩⟩
        unfold compressShape
        simp only [bind, Option.bind, y1, z1]
      | vec c g3 =>
        obtain ⟨w, w1, w2⟩ := compress_gives hv g3
        refine ⟨(.arr y, .arr z, .arr w), ?_, .vec y _ _ (vec_congr y2 e) (.vec z (vec_congr z2 e')) (.vec w (vec_congr w2 e''))
          fun _ h => by cases h⟩
        unfold compressShape
        simp only [bind, Option.bind, y1, z1, w1]

/-- `sim_cache` keeps the sources that are up, with their entries -/
theorem simCacheA_ok {a : SArr} {lst : ℝ} {rows : List Row} {c : Cols} (h : Describes a.afreqs rows c) :
    (upRows a lst rows = [] ∧ simCacheA (eq2top_m (-lst) a.lat) c = some none) ∨
    (upRows a lst rows ≠ [] ∧ ∃ d, simCacheA (eq2top_m (-lst) a.lat) c = some (some d) ∧
      Rep (eq2top_m (-lst) a.lat) a.afreqs (upRows a lst rows) d) := by
  set m := eq2top_m (-lst) a.lat with hm
  let p : Row → Bool := fun r => @decide (0 < skyTop a.lat lst r.eq 2) (Classical.propDecidable _)
  let v := valid m c.eqs
  have hv : v = rows.map p := by
    show (c.eqs.map _) = _
    rw [h.eqs, List.map_map]
    rfl
  have hvl : v.length = rows.length := by rw [hv, List.length_map]
  have hup : upRows a lst rows = (kept v).map fun k => rows.getD k default := by
    rw [hv, kept_filter rows p default]
    rfl
  have hulen : (upRows a lst rows).length = (kept v).length := by rw [hup, List.length_map]
  have hget : ∀ k, k < (kept v).length → (upRows a lst rows).getD k default = rows.getD ((kept v).getD k 0) default := by
    intro k hk
    rw [hup, getD_map_lt _ hk 0]
  have hall : v.all (!·) = true ↔ upRows a lst rows = [] := by
    rw [hv]
    unfold upRows
    rw [List.filter_eq_nil_iff, List.all_map, List.all_eq_true]
    constructor
    · intro h0 r hr
      simpa [p] using h0 r hr
    · intro h0 r hr
      have := h0 r hr
      simpa [p] using this
  by_cases he : upRows a lst rows = []
  · refine Or.inl ⟨he, ?_⟩
    unfold simCacheA
    rw [if_pos (hall.2 he)]
  · refine Or.inr ⟨he, ?_⟩
    obtain ⟨j, j1, j2⟩ := compress_mat h.jys hvl
    obtain ⟨mf, m1, m2⟩ := compressFreq_ok hvl h.mfreq (G := fun k => ((upRows a lst rows).getD k default).mfreq)
      (fun k hk => by rw [hget k hk])
    obtain ⟨sh, s1, s2⟩ := compressShape_ok hvl h.a1 h.a2 h.th h.shape (A' := fun k => ((upRows a lst rows).getD k default).shape.1)
      (B' := fun k => ((upRows a lst rows).getD k default).shape.2.1) (H' := fun k => ((upRows a lst rows).getD k default).shape.2.2)
      (fun k hk => by rw [hget k hk]) (fun k hk => by rw [hget k hk])
      (fun k hk => by rw [hget k hk])
    obtain ⟨io, i1, i2, i3⟩ := compressIon_ok hvl h.ra h.dec h.ion (F' := fun k => ((upRows a lst rows).getD k default).ion.1)
      (G' := fun k => ((upRows a lst rows).getD k default).ion.2) (fun k hk => by rw [hget k hk])
      (fun k hk => by rw [hget k hk])
    have heqs : ((kept v).map fun k => c.eqs.getD k 0) = (upRows a lst rows).map Row.eq := by
      rw [hup, List.map_map]
      apply List.map_congr_left
      intro k hk
      have hk' : k < rows.length := by rw [← hvl]; exact kept_lt k hk
      rw [h.eqs, getD_map_lt _ hk' default]
      rfl
    refine ⟨⟨(kept v).map fun k => c.eqs.getD k 0, ((kept v).map fun k => c.eqs.getD k 0).map fun e => m.mulVec e, j, mf, io, sh⟩,
      ?_, ⟨heqs, ?_, ?_, ?_, Or.inl ?_, Or.inl ?_, ?_⟩⟩
    · unfold simCacheA
      have hc : ¬ (v.all (!·) = true) := fun h0 => he (hall.1 h0)
      rw [if_neg hc]
      simp only [bind, Option.bind]
      rw [show valid m c.eqs = v from rfl, j1]
      simp only [m1, s1, i1]
    · show ((kept v).map fun k => c.eqs.getD k 0).map (fun e => m.mulVec e) = _
      rw [heqs, List.map_map]
      rfl
    · rw [hulen]
      exact isMat_congr j2 fun k i hk _ => by rw [hget k hk]
    · rw [hulen]; exact m2
    · rw [hulen]; exact i2
    · rw [hulen]; exact i3
    · rw [hulen]; exact s2

/-! ## Sessions -/

/-- `sim` on several baselines: the arrays that `gen_phs` has reshaped stay in the cache -/
def simsA (a : SArr) (lst : ℝ) (c : ACache) : List (SAnt × SAnt × (Char × Char)) → Option (List (List ℂ))
  | [] => some []
  | (ai, aj, pol) :: calls => do
    let (c', v) ← simA a.J1 lst ai aj pol a.afreqs c (c.tops.map (ai.beam pol.1)) (c.tops.map (aj.beam pol.2))
    let vs ← simsA a lst c' calls
    some (v :: vs)

/-- `sim_cache`, then `sim` for a list of baselines; an empty cache gives zeros, amp.py 364-365 -/
def sessionA (a : SArr) (lst : ℝ) (c : Cols) (calls : List (SAnt × SAnt × (Char × Char))) : Option (List (List ℂ)) := do
  match ← simCacheA (eq2top_m (-lst) a.lat) c with
  | none => some (calls.map fun _ => a.afreqs.map fun _ => 0)
  | some d => simsA a lst d calls

theorem simsA_ok {a : SArr} {lst : ℝ} {rows : List Row} (hf : (0 : ℝ) ∉ a.afreqs)
    (h1 : a.afreqs.length ≠ 1 ∨ rows.length = 1) (calls : List (SAnt × SAnt × (Char × Char))) :
    ∀ c, Rep (eq2top_m (-lst) a.lat) a.afreqs rows c → simsA a lst c calls =
      some (calls.map fun x => a.afreqs.map fun f => (rows.map (vis1 a lst x.1 x.2.1 x.2.2 f)).sum) := by
  induction calls with
  | nil => intro c _; rfl
  | cons x xs ih =>
    obtain ⟨ai, aj, pol⟩ := x
    intro c hc
    obtain ⟨c', e, hc'⟩ := (simA_ok hc hf ai aj pol).1 h1
    have := ih c' hc'
    unfold simsA
    simp only [bind, Option.bind, e, this, List.map_cons]

/-- C84: `sim_cache` given arrays of positions, fluxes, frequencies, refractions and shapes (the last three may also be
numbers that hold for all sources) followed by `sim` on any baselines in any order gives, for every baseline, the sum over the
sources above the horizon, each computed from its own entries.  This needs more than one channel or at most one source that is
up (`c84_one_channel_violated`). -/
theorem c84_sources_partial (a : SArr) (lst : ℝ) (rows : List Row) (c : Cols) (h : Describes a.afreqs rows c)
    (hf : (0 : ℝ) ∉ a.afreqs) (h1 : a.afreqs.length ≠ 1 ∨ (upRows a lst rows).length ≤ 1)
    (calls : List (SAnt × SAnt × (Char × Char))) :
    sessionA a lst c calls = some (calls.map fun x => vis a lst x.1 x.2.1 x.2.2 rows) := by
  unfold sessionA
  rcases simCacheA_ok (lst := lst) h with ⟨he, e⟩ | ⟨he, d, e, hd⟩
  · simp only [bind, Option.bind, e]
    congr 1
    apply List.map_congr_left
    intro x _
    unfold vis
    rw [he]
    rfl
  · simp only [bind, Option.bind, e]
    refine simsA_ok hf (h1.imp_right fun hl => ?_) calls d hd
    have : 0 < (upRows a lst rows).length := List.length_pos_iff.2 he
    omega

/-- C84: with one channel and several sources up `sim` raises for every baseline, whatever the sources: `resolve_src` squeezes
the axis of the channel away. -/
theorem c84_one_channel_violated (a : SArr) (lst : ℝ) (rows : List Row) (c : Cols) (h : Describes a.afreqs rows c)
    (hf : (0 : ℝ) ∉ a.afreqs) (h1 : a.afreqs.length = 1) (hup : 1 < (upRows a lst rows).length)
    (calls : List (SAnt × SAnt × (Char × Char))) (hc : calls ≠ []) : sessionA a lst c calls = none := by
  unfold sessionA
  rcases simCacheA_ok (lst := lst) h with ⟨he, e⟩ | ⟨_, d, e, hd⟩
  · rw [he] at hup; simp at hup
  · simp only [bind, Option.bind, e]
    match calls, hc with
    | (ai, aj, pol) :: xs, _ =>
      unfold simsA
      simp only [bind, Option.bind, (simA_ok hd hf ai aj pol).2 h1 (by omega)]

/-- the phases do not depend on the fluxes -/
theorem genPhsA_jys {J1 : ℝ → ℝ} {bs : List Vec} {fs : List ℝ} {off : ℝ → ℝ} (c : ACache) (j : ND.Arr ℝ) {c' : ACache}
    {x : ND.Arr ℂ} (h : genPhsA J1 bs fs off { c with jys := j } = some (c', x)) :
    genPhsA J1 bs fs off c = some ({ c' with jys := c.jys }, x) := by
  unfold genPhsA at h ⊢
  simp only [bind, Option.bind] at h ⊢
  cases h1 : refractA (uvwMat bs fs 0) (uvwMat bs fs 1) bs.length fs c.mfreq c.ion with
  | none => rw [h1] at h; cases h
  | some r =>
    rw [h1] at h
    simp only at h ⊢
    cases h2 : inplace (· + ·) (uvwMat bs fs 2) r.2.2 with
    | none => rw [h2] at h; cases h
    | some w =>
      rw [h2] at h
      simp only at h ⊢
      cases h3 : map2 (fun a b => expPhs a b) w (⟨[fs.length], fun i => off (fs.getD (i.getD 0 0) 0)⟩ : ND.Arr ℝ) with
      | none => rw [h3] at h; cases h
      | some p =>
        rw [h3] at h
        simp only at h ⊢
        cases h4 : resolveA J1 (uvwMat bs fs 0) (uvwMat bs fs 1) c.shape with
        | none => rw [h4] at h; cases h
        | some q =>
          rw [h4] at h
          simp only at h ⊢
          cases h5 : inplace (fun p (x : ℝ) => p * (x : ℂ)) p q.2 with
          | none => rw [h5] at h; cases h
          | some z =>
            rw [h5] at h
            have := Option.some.inj h
            cases this
            rfl

/-- C84: `sim_cache` without fluxes (its default is `np.array([1.])`) does not give sources of one Jansky: unless there is
exactly one channel every `sim` raises as soon as a source is up. -/
theorem c84_default_jys_violated (a : SArr) (lst : ℝ) (rows : List Row) (c : Cols) (j : ND.Arr ℝ)
    (h : Describes a.afreqs rows { c with jys := j }) (hj : c.jys = ⟨[1], fun _ => 1⟩) (hf : (0 : ℝ) ∉ a.afreqs)
    (h1 : a.afreqs.length ≠ 1) (hup : upRows a lst rows ≠ []) (calls : List (SAnt × SAnt × (Char × Char))) (hc : calls ≠ []) :
    sessionA a lst c calls = none := by
  rcases simCacheA_ok (lst := lst) h with ⟨he, e⟩ | ⟨_, d, e, hd⟩
  · exact absurd he hup
  · unfold simCacheA at e
    unfold sessionA simCacheA
    simp only [bind, Option.bind] at e ⊢
    set v := valid (eq2top_m (-lst) a.lat) c.eqs with hv
    by_cases hall : v.all (!·) = true
    · rw [if_pos hall] at e; cases e
    · rw [if_neg hall] at e ⊢
      cases e1 : c.jys.compress v with
      | none => rfl
      | some y =>
        simp only
        cases e2 : compressFreq v c.mfreqs with
        | none => rfl
        | some mf =>
          simp only
          cases e3 : compressShape v c.shape with
          | none => rfl
          | some sh =>
            simp only
            cases e4 : compressIon v c.ion with
            | none => rfl
            | some io =>
              cases e5 : j.compress v with
              | none => rw [e5] at e; cases e
              | some y' =>
                rw [e5, e2] at e
                simp only at e
                rw [e3] at e
                simp only at e
                rw [e4] at e
                simp only [Option.some.injEq] at e
                have hy : y.shape = [(kept v).length] ∧ (kept v).all (· < 1) = true := by
                  rw [hj] at e1
                  simp only [ND.Arr.compress] at e1
                  split at e1
                  · rename_i hk
                    rw [← Option.some.inj e1]
                    exact ⟨rfl, hk⟩
                  · cases e1
                have hlen : (kept v).length = (upRows a lst rows).length := by
                  have := congrArg List.length hd.eqs
                  rw [← e] at this
                  simpa using this
                have hle : (kept v).length ≤ 1 := by
                  have hn : (kept v).Nodup := List.Nodup.filter _ List.nodup_range
                  have hz : ∀ k ∈ kept v, k = 0 := fun k hk => by
                    have := List.all_eq_true.1 hy.2 k hk
                    simpa using this
                  match hk : kept v, hn, hz with
                  | [], _, _ => simp
                  | [_], _, _ => simp
                  | x :: y :: l, hn, hz =>
                    have h1 := hz x (by simp)
                    have h2 := hz y (by simp)
                    rw [h1, h2] at hn
                    simp at hn
                have hpos : 0 < (upRows a lst rows).length := List.length_pos_iff.2 hup
                have hone : (upRows a lst rows).length = 1 := by omega
                match calls, hc with
                | (ai, aj, pol) :: xs, _ =>
                  simp only
                  unfold simsA simA
                  simp only [bind, Option.bind, if_neg hf]
                  have hb : (d.eqs.map fun e => (eq2top_m (lst - (eq2radec e).1) (eq2radec e).2).mulVec (aj.pos - ai.pos)).length =
                    (upRows a lst rows).length := by simp [hd.eqs]
                  obtain ⟨c', x, x1, x2, x3⟩ := (genPhsA_ok (J1 := a.J1) hd hb (offsetAt ai aj pol)).1 (Or.inl h1)
                  rw [← e] at x1
                  have hx := genPhsA_jys ⟨(kept v).map fun k => c.eqs.getD k 0,
                    ((kept v).map fun k => c.eqs.getD k 0).map fun e => (eq2top_m (-lst) a.lat).mulVec e, y, mf, io, sh⟩ y' x1
                  simp only at hx
                  rw [hx]
                  have hsq : (x.squeeze.map (starRingEnd ℂ)).shape = [a.afreqs.length] := by
                    show x.shape.filter (· ≠ 1) = _
                    rw [x3.shape, hone]
                    simp [h1]
                  have : assignShape (x.squeeze.map (starRingEnd ℂ)) y.shape = none := by
                    unfold assignShape
                    rw [hsq, if_neg (by simp)]
                    unfold ND.Arr.reshape
                    rw [if_neg]
                    rw [hsq, hy.1, hlen, hone]
                    simp [size]
                    omega
                  simp only [this]

/-! ## Catalogs -/

/-- a source of a catalog after `compute`: its position of date and its parameters -/
structure CatSrc where
  ra : ℝ
  dec : ℝ
  jys : ℝ
  index : ℝ
  mfreq : ℝ
  ion : ℝ × ℝ
  shape : ℝ × ℝ × ℝ
  deriving Inhabited

/-- one attribute of all sources, `np.array([getattr(self[s], attribute) for s in srcs])`, phs.py 151-156 -/
def getAttr (F : CatSrc → ℝ) (cat : List CatSrc) : ND.Arr ℝ := ⟨[cat.length], fun i => F (cat.getD (i.getD 0 0) default)⟩

/-- the arguments that scripts/mdlvis.py 116-121 passes to `sim_cache`: `get_crds('eq', ncrd=3)`, `get_jys()`, `get('mfreq')`,
`get('ionref')` and `get('srcshape')`, phs.py 146-156, amp.py 32-38, 103-108.  The sources are in the order of the keys of the
dictionary.  For an empty catalog there is nothing to unpack and an exception is raised.  Frequencies that are not positive make
numpy return `nan` or infinities; this is not modelled (`none`). -/
def catCols (fs : List ℝ) (cat : List CatSrc) : Option Cols :=
  if cat = [] ∨ (∃ s ∈ cat, s.mfreq ≤ 0) ∨ ∃ f ∈ fs, f ≤ 0 then none else
  some {
    eqs := cat.map fun s => radec2eq (s.ra, s.dec)
    jys := ⟨[cat.length, fs.length], fun i =>
      let s := cat.getD (i.getD 0 0) default
      s.jys * (fs.getD (i.getD 1 0) 0 / s.mfreq) ^ s.index⟩
    mfreqs := .arr (getAttr (·.mfreq) cat)
    ion := (.arr (getAttr (·.ion.1) cat), .arr (getAttr (·.ion.2) cat))
    shape := (.arr (getAttr (·.shape.1) cat), .arr (getAttr (·.shape.2.1) cat), .arr (getAttr (·.shape.2.2) cat)) }

/-- the visibilities of a catalog on a list of baselines -/
def catSession (a : SArr) (lst : ℝ) (cat : List CatSrc) (calls : List (SAnt × SAnt × (Char × Char))) :
    Option (List (List ℂ)) := do
  let c ← catCols a.afreqs cat
  sessionA a lst c calls

/-- what a source of the catalog is: a power law at a position -/
def CatSrc.row (s : CatSrc) : Row :=
  { eq := ![Real.cos s.dec * Real.cos s.ra, Real.cos s.dec * Real.sin s.ra, Real.sin s.dec],
    jys := fun f => s.jys * (f / s.mfreq) ^ s.index, mfreq := s.mfreq, ion := s.ion, shape := s.shape }

theorem radec2eq_row (s : CatSrc) : radec2eq (s.ra, s.dec) = s.row.eq := by
  unfold radec2eq thphi2xyz CatSrc.row
  simp only [Real.sin_pi_div_two_sub, Real.cos_pi_div_two_sub]

theorem getAttr_ok (F : CatSrc → ℝ) (cat : List CatSrc) : IsVec (getAttr F cat) cat.length (fun k => F (cat.getD k default)) :=
  ⟨rfl, fun _ _ => rfl⟩

/-- the columns of a catalog describe its sources -/
theorem catCols_ok {fs : List ℝ} {cat : List CatSrc} {c : Cols} (h : catCols fs cat = some c) :
    Describes fs (cat.map CatSrc.row) c := by
  unfold catCols at h
  split at h
  · cases h
  have e := Option.some.inj h
  have g : ∀ k, k < (cat.map CatSrc.row).length → (cat.map CatSrc.row).getD k default = (cat.getD k default).row := fun k hk =>
    getD_map_lt _ (by simpa using hk) default default
  have hl : (cat.map CatSrc.row).length = cat.length := List.length_map ..
  have vec : ∀ (F : CatSrc → ℝ) (G : Row → ℝ), (∀ s, F s = G s.row) →
      IsVec (getAttr F cat) (cat.map CatSrc.row).length (fun k => G ((cat.map CatSrc.row).getD k default)) := by
    intro F G hFG
    rw [hl]
    exact vec_congr (getAttr_ok F cat) fun k hk => by rw [g k (by omega), hFG]
  rw [← e]
  refine ⟨?_, ⟨by simp, ?_⟩, .vec _ (vec _ (·.mfreq) fun _ => rfl), .vec _ (vec _ (·.ion.1) fun _ => rfl),
    .vec _ (vec _ (·.ion.2) fun _ => rfl), (fun _ h => by cases h), .vec _ (vec _ (·.shape.1) fun _ => rfl),
    .vec _ (vec _ (·.shape.2.1) fun _ => rfl), .vec _ (vec _ (·.shape.2.2) fun _ => rfl), ⟨fun _ h => (by cases h), fun _ h => by cases h⟩⟩
  · simp only [List.map_map]
    exact List.map_congr_left fun s _ => radec2eq_row s
  · intro k j hk _
    simp only
    rw [g k hk]
    rfl

/-- C84: the visibilities simulated for a catalog are, on every baseline, the sum over its sources above the horizon, where each
source is the power law with its own flux, index and reference frequency at its own position, refracted and resolved by its own
parameters. -/
theorem c84_catalog_partial (a : SArr) (lst : ℝ) (cat : List CatSrc) (hne : cat ≠ []) (hm : ∀ s ∈ cat, 0 < s.mfreq)
    (hf : ∀ f ∈ a.afreqs, 0 < f) (h1 : a.afreqs.length ≠ 1 ∨ (upRows a lst (cat.map CatSrc.row)).length ≤ 1)
    (calls : List (SAnt × SAnt × (Char × Char))) :
    catSession a lst cat calls = some (calls.map fun x => vis a lst x.1 x.2.1 x.2.2 (cat.map CatSrc.row)) := by
  have hc : ∃ c, catCols a.afreqs cat = some c := by
    unfold catCols
    rw [if_neg]
    · exact ⟨_, rfl⟩
    · rintro (h | ⟨s, hs, h⟩ | ⟨f, hs, h⟩)
      · exact hne h
      · exact absurd (hm s hs) (not_lt.2 h)
      · exact absurd (hf f hs) (not_lt.2 h)
  obtain ⟨c, e⟩ := hc
  unfold catSession
  simp only [bind, Option.bind, e]
  exact c84_sources_partial a lst _ c (catCols_ok e) (fun h0 => lt_irrefl 0 (hf 0 h0)) h1 calls

/-- C84: so two catalogs that hold the same sources give the same visibilities, in whatever order they were added. -/
theorem c84_order (a : SArr) (lst : ℝ) (cat cat' : List CatSrc) (hp : cat.Perm cat') (hne : cat ≠ []) (hm : ∀ s ∈ cat, 0 < s.mfreq)
    (hf : ∀ f ∈ a.afreqs, 0 < f) (calls : List (SAnt × SAnt × (Char × Char))) :
    catSession a lst cat calls = catSession a lst cat' calls := by
  have hup : (upRows a lst (cat.map CatSrc.row)).Perm (upRows a lst (cat'.map CatSrc.row)) := (hp.map _).filter _
  have hne' : cat' ≠ [] := fun h => hne (by rw [h] at hp; exact hp.eq_nil)
  have hm' : ∀ s ∈ cat', 0 < s.mfreq := fun s hs => hm s (hp.mem_iff.2 hs)
  have hf0 : (0 : ℝ) ∉ a.afreqs := fun h0 => lt_irrefl 0 (hf 0 h0)
  by_cases h1 : a.afreqs.length ≠ 1 ∨ (upRows a lst (cat.map CatSrc.row)).length ≤ 1
  · rw [c84_catalog_partial a lst cat hne hm hf h1, c84_catalog_partial a lst cat' hne' hm' hf (by rw [← hup.length_eq]; exact h1)]
    congr 1
    apply List.map_congr_left
    intro x _
    unfold vis
    apply List.map_congr_left
    intro f _
    exact (hup.map _).sum_eq
  · push Not at h1
    have some_of : ∀ cat : List CatSrc, cat ≠ [] → (∀ s ∈ cat, 0 < s.mfreq) → ∃ c, catCols a.afreqs cat = some c := by
      intro cat hne hm
      unfold catCols
      rw [if_neg]
      · exact ⟨_, rfl⟩
      · rintro (h | ⟨s, hs, h⟩ | ⟨f, hs, h⟩)
        · exact hne h
        · exact absurd (hm s hs) (not_lt.2 h)
        · exact absurd (hf f hs) (not_lt.2 h)
    obtain ⟨c, e⟩ := some_of cat hne hm
    obtain ⟨c', e'⟩ := some_of cat' hne' hm'
    unfold catSession
    simp only [bind, Option.bind, e, e']
    by_cases hc : calls = []
    · rw [hc]
      unfold sessionA
      rcases simCacheA_ok (lst := lst) (catCols_ok e) with ⟨_, q⟩ | ⟨_, d, q, _⟩ <;>
        rcases simCacheA_ok (lst := lst) (catCols_ok e') with ⟨_, q'⟩ | ⟨_, d', q', _⟩ <;>
        simp [bind, Option.bind, q, q', simsA]
    · rw [c84_one_channel_violated a lst _ c (catCols_ok e) hf0 h1.1 h1.2 calls hc,
        c84_one_channel_violated a lst _ c' (catCols_ok e') hf0 h1.1 (by rw [← hup.length_eq]; exact h1.2) calls hc]

/-- C84: an empty catalog cannot be simulated: there are no columns to unpack. -/
theorem c84_empty_violated (a : SArr) (lst : ℝ) (calls : List (SAnt × SAnt × (Char × Char))) :
    catSession a lst [] calls = none := by
  unfold catSession catCols
  rw [if_pos (Or.inl rfl)]
  rfl

/-! ## Examples -/

/-- a source overhead at lst 0 and one at the other side of the sky -/
def two : List CatSrc := [⟨0, 0, 1, -1, 1, (0, 0), (0, 0, 0)⟩, ⟨π, 0, 5, -1, 1, (0.1, 0), (0, 0, 0)⟩]

/-- the hypotheses hold for two sources, two channels and two baselines -/
example : catSession { pair with afreqs := [1, 2] } 0 two [(unitAnt 0, unitAnt 0, ('x', 'x')), (unitAnt 0, unitAnt 1, ('x', 'y'))] =
    some [vis { pair with afreqs := [1, 2] } 0 (unitAnt 0) (unitAnt 0) ('x', 'x') (two.map CatSrc.row),
      vis { pair with afreqs := [1, 2] } 0 (unitAnt 0) (unitAnt 1) ('x', 'y') (two.map CatSrc.row)] :=
  c84_catalog_partial _ 0 two (by simp [two]) (by simp [two]) (by simp) (Or.inl (by simp)) _

/-- n copies of `src0`, given by numbers -/
def copies (fs : List ℝ) (n : Nat) : Cols :=
  ⟨(List.replicate n src0).map Row.eq, ⟨[n, fs.length], fun _ => 1⟩, .num 1, (.num 0, .num 0), (.num 0, .num 0, .num 0)⟩

theorem copies_ok (fs : List ℝ) (n : Nat) : Describes fs (List.replicate n src0) (copies fs n) := by
  have g : ∀ k, k < (List.replicate n src0).length → (List.replicate n src0).getD k default = src0 := by
    intro k hk
    rw [List.getD_eq_getElem?_getD, List.getElem?_eq_getElem hk]
    simp
  refine ⟨rfl, ⟨by simp [copies], fun k j hk _ => by rw [g k hk]; rfl⟩, .num _ fun k hk => by simp only [g k hk]; rfl,
    .num _ fun k hk => by simp only [g k hk]; rfl, .num _ fun k hk => by simp only [g k hk]; rfl, fun _ _ => ⟨_, rfl⟩,
    .num _ fun k hk => by simp only [g k hk]; rfl, .num _ fun k hk => by simp only [g k hk]; rfl,
    .num _ fun k hk => by simp only [g k hk]; rfl, ⟨fun _ _ => ⟨_, rfl⟩, fun _ _ => ⟨_, rfl⟩⟩⟩

theorem copies_up (fs : List ℝ) (n : Nat) : upRows { pair with afreqs := fs } 0 (List.replicate n src0) = List.replicate n src0 := by
  unfold upRows
  rw [List.filter_eq_self]
  intro r hr
  rw [List.eq_of_mem_replicate hr]
  have : skyTop 0 0 src0.eq 2 = 1 := by rw [skyTop_src0]; simp
  show decide (0 < skyTop 0 0 src0.eq 2) = true
  rw [this]
  simp

/-- three sources overhead: answered with two channels, not with one -/
example : sessionA { pair with afreqs := [1, 2] } 0 (copies [1, 2] 3) [(unitAnt 0, unitAnt 1, ('x', 'x'))] =
    some [vis { pair with afreqs := [1, 2] } 0 (unitAnt 0) (unitAnt 1) ('x', 'x') (List.replicate 3 src0)] ∧
    sessionA { pair with afreqs := [1] } 0 (copies [1] 3) [(unitAnt 0, unitAnt 1, ('x', 'x'))] = none :=
  ⟨c84_sources_partial _ 0 _ _ (copies_ok _ 3) (by simp) (Or.inl (by simp)) _,
    c84_one_channel_violated _ 0 _ _ (copies_ok _ 3) (by simp) rfl (by rw [copies_up]; simp) _ (by simp)⟩

/-- one source, two channels, no fluxes given -/
example : sessionA { pair with afreqs := [1, 2] } 0 { copies [1, 2] 1 with jys := ⟨[1], fun _ => 1⟩ }
    [(unitAnt 0, unitAnt 1, ('x', 'x'))] = none :=
  c84_default_jys_violated _ 0 _ _ (copies [1, 2] 1).jys (copies_ok [1, 2] 1) rfl (by simp) (by simp)
    (by rw [copies_up]; simp) _ (by simp)

end Verif.Amp
