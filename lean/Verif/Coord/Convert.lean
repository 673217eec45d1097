import Verif.Coord.Angles
/-!
# Property C92 : `convert_m` is the matrix of `convert`

`ephem` is not modelled: a coordinate system at an epoch is a rotation of the equatorial frame of J2000 (`Frames`), and the
classes of `sys_dict` turn longitude and latitude from one such frame into another.
-/
noncomputable section
namespace Verif.Coord
open Real Matrix

/-! ## Model -/

/-- the keys of `sys_dict`, coord.py 14-18 -/
inductive Sys | ec | eq | ga
deriving DecidableEq

/-- `isys[:2].lower()` as a key of `sys_dict`, coord.py 26-27; `none` is KeyError -/
def sysOf (s : List Char) : Option Sys :=
  match (s.take 2).map Char.toLower with
  | ['e', 'c'] => some .ec
  | ['e', 'q'] => some .eq
  | ['g', 'a'] => some .ga
  | _ => none

/-- what `ephem` knows: the frame of a system at an epoch, as the matrix from the equatorial frame of J2000 -/
structure Frames (E : Type) where
  mat : Sys → E → Mat
  rot : ∀ s t, IsRotation (mat s t)

/-- two angles or a vector -/
inductive Crd
  | ang (a : ℝ × ℝ)
  | vec (v : Vec)

/-- the angles taken, coord.py 25 -/
def Crd.angles : Crd → ℝ × ℝ
  | .ang a => a
  | .vec v => eq2radec v

/-- the angles of a direction of one frame in another one (`ephem`) -/
def frameConv {E : Type} (f : Frames E) (si so : Sys) (t0 t1 : E) (a : ℝ × ℝ) : ℝ × ℝ :=
  eq2radec (f.mat so t1 *ᵥ ((f.mat si t0)ᵀ *ᵥ radec2eq a))

/-- `convert`, coord.py 20-27 -/
def convert {E : Type} (f : Frames E) (crd : Crd) (isys osys : List Char) (t0 t1 : E) : Option (ℝ × ℝ) :=
  match sysOf isys, sysOf osys with
  | some si, some so => some (frameConv f si so t0 t1 crd.angles)
  | _, _ => none

/-- column `k` of the matrix -/
def matCol (m : Mat) (k : Fin 3) : Vec := fun r => m r k

/-- `m[:,k] = c` -/
def setCol (m : Mat) (k : Fin 3) (c : Vec) : Mat := fun r l => if l = k then c r else m r l

/-- one turn of the loop, coord.py 36-37 -/
def convCol {E : Type} (f : Frames E) (isys osys : List Char) (t0 t1 : E) (m : Mat) (k : Fin 3) : Option Mat :=
  (convert f (.vec (matCol m k)) isys osys t0 t1).map fun c => setCol m k (radec2eq c)

/-- `convert_m`, coord.py 29-38 -/
def convertM {E : Type} (f : Frames E) (isys osys : List Char) (t0 t1 : E) : Option Mat :=
  (convCol f isys osys t0 t1 1 0).bind fun m =>
    (convCol f isys osys t0 t1 m 1).bind fun m => convCol f isys osys t0 t1 m 2

/-! ## Lemmas -/

theorem len_eq (v : Vec) : len v = sqrt (v ⬝ᵥ v) := by
  unfold len
  rw [dotProduct, Fin.sum_univ_three]
  ring_nf

theorem dot_rot {m : Mat} (h : IsRotation m) (v w : Vec) : (m *ᵥ v) ⬝ᵥ (m *ᵥ w) = v ⬝ᵥ w := by
  have h1 : mᵀ * m = 1 := mul_eq_one_comm.1 h.1
  rw [dotProduct_mulVec, ← mulVec_transpose, mulVec_mulVec, h1, one_mulVec]

theorem len_rot {m : Mat} (h : IsRotation m) (v : Vec) : len (m *ᵥ v) = len v := by
  rw [len_eq, len_eq, dot_rot h]

theorem rot_transpose {m : Mat} (h : IsRotation m) : IsRotation mᵀ :=
  ⟨by rw [transpose_transpose]; exact mul_eq_one_comm.1 h.1, by rw [det_transpose]; exact h.2⟩

theorem rot_mul {a b : Mat} (ha : IsRotation a) (hb : IsRotation b) : IsRotation (a * b) := by
  refine ⟨?_, by rw [det_mul, ha.2, hb.2, one_mul]⟩
  rw [transpose_mul, Matrix.mul_assoc, ← Matrix.mul_assoc b, hb.1, Matrix.one_mul, ha.1]

theorem len_unit {v : Vec} (h : IsUnitVec v) : len v = 1 := by
  unfold len
  unfold IsUnitVec at h
  rw [h, sqrt_one]

theorem unit_ne {v : Vec} (h : IsUnitVec v) : v ≠ 0 := by
  rintro rfl
  unfold IsUnitVec at h
  simp at h

theorem unit_rot {m : Mat} (h : IsRotation m) {v : Vec} (hv : IsUnitVec v) : IsUnitVec (m *ᵥ v) := by
  have h1 := dot_rot h v v
  rw [dotProduct, Fin.sum_univ_three, dotProduct, Fin.sum_univ_three] at h1
  unfold IsUnitVec at hv ⊢
  linarith

/-- a unit vector is found again from its angles -/
theorem radec_unit {v : Vec} (h : IsUnitVec v) : radec2eq (eq2radec v) = v := by
  rw [c21_radec_of_vec v (unit_ne h), len_unit h, inv_one, one_smul]

/-! ## Specification -/

/-- the rotation from one frame into another -/
def trans {E : Type} (f : Frames E) (si so : Sys) (t0 t1 : E) : Mat := f.mat so t1 * (f.mat si t0)ᵀ

theorem trans_rot {E : Type} (f : Frames E) (si so : Sys) (t0 t1 : E) : IsRotation (trans f si so t0 t1) :=
  rot_mul (f.rot so t1) (rot_transpose (f.rot si t0))

theorem frameConv_vec {E : Type} (f : Frames E) (si so : Sys) (t0 t1 : E) (a : ℝ × ℝ) :
    radec2eq (frameConv f si so t0 t1 a) = trans f si so t0 t1 *ᵥ radec2eq a := by
  unfold frameConv
  rw [mulVec_mulVec]
  exact radec_unit (unit_rot (trans_rot f si so t0 t1) (c21_unit a).2.1)

theorem convert_vec {E : Type} (f : Frames E) {isys osys : List Char} {si so : Sys} (hi : sysOf isys = some si) (ho : sysOf osys = some so)
    (t0 t1 : E) {v : Vec} (hv : IsUnitVec v) : ∃ c, convert f (.vec v) isys osys t0 t1 = some c ∧ radec2eq c = trans f si so t0 t1 *ᵥ v := by
  unfold convert
  rw [hi, ho]
  exact ⟨_, rfl, by rw [frameConv_vec]; unfold Crd.angles; rw [radec_unit hv]⟩

theorem convCol_eq {E : Type} (f : Frames E) {isys osys : List Char} {si so : Sys} (hi : sysOf isys = some si) (ho : sysOf osys = some so)
    (t0 t1 : E) (m : Mat) (k : Fin 3) (hv : IsUnitVec (matCol m k)) :
    convCol f isys osys t0 t1 m k = some (setCol m k (trans f si so t0 t1 *ᵥ matCol m k)) := by
  obtain ⟨c, h1, h2⟩ := convert_vec f hi ho t0 t1 hv
  unfold convCol
  rw [h1, Option.map_some, h2]

theorem matCol_setCol (m : Mat) (k l : Fin 3) (c : Vec) (h : l ≠ k) : matCol (setCol m k c) l = matCol m l := by
  funext r
  simp [matCol, setCol, h]

theorem matCol_one (k : Fin 3) : IsUnitVec (matCol 1 k) := by
  obtain ⟨o1, o2, o3, o4, o5, o6, o7, o8, o9⟩ := one_at
  unfold IsUnitVec matCol
  fin_cases k
  · show (1 : Mat) 0 0 ^ 2 + (1 : Mat) 1 0 ^ 2 + (1 : Mat) 2 0 ^ 2 = 1
    rw [o1, o4, o7]
    norm_num
  · show (1 : Mat) 0 1 ^ 2 + (1 : Mat) 1 1 ^ 2 + (1 : Mat) 2 1 ^ 2 = 1
    rw [o2, o5, o8]
    norm_num
  · show (1 : Mat) 0 2 ^ 2 + (1 : Mat) 1 2 ^ 2 + (1 : Mat) 2 2 ^ 2 = 1
    rw [o3, o6, o9]
    norm_num

theorem convertM_eq {E : Type} (f : Frames E) {isys osys : List Char} {si so : Sys} (hi : sysOf isys = some si) (ho : sysOf osys = some so)
    (t0 t1 : E) : convertM f isys osys t0 t1 = some (trans f si so t0 t1) := by
  unfold convertM
  rw [convCol_eq f hi ho t0 t1 1 0 (matCol_one 0), Option.bind_some]
  rw [convCol_eq f hi ho t0 t1 _ 1 (by rw [matCol_setCol _ _ _ _ (by decide)]; exact matCol_one 1), Option.bind_some]
  rw [convCol_eq f hi ho t0 t1 _ 2 (by rw [matCol_setCol _ _ _ _ (by decide), matCol_setCol _ _ _ _ (by decide)]; exact matCol_one 2)]
  congr 1
  rw [matCol_setCol _ _ _ _ (by decide), matCol_setCol _ _ _ _ (by decide), matCol_setCol _ _ _ _ (by decide)]
  ext r l
  have hc : ∀ k : Fin 3, (trans f si so t0 t1 *ᵥ matCol 1 k) r = trans f si so t0 t1 r k := by
    intro k
    have : matCol (1 : Mat) k = Pi.single k 1 := by
      funext x
      simp [matCol, Matrix.one_apply, Pi.single_apply]
    rw [this, mulVec_single_one]
    rfl
  fin_cases l
  · show setCol (setCol (setCol 1 0 _) 1 _) 2 _ r 0 = _
    simp only [setCol]
    rw [if_neg (by decide), if_neg (by decide), if_pos trivial, hc]
    rfl
  · show setCol (setCol (setCol 1 0 _) 1 _) 2 _ r 1 = _
    simp only [setCol]
    rw [if_neg (by decide), if_pos trivial, hc]
    rfl
  · show setCol (setCol (setCol 1 0 _) 1 _) 2 _ r 2 = _
    simp only [setCol]
    rw [if_pos trivial, hc]
    rfl

/-! ## C92 -/

/-- C92: the matrix for two known systems exists and takes every direction where `convert` takes it, keeping lengths. -/
theorem c92_matrix {E : Type} (f : Frames E) (isys osys : List Char) (hi : sysOf isys ≠ none) (ho : sysOf osys ≠ none) (t0 t1 : E) :
    ∃ m, convertM f isys osys t0 t1 = some m ∧ IsRotation m ∧
      (∀ v : Vec, v ≠ 0 → ∃ c, convert f (.vec v) isys osys t0 t1 = some c ∧ m *ᵥ v = len v • radec2eq c) ∧
      (∀ a, ∃ c, convert f (.ang a) isys osys t0 t1 = some c ∧ m *ᵥ radec2eq a = radec2eq c) := by
  obtain ⟨si, hi⟩ := Option.ne_none_iff_exists'.1 hi
  obtain ⟨so, ho⟩ := Option.ne_none_iff_exists'.1 ho
  refine ⟨_, convertM_eq f hi ho t0 t1, trans_rot f si so t0 t1, ?_, ?_⟩
  · intro v hv
    unfold convert
    rw [hi, ho]
    refine ⟨_, rfl, ?_⟩
    rw [frameConv_vec]
    unfold Crd.angles
    rw [c21_radec_of_vec v hv, mulVec_smul, smul_smul, mul_inv_cancel₀ (len_pos hv).ne', one_smul]
  · intro a
    unfold convert
    rw [hi, ho]
    exact ⟨_, rfl, (frameConv_vec f si so t0 t1 a).symm⟩

/-- C92: going from a system to itself changes nothing, going there and back changes nothing, and two steps make one. -/
theorem c92_chain {E : Type} (f : Frames E) (s1 s2 s3 : List Char) (h1 : sysOf s1 ≠ none) (h2 : sysOf s2 ≠ none) (h3 : sysOf s3 ≠ none)
    (t1 t2 t3 : E) : ∃ m12 m23 m13 m21, convertM f s1 s2 t1 t2 = some m12 ∧ convertM f s2 s3 t2 t3 = some m23 ∧
      convertM f s1 s3 t1 t3 = some m13 ∧ convertM f s2 s1 t2 t1 = some m21 ∧ m23 * m12 = m13 ∧ m21 * m12 = 1 ∧ m12 * m21 = 1 ∧
      convertM f s1 s1 t1 t1 = some 1 := by
  obtain ⟨x1, h1⟩ := Option.ne_none_iff_exists'.1 h1
  obtain ⟨x2, h2⟩ := Option.ne_none_iff_exists'.1 h2
  obtain ⟨x3, h3⟩ := Option.ne_none_iff_exists'.1 h3
  have hc : ∀ s t, (f.mat s t)ᵀ * f.mat s t = 1 := fun s t => mul_eq_one_comm.1 (f.rot s t).1
  have hm : ∀ (a b : Mat) s t, a * (f.mat s t)ᵀ * (f.mat s t * b) = a * b := by
    intro a b s t
    rw [Matrix.mul_assoc, ← Matrix.mul_assoc (f.mat s t)ᵀ, hc, Matrix.one_mul]
  refine ⟨_, _, _, _, convertM_eq f h1 h2 t1 t2, convertM_eq f h2 h3 t2 t3, convertM_eq f h1 h3 t1 t3, convertM_eq f h2 h1 t2 t1, ?_, ?_, ?_, ?_⟩
  · exact hm _ _ _ _
  · unfold trans
    rw [hm, (f.rot x1 t1).1]
  · unfold trans
    rw [hm, (f.rot x2 t2).1]
  · rw [convertM_eq f h1 h1]
    unfold trans
    rw [(f.rot x1 t1).1]

/-- C92: angles converted there and back are the angles of the same direction. -/
theorem c92_round_trip {E : Type} (f : Frames E) (s1 s2 : List Char) (h1 : sysOf s1 ≠ none) (h2 : sysOf s2 ≠ none) (t1 t2 : E) (a : ℝ × ℝ) :
    ∃ b c, convert f (.ang a) s1 s2 t1 t2 = some b ∧ convert f (.ang b) s2 s1 t2 t1 = some c ∧ radec2eq c = radec2eq a := by
  obtain ⟨x1, h1⟩ := Option.ne_none_iff_exists'.1 h1
  obtain ⟨x2, h2⟩ := Option.ne_none_iff_exists'.1 h2
  unfold convert
  rw [h1, h2]
  refine ⟨_, _, rfl, rfl, ?_⟩
  rw [frameConv_vec]
  unfold Crd.angles
  simp only
  rw [frameConv_vec, mulVec_mulVec]
  have hc : (f.mat x2 t2)ᵀ * f.mat x2 t2 = 1 := mul_eq_one_comm.1 (f.rot x2 t2).1
  unfold trans
  rw [Matrix.mul_assoc, ← Matrix.mul_assoc (f.mat x2 t2)ᵀ, hc, Matrix.one_mul, (f.rot x1 t1).1, one_mulVec]

theorem unknown_raises {E : Type} (f : Frames E) (s1 s2 : List Char) (h : sysOf s1 = none ∨ sysOf s2 = none) (t1 t2 : E) :
    (∀ c, convert f c s1 s2 t1 t2 = none) ∧ convertM f s1 s2 t1 t2 = none := by
  have h1 : ∀ c, convert f c s1 s2 t1 t2 = none := by
    intro c
    unfold convert
    rcases h with h | h
    · rw [h]
    · rw [h]
      cases sysOf s1 <;> rfl
  refine ⟨h1, ?_⟩
  unfold convertM convCol
  rw [h1]
  rfl

/-- the names of the systems -/
def sysName : Sys → List Char
  | .ec => ['e', 'c']
  | .eq => ['e', 'q']
  | .ga => ['g', 'a']

/-- C92: a system whose first two letters are not one of `ec`, `eq`, `ga` raises, in `convert` as well as in `convert_m`. -/
theorem c92_unknown {E : Type} (f : Frames E) (s1 s2 : List Char)
    (h : (∀ a, (s1.take 2).map Char.toLower ≠ sysName a) ∨ ∀ a, (s2.take 2).map Char.toLower ≠ sysName a) (t1 t2 : E) :
    (∀ c, convert f c s1 s2 t1 t2 = none) ∧ convertM f s1 s2 t1 t2 = none := by
  have key : ∀ s : List Char, (∀ a, (s.take 2).map Char.toLower ≠ sysName a) → sysOf s = none := by
    intro s hs
    unfold sysOf
    split
    · rename_i e; exact absurd e (hs .ec)
    · rename_i e; exact absurd e (hs .eq)
    · rename_i e; exact absurd e (hs .ga)
    · rfl
  exact unknown_raises f s1 s2 (h.imp (key s1) (key s2)) t1 t2

example : ∀ a, ("horizon".toList.take 2).map Char.toLower ≠ sysName a := by
  intro a
  cases a <;> decide

/-- The note in the docstring of `convert_m` ("must reverse isys and osys") is wrong: the reversed matrix takes directions
where `convert` takes them only if the transformation is its own inverse. -/
theorem c92_note_violated {E : Type} (f : Frames E) (s1 s2 : List Char) (t1 t2 : E) (m m' : Mat) (h : convertM f s1 s2 t1 t2 = some m)
    (h' : convertM f s2 s1 t2 t1 = some m') :
    (∀ v c, IsUnitVec v → convert f (.vec v) s1 s2 t1 t2 = some c → m' *ᵥ v = radec2eq c) ↔ m * m = 1 := by
  have hs1 : sysOf s1 ≠ none := fun h0 => by rw [(unknown_raises f s1 s2 (Or.inl h0) t1 t2).2] at h; cases h
  have hs2 : sysOf s2 ≠ none := fun h0 => by rw [(unknown_raises f s1 s2 (Or.inr h0) t1 t2).2] at h; cases h
  obtain ⟨m1, e1, _, hv, _⟩ := c92_matrix f s1 s2 hs1 hs2 t1 t2
  rw [h] at e1
  cases e1
  obtain ⟨a12, _, _, a21, f1, _, _, f4, _, g1, g2, _⟩ := c92_chain f s1 s2 s1 hs1 hs2 hs1 t1 t2 t1
  rw [h] at f1
  rw [h'] at f4
  cases f1
  cases f4
  have hconv : ∀ v c, IsUnitVec v → convert f (.vec v) s1 s2 t1 t2 = some c → m *ᵥ v = radec2eq c := by
    intro v c hu hc
    obtain ⟨c', e, e'⟩ := hv v (unit_ne hu)
    rw [hc] at e
    cases e
    rw [e', len_unit hu, one_smul]
  constructor
  · intro hall
    have hmm : m' = m := by
      ext r l
      have h1 := matCol_one l
      obtain ⟨c, e, _⟩ := hv (matCol 1 l) (unit_ne h1)
      have h2 := hall _ _ h1 e
      rw [← hconv _ _ h1 e] at h2
      have : matCol (1 : Mat) l = Pi.single l 1 := by
        funext x
        simp [matCol, Matrix.one_apply, Pi.single_apply]
      rw [this, mulVec_single_one, mulVec_single_one] at h2
      exact congrFun h2 r
    rw [hmm] at g1
    exact g1
  · intro hm v c hu hc
    have : m' = m := by
      calc m' = m' * (m * m) := by rw [hm, Matrix.mul_one]
        _ = m := by rw [← Matrix.mul_assoc, g1, Matrix.one_mul]
    rw [this]
    exact hconv v c hu hc

/-! ## A case -/

/-- C92: the matrix takes the coordinates of any direction `w` in the first frame to its coordinates in the second one; of the name of
a system the first two letters count, in upper or lower case. -/
theorem c92_frames {E : Type} (f : Frames E) (a b : Sys) (s1 s2 : List Char) (h1 : (s1.take 2).map Char.toLower = sysName a)
    (h2 : (s2.take 2).map Char.toLower = sysName b) (t1 t2 : E) :
    ∃ m, convertM f s1 s2 t1 t2 = some m ∧ ∀ w : Vec, m *ᵥ (f.mat a t1 *ᵥ w) = f.mat b t2 *ᵥ w := by
  have key : ∀ (s : List Char) (c : Sys), (s.take 2).map Char.toLower = sysName c → sysOf s = some c := by
    intro s c h
    unfold sysOf
    rw [h]
    cases c <;> rfl
  refine ⟨_, convertM_eq f (key s1 a h1) (key s2 b h2) t1 t2, fun w => ?_⟩
  unfold trans
  rw [mulVec_mulVec, Matrix.mul_assoc, mul_eq_one_comm.1 (f.rot a t1).1, Matrix.mul_one]

example : ("GALACTIC".toList.take 2).map Char.toLower = sysName .ga ∧ ("equatorial".toList.take 2).map Char.toLower = sysName .eq := by decide

/-- ecliptic and galactic frames turned by right angles about `x` and `z` -/
def demoFrames : Frames Unit where
  mat s _ := match s with
    | .eq => 1
    | .ec => rot_m (π / 2) ![1, 0, 0]
    | .ga => rot_m (π / 2) ![0, 0, 1]
  rot s _ := by
    cases s
    · exact c19_rotation _ _ (by simp [IsUnitVec])
    · exact ⟨by simp, by simp⟩
    · exact c19_rotation _ _ (by simp [IsUnitVec])

example : sysOf "Galactic".toList = some .ga ∧ sysOf "EQ".toList = some .eq ∧ sysOf "bad".toList = none := by decide

/-- the reversed matrix is another one -/
example : ∃ m, convertM demoFrames "eq".toList "ec".toList () () = some m ∧ m * m ≠ 1 := by
  refine ⟨_, convertM_eq demoFrames (si := .eq) (so := .ec) (by decide) (by decide) () (), ?_⟩
  intro h
  have := congrFun (congrFun h 1) 1
  simp [trans, demoFrames, rot_m, Matrix.mul_apply, Fin.sum_univ_three] at this
  norm_num at this

end Verif.Coord
