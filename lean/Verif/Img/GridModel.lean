import Mathlib.Analysis.SpecialFunctions.Exp
import Mathlib.Analysis.Complex.Exponential
import Mathlib.Algebra.Order.Round
import Mathlib.Data.Complex.BigOperators
/-!
# Gridding: model of `/repo/aipy/_dsp/grid/grid.c` 41-97 and `/repo/aipy/img.py` 80-190

Exact real positions and weights (the C code uses `float`), contiguous buffers (the wrappers do not check it).  A buffer
is a memory of complex cells; a read or write beyond the `buflen1*buflen2` cells, and a division by a zero dimension, are
`none` (undefined behaviour in C).
-/
noncomputable section
namespace Verif.Img

/-- `j % n; jmod < 0 ? jmod + n : jmod`, grid.c 50-51 -/
def cmod (j : Int) (n : Nat) : Nat := (if j.tmod n < 0 then j.tmod n + n else j.tmod n).toNat

/-- the loop `for (j = floorf(x-footprint/2); j <= ceilf(x+footprint/2); j++)`, grid.c 49; `h` is `footprint/2` -/
def window (x : ℝ) (h : Nat) : List Int :=
  (List.range (⌈x + h⌉ - ⌊x - h⌋ + 1).toNat).map (fun (k : Nat) => ⌊x - h⌋ + (k : Int))

/-- `0.63661977236758149 * exp(-2*(fwgt1+fwgt2))`, grid.c 52-59 -/
def wgt (a b : ℝ) : ℝ := 63661977236758149 / 100000000000000000 * Real.exp (-2 * (a * a + b * b))

/-- the cells touched by a sample at (x1, x2): address and weight, grid.c 49-62 -/
def cells (n1 n2 h : Nat) (x : ℝ × ℝ) : List (Nat × ℝ) :=
  (window x.1 h).flatMap (fun j1 => (window x.2 h).map (fun j2 =>
    (cmod j1 n1 * n1 + cmod j2 n2, wgt (x.1 - j1) (x.2 - j2))))

/-- `buf[...] += fwgt2 * fdat`, grid.c 61-62 -/
def store (size : Nat) (d : ℂ) (mem : Nat → ℂ) (c : Nat × ℝ) : Option (Nat → ℂ) :=
  if c.1 < size then some (fun p => if p = c.1 then mem p + (c.2 : ℂ) * d else mem p) else none

/-- one sample -/
def gridSample (n1 n2 h : Nat) (mem : Nat → ℂ) (s : (ℝ × ℝ) × ℂ) : Option (Nat → ℂ) :=
  if n1 = 0 ∨ n2 = 0 then none else (cells n1 n2 h s.1).foldlM (store (n1 * n2) s.2) mem

/-- `grid2D_c`, grid.c 41-67 -/
def grid2D (n1 n2 h : Nat) (mem : Nat → ℂ) (samples : List ((ℝ × ℝ) × ℂ)) : Option (Nat → ℂ) :=
  samples.foldlM (gridSample n1 n2 h) mem

/-- the accumulation loop of `degrid2D_c`: running data and total weight, grid.c 77-91 -/
def fetch (size : Nat) (mem : Nat → ℂ) (acc : ℂ × ℝ) (c : Nat × ℝ) : Option (ℂ × ℝ) :=
  if c.1 < size then some (acc.1 + (c.2 : ℂ) * mem c.1, acc.2 + c.2) else none

/-- `degrid2D_c` for one sample, grid.c 69-97; `d0` is what the output array held before -/
def degridAt (n1 n2 h : Nat) (mem : Nat → ℂ) (x : ℝ × ℝ) (d0 : ℂ) : Option ℂ :=
  if n1 = 0 ∨ n2 = 0 then none else
  ((cells n1 n2 h x).foldlM (fetch (n1 * n2) mem) (d0, 0)).map (fun r => r.1 / (r.2 : ℂ))

/-- an `Img`: dimension of the square matrices, resolution, uv matrix and the beam matrices, img.py 83-95 -/
structure Image where
  dim : Nat
  res : ℝ
  uv : Nat → ℂ
  bm : List (Nat → ℂ)

/-- `Img.__init__`, img.py 83-95; `dim` is `round(size/res)` -/
def Image.new (dim : Nat) (res : ℝ) (mf : Nat) : Image := ⟨dim, res, fun _ => 0, List.replicate (mf + 1) (fun _ => 0)⟩

/-- `get_indices`, img.py 105-112 (USEDSP) -/
def getIndices (res : ℝ) (uv : ℝ × ℝ) : ℝ × ℝ := (-uv.2 / res, uv.1 / res)

/-- grid one weight plane per beam matrix, img.py 152-157 -/
def putBeams (dim : Nat) (xs : List (ℝ × ℝ)) : List (Nat → ℂ) → List (List ℂ) → Option (List (Nat → ℂ))
  | b :: bs, w :: ws => do
    let b' ← grid2D dim dim 3 b (xs.zip w)
    let r ← putBeams dim xs bs ws
    some (b' :: r)
  | [], _ => some []
  | _ :: _, [] => none

/-- `Img.put` (apply=True, wgts given per beam), img.py 119-158; `none` also for the failed assertion on the number of
weights and for arrays of different lengths -/
def Image.put (g : Image) (uv : List (ℝ × ℝ)) (data : List ℂ) (wgts : List (List ℂ)) : Option Image := do
  if wgts.length ≠ g.bm.length ∨ uv.length ≠ data.length ∨ wgts.any (fun w => w.length ≠ uv.length) then none else
  let xs := uv.map (getIndices g.res)
  let m ← grid2D g.dim g.dim 3 g.uv (xs.zip data)
  let b ← putBeams g.dim xs g.bm wgts
  some { g with uv := m, bm := b }

/-- the indices `Img.get` reads, img.py 171-172: `u,v = self.get_indices(-u,v); u,v = -v,u` -/
def getReadIndices (res : ℝ) (uv : ℝ × ℝ) : ℝ × ℝ :=
  (-(getIndices res (-uv.1, uv.2)).2, (getIndices res (-uv.1, uv.2)).1)

/-- `Img.get` for one (u,v), img.py 159-177; `none` stands for nan (0/0) as well -/
def Image.get (g : Image) (uv : ℝ × ℝ) : Option ℂ :=
  match g.bm with
  | [] => none
  | bm :: _ => do
    let x := getReadIndices g.res uv
    let a ← degridAt g.dim g.dim 3 g.uv x 0
    let b ← degridAt g.dim g.dim 3 bm x 0
    if b = 0 then none else some (a / b)

/-- `append_hermitian`, img.py 178-190 -/
def appendHermitian (uvw : List (ℝ × ℝ × ℝ)) (data : List ℂ) : List (ℝ × ℝ × ℝ) × List ℂ :=
  (uvw ++ uvw.map (fun p => (-p.1, -p.2.1, -p.2.2)), data ++ data.map (starRingEnd ℂ))

/-- the weights part of `append_hermitian`, img.py 187-189 -/
def appendWgts (wgts : List (List ℂ)) : List (List ℂ) := wgts.map (fun w => w ++ w)

end Verif.Img
