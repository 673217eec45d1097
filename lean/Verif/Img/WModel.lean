import Verif.Img.GridModel
import Mathlib.Analysis.SpecialFunctions.Sqrt
/-!
# W projection: model of `/repo/aipy/img.py` 224-304 (`ImgW.put`, `ImgW.get`)

Exact arithmetic, one beam matrix (`mf_order=0`).  The convolution `ifft2(fft2(m) * conv_invker(w))` (img.py 265-270,
286-289, 310-325) is a parameter `conv w m`; `np.round` is a parameter `rnd`.  `np.argsort` is not stable, so any ordering
that sorts is allowed: it is an argument `order`, constrained in the theorems.
-/
noncomputable section
namespace Verif.Img

/-- one sample: (u, v, w), value, weight -/
structure Samp where
  u : ℝ
  v : ℝ
  w : ℝ
  d : ℂ
  wt : ℂ

/-- `np.sqrt(np.abs(w)) * np.sign(w)`, img.py 252, 277 -/
def ssqrt (w : ℝ) : ℝ := √|w| * (if 0 < w then 1 else if w < 0 then -1 else 0)

/-- `searchsorted(x)` (side left) on an ascending array: the number of leading elements below x -/
def searchLeft (s : List ℝ) (x : ℝ) : Nat := (s.takeWhile (fun y => decide (y < x))).length

/-- the `while True` loop, img.py 253-272 and 278-300: the list of (i, j) it visits, starting at `i`, with at most `fuel`
iterations; `none` when the index is out of range or the loop has not ended by then -/
def batches (s : List ℝ) (wres : ℝ) : Nat → Nat → Option (List (Nat × Nat))
  | 0, _ => none
  | fuel + 1, i =>
    match s[i]? with
    | none => none
    | some si =>
      if s.length ≤ searchLeft s (si + wres) then some [(i, searchLeft s (si + wres))]
      else (batches s wres fuel (searchLeft s (si + wres))).map (fun r => (i, searchLeft s (si + wres)) :: r)

/-- `x.take(order)` for indices in range -/
def takeIdx {α : Type} (l : List α) (order : List Nat) : List α := order.filterMap (fun k => l[k]?)

/-- `x[i:j]` -/
def slice {α : Type} (l : List α) (ij : Nat × Nat) : List α := (l.drop ij.1).take (ij.2 - ij.1)

/-- the chunks of samples, img.py 246-263 / 275-298 -/
def chunks (wres : ℝ) (order : List Nat) (samples : List Samp) : Option (List (List Samp)) :=
  let sorted := takeIdx samples order
  (batches (sorted.map (fun p => ssqrt p.w)) wres sorted.length 0).map (fun bs => bs.map (slice sorted))

/-- `np.average(w[i:j])` -/
def avgW (b : List Samp) : ℝ := (b.map (fun p => p.w)).sum / b.length

/-- an `ImgW` with its cache of projected planes -/
structure WImage where
  dim : Nat
  res : ℝ
  wres : ℝ
  uv : Nat → ℂ
  bm : Nat → ℂ
  wcache : List (ℝ × ((Nat → ℂ) × (Nat → ℂ)))

/-- one turn of the loop of `put`: grid the chunk on empty planes, convolve, add; img.py 262-270 -/
def putChunk (conv : ℝ → (Nat → ℂ) → (Nat → ℂ)) (g : WImage) (b : List Samp) : Option WImage := do
  let m ← grid2D g.dim g.dim 3 (fun _ => 0) (b.map (fun p => (getIndices g.res (p.u, p.v), p.d)))
  let q ← grid2D g.dim g.dim 3 (fun _ => 0) (b.map (fun p => (getIndices g.res (p.u, p.v), p.wt)))
  some { g with uv := fun k => g.uv k + conv (avgW b) m k, bm := fun k => g.bm k + conv (avgW b) q k }

/-- `ImgW.put`, img.py 233-272 -/
def WImage.put (conv : ℝ → (Nat → ℂ) → (Nat → ℂ)) (g : WImage) (order : List Nat) (samples : List Samp) : Option WImage :=
  if samples = [] then some g else
  match chunks g.wres order samples with
  | none => none
  | some cs => cs.foldlM (putChunk conv) g

/-- `Img.get(uvw, uv, bm)` for one sample on given planes, img.py 156-177; `none` is nan -/
def readPlane (dim : Nat) (res : ℝ) (pl : (Nat → ℂ) × (Nat → ℂ)) (p : Samp) : Option ℂ :=
  Image.get ⟨dim, res, pl.1, [pl.2]⟩ (p.u, p.v)

/-- `id = np.round(np.average(sqrt_w[i:j]) / wres) * wres`, img.py 283 -/
def planeId (rnd : ℝ → ℤ) (wres : ℝ) (b : List Samp) : ℝ :=
  rnd ((b.map (fun p => ssqrt p.w)).sum / b.length / wres) * wres

open Classical in
/-- `id in self.wcache` and the plane found there -/
def lookupPlane (id : ℝ) : List (ℝ × ((Nat → ℂ) × (Nat → ℂ))) → Option ((Nat → ℂ) × (Nat → ℂ))
  | [] => none
  | (k, pl) :: r => if k = id then some pl else lookupPlane id r

/-- one turn of the loop of `get`, img.py 281-300 -/
def getChunk (conv : ℝ → (Nat → ℂ) → (Nat → ℂ)) (rnd : ℝ → ℤ) (st : WImage × List (Option ℂ)) (b : List Samp) :
    WImage × List (Option ℂ) :=
  match lookupPlane (planeId rnd st.1.wres b) st.1.wcache with
  | some pl => (st.1, st.2 ++ b.map (readPlane st.1.dim st.1.res pl))
  | none =>
    ({ st.1 with wcache := (planeId rnd st.1.wres b, (conv (-avgW b) st.1.uv, conv (-avgW b) st.1.bm)) :: st.1.wcache },
      st.2 ++ b.map (readPlane st.1.dim st.1.res (conv (-avgW b) st.1.uv, conv (-avgW b) st.1.bm)))

/-- `ImgW.get`, img.py 273-304: the new state and the values; `deorder` is `argsort(order)`.  With fewer than two samples
`squeeze` makes the arrays 0-dimensional (or they are empty) and indexing them raises (`none`). -/
def WImage.get (conv : ℝ → (Nat → ℂ) → (Nat → ℂ)) (rnd : ℝ → ℤ) (g : WImage) (order deorder : List Nat)
    (samples : List Samp) : Option (WImage × List (Option ℂ)) :=
  if samples.length < 2 then none else
  match chunks g.wres order samples with
  | none => none
  | some cs => some ((cs.foldl (getChunk conv rnd) (g, [])).1, takeIdx (cs.foldl (getChunk conv rnd) (g, [])).2 deorder)

end Verif.Img
