import Mathlib.Algebra.Order.Field.Basic
import Mathlib.Logic.Function.Basic
import Mathlib.Data.List.FinRange
import Mathlib.Data.Fin.Basic
import Mathlib.Data.Rat.Sqrt
import Mathlib.Algebra.Order.Ring.Rat

/-!
# The CLEAN loops of `aipy/_deconv/deconv.cpp` and the front end `aipy/deconv.py:clean`

The four C++ functions `clean_1d_r`, `clean_2d_r`, `clean_1d_c` and `clean_2d_c` are the same program
over a different index set (a cycle, or a product of two cycles: `wrap_n = (n + argmax) % dim`) and a
different kind of number (real or complex).  They are modelled once:

* `ι` is the index set, an additive group: `n + argmax` is the wrapped position;
* `K` is the field of pixel values and `R` the ordered field of scores (for the real functions they are
  the same);
* `order` is the order in which the loops visit the indices (`List.finRange` in 1-D, row major in 2-D);
* `mag2` is `val*val` or `valr*valr + vali*vali`;
* `isPos` is `val > 0` in the real functions; the complex ones ignore `pos_def`, so there it is
  constantly true;
* `sqrt` is the square root of the C library.

Arithmetic is exact (no rounding, no NaN): this is the one simplification.
-/

namespace Verif.Deconv

/-- What the C++ functions get as arguments apart from `res` and `mdl`
(`deconv.cpp` 55-57 and the other three headings). -/
structure Cfg (ι K R : Type) where
  order : List ι
  ker : ι → K
  /-- `IND(area,n,int)` as a truth value -/
  area : ι → Bool
  gain : K
  maxiter : Int
  tol : R
  stopIfDiv : Bool
  posDef : Bool
  mag2 : K → R
  isPos : K → Bool
  sqrt : R → R

variable {ι K R : Type} [AddCommGroup ι] [DecidableEq ι] [Field K] [Field R] [LinearOrder R]

/-- One step of the loop that looks for the largest kernel value inside the area.
`deconv.cpp` 69-78 (2d_r), 174-181 (1d_r), 269-279 (2d_c), 391-400 (1d_c). -/
def peakStep (c : Cfg ι K R) (s : R × K) (n : ι) : R × K :=
  if s.1 < c.mag2 (c.ker n) && c.area n then (c.mag2 (c.ker n), c.ker n) else s

/-- `q`: the reciprocal of the largest kernel value inside the area.  `deconv.cpp` 69-79, 174-182; in the
complex functions `qr /= mq; qi = -qi/mq` is the reciprocal of the complex number (269-281, 391-402). -/
def kerQ (c : Cfg ι K R) : K := 1 / (c.order.foldl (peakStep c) (0, 0)).2

/-- The variables the inner loop changes: `res`, `nscore`, `mmax`, `max`, `nargmax`. -/
structure Scan (ι K R : Type) where
  res : ι → K
  nscore : R
  mmax : R
  max : K
  nargmax : ι

/-- The body of the inner loop: subtract the shifted kernel at one position, add to the score, look for
the new maximum.  `deconv.cpp` 88-103 (2d_r), 191-202 (1d_r), 292-312 (2d_c), 413-429 (1d_c). -/
def scanStep (c : Cfg ι K R) (argmax : ι) (step : K) (s : Scan ι K R) (n : ι) : Scan ι K R :=
  let w := n + argmax
  let v := s.res w - c.ker n * step
  let res := Function.update s.res w v
  let m := c.mag2 v
  if s.mmax < m && (!c.posDef || c.isPos v) && c.area w then
    { res := res, nscore := s.nscore + m, mmax := m, max := v, nargmax := w }
  else { s with res := res, nscore := s.nscore + m }

/-- The variables of the outer loop.  `best` are the two malloc'ed buffers `best_res`, `best_mdl`. -/
structure St (ι K R : Type) where
  res : ι → K
  mdl : ι → K
  argmax : ι
  max : K
  score : R
  bestScore : R
  firstScore : R
  nscore : R
  bestRes : ι → K
  bestMdl : ι → K
  i : Nat

/-- The initial values.  `deconv.cpp` 58-68, 166-173, 259-268, 382-390.  The C code leaves `nscore` and the
buffers uninitialised; no theorem depends on the values chosen here. -/
def St.init (res mdl : ι → K) : St ι K R :=
  { res := res, mdl := mdl, argmax := 0, max := 0, score := -1, bestScore := -1, firstScore := -1,
    nscore := 0, bestRes := fun _ => 0, bestMdl := fun _ => 0, i := 0 }

/-- `step = gain * max * q`.  `deconv.cpp` 84, 187, 286-287, 407-408. -/
def stepOf (c : Cfg ι K R) (s : St ι K R) : K := c.gain * s.max * kerQ c

/-- `mdl[argmax] += step`.  `deconv.cpp` 85, 188, 288-289, 409-410. -/
def addComp (c : Cfg ι K R) (s : St ι K R) : ι → K :=
  Function.update s.mdl s.argmax (s.mdl s.argmax + stepOf c s)

/-- The inner loop with its initialisation (`nscore = 0; mmax = -1`; `max` and `nargmax` keep their
value).  At the start of every iteration `nargmax` equals `argmax` (both start at 0 and the iteration
ends with `argmax = nargmax`).  `deconv.cpp` 82-103, 185-202, 284-312, 405-429. -/
def scan (c : Cfg ι K R) (s : St ι K R) : Scan ι K R :=
  c.order.foldl (scanStep c s.argmax (stepOf c s))
    { res := s.res, nscore := 0, mmax := -1, max := s.max, nargmax := s.argmax }

/-- `sqrt(nscore / dim)`.  `deconv.cpp` 104, 203, 313, 430. -/
def rmsOf (c : Cfg ι K R) (sum : R) : R := c.sqrt (sum / (c.order.length : R))

/-- The loop that adds the kernel back: `res[wrap_n] += ker[n] * step`.
`deconv.cpp` 115-121, 213-216, 325-332, 441-445. -/
def undoRes (c : Cfg ι K R) (argmax : ι) (step : K) (res : ι → K) : ι → K :=
  c.order.foldl (fun r n => Function.update r (n + argmax) (r (n + argmax) + c.ker n * step)) res

/-- The loop that fills the two buffers (the buffers are flat copies of the two images).
`deconv.cpp` 124-133, 218-224, 334-347, 447-456. -/
def saveBest (c : Cfg ι K R) (argmax : ι) (step : K) (res mdl : ι → K) (b : (ι → K) × (ι → K)) :
    (ι → K) × (ι → K) :=
  let b' := c.order.foldl (fun (b : (ι → K) × (ι → K)) n =>
    (Function.update b.1 (n + argmax) (res (n + argmax) + c.ker n * step),
     Function.update b.2 n (mdl n))) b
  (b'.1, Function.update b'.2 argmax (b'.2 argmax - step))

/-- Which of the three exits was taken. -/
inductive Exit | divergence | tolerance | maxiter
  deriving DecidableEq, Repr

/-- What a finished call leaves behind: the two arrays, the return value and (not visible to the caller)
the exit. -/
structure Out (ι K : Type) where
  res : ι → K
  mdl : ι → K
  code : Int
  exit : Exit

/-- The score of the residual after the step.  `deconv.cpp` 104, 203, 313, 430. -/
def nscoreOf (c : Cfg ι K R) (s : St ι K R) : R := rmsOf c (scan c s).nscore

/-- `if (firstscore < 0) firstscore = nscore`.  `deconv.cpp` 105, 204, 314, 431. -/
def firstOf (c : Cfg ι K R) (s : St ι K R) : R :=
  if s.firstScore < 0 then nscoreOf c s else s.firstScore

/-- The assignments every pass that does not return makes, with the `i++` of the loop.
`deconv.cpp` 82-105 and 143-145, 185-204 and 234-236, 284-314 and 357-359, 405-431 and 467-469. -/
def advance (c : Cfg ι K R) (s : St ι K R) : St ι K R :=
  { s with res := (scan c s).res, mdl := addComp c s, argmax := (scan c s).nargmax,
           max := (scan c s).max, score := nscoreOf c s, firstScore := firstOf c s,
           nscore := nscoreOf c s, i := s.i + 1 }

/-- One pass through the outer loop, from `nscore = 0` to `i++`: either the function returns, or the
loop goes on.  `deconv.cpp` 81-145, 184-236, 283-359, 404-469.  A reset `i = 0` is followed by the `i++`
of the loop.
`clean_2d_r` tests `std::abs(score - nscore)`; the other three test `score - nscore`; in that branch
`nscore ≤ score`, so the two are the same. -/
def iter (c : Cfg ι K R) (s : St ι K R) : Out ι K ⊕ St ι K R :=
  if 0 < s.score ∧ s.score < nscoreOf c s then
    if c.stopIfDiv then
      .inl { res := undoRes c s.argmax (stepOf c s) (scan c s).res,
             mdl := Function.update (addComp c s) s.argmax (addComp c s s.argmax - stepOf c s),
             code := -(s.i : Int), exit := .divergence }
    else if s.bestScore < 0 ∨ s.score < s.bestScore then
      let b := saveBest c s.argmax (stepOf c s) (scan c s).res (addComp c s) (s.bestRes, s.bestMdl)
      .inr { advance c s with bestRes := b.1, bestMdl := b.2, bestScore := s.score, i := 0 + 1 }
    else .inr (advance c s)
  else if 0 < s.score ∧ (s.score - nscoreOf c s) / firstOf c s < c.tol then
    .inl { res := (scan c s).res, mdl := addComp c s, code := s.i, exit := .tolerance }
  else if c.stopIfDiv = false ∧ (s.bestScore < 0 ∨ nscoreOf c s < s.bestScore) then
    .inr { advance c s with i := 0 + 1 }
  else .inr (advance c s)

/-- What happens when the loop counter reaches `maxiter`.  `deconv.cpp` 146-156, 237-247, 360-371, 470-482. -/
def finish (c : Cfg ι K R) (s : St ι K R) : Out ι K :=
  if 0 < s.bestScore ∧ s.bestScore < s.nscore then
    { res := s.bestRes, mdl := s.bestMdl, code := c.maxiter, exit := .maxiter }
  else { res := s.res, mdl := s.mdl, code := c.maxiter, exit := .maxiter }

/-- One turn of `for (int i=0; i < maxiter; i++)`. -/
def turn (c : Cfg ι K R) (s : St ι K R) : Out ι K ⊕ St ι K R :=
  if (s.i : Int) < c.maxiter then iter c s else .inl (finish c s)

/-- The loop, watched for at most `fuel` turns: `none` means that it is still running. -/
def run (c : Cfg ι K R) : Nat → St ι K R → Option (Out ι K)
  | 0, _ => none
  | fuel + 1, s => match turn c s with
    | .inl o => some o
    | .inr s' => run c fuel s'

/-- The result of `deconv.clean`: model, residual and the entries `term`, `iter`, `success` of `info`.
`deconv.py` 54-64. -/
structure Info (ι K : Type) where
  mdl : ι → K
  res : ι → K
  term : Exit
  iterations : Int
  success : Bool

/-- `if iter < 0 ... elif iter < maxiter ... else ...`.  `deconv.py` 59-63. -/
def report (c : Cfg ι K R) (o : Out ι K) : Info ι K :=
  let success := decide (0 < o.code) && decide (o.code < c.maxiter)
  if o.code < 0 then ⟨o.mdl, o.res, .divergence, -o.code, success⟩
  else if o.code < c.maxiter then ⟨o.mdl, o.res, .tolerance, o.code, success⟩
  else ⟨o.mdl, o.res, .maxiter, o.code, success⟩

/-- `deconv.clean` once the initial residual is known: it starts from copies of the two arrays.
`deconv.py` 39-64.  The initial residual `im - ifft(fft(mdl)*fft(ker))` is an argument here; that this
is `im` minus the cyclic convolution is proved in `CleanFft` (C151). -/
def cleanPy (c : Cfg ι K R) (fuel : Nat) (res0 mdl0 : ι → K) : Option (Info ι K) :=
  (run c fuel (St.init (R := R) res0 mdl0)).map (report c)

/-- The 1-D index order: `for (int n=0; n < dim; n++)`. -/
def order1 (dim : Nat) : List (Fin dim) := List.finRange dim

/-- The 2-D index order: `for n1 ... for n2 ...`. -/
def order2 (dim1 dim2 : Nat) : List (Fin dim1 × Fin dim2) :=
  (List.finRange dim1).flatMap fun a => (List.finRange dim2).map fun b => (a, b)

end Verif.Deconv
