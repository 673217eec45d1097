import Mathlib.Data.Matrix.Basic
import Mathlib.LinearAlgebra.Matrix.Notation
import Mathlib.LinearAlgebra.Matrix.NonsingularInverse
import Mathlib.LinearAlgebra.CrossProduct
import Mathlib.Analysis.SpecialFunctions.Complex.Arg
/-!
# Coordinates: model of `/repo/aipy/coord.py`

Angles and coordinates are exact real numbers (no rounding, no signed zeros), arguments are single vectors (the
numpy broadcasting over arrays of vectors and the masked-array branches act element by element and are left out).
`np.arctan2(y, x)` is `Complex.arg (x + y i)`.
-/
noncomputable section
namespace Verif.Coord
open Real

abbrev Vec := Fin 3 → ℝ
abbrev Mat := Matrix (Fin 3) (Fin 3) ℝ

/-- `np.arctan2(y, x)` -/
def arctan2 (y x : ℝ) : ℝ := Complex.arg ⟨x, y⟩

/-- `rot_m`, coord.py 40-57 -/
def rot_m (ang : ℝ) (vec : Vec) : Mat :=
  let c := cos ang; let s := sin ang; let C := 1 - c
  let x := vec 0; let y := vec 1; let z := vec 2
  let xs := x * s; let ys := y * s; let zs := z * s
  let xC := x * C; let yC := y * C; let zC := z * C
  let xyC := x * yC; let yzC := y * zC; let zxC := z * xC
  !![x * xC + c, xyC - zs, zxC + ys;
     xyC + zs, y * yC + c, yzC - xs;
     zxC - ys, yzC + xs, z * zC + c]

/-- `xyz2thphi`, coord.py 59-71 -/
def xyz2thphi (v : Vec) : ℝ × ℝ :=
  (arctan2 (sqrt (v 0 ^ 2 + v 1 ^ 2)) (v 2), arctan2 (v 1) (v 0))

/-- `thphi2xyz`, coord.py 73-86 -/
def thphi2xyz (a : ℝ × ℝ) : Vec :=
  let r := sin a.1
  ![r * cos a.2, r * sin a.2, cos a.1]

/-- `eq2radec`, coord.py 88-96 -/
def eq2radec (v : Vec) : ℝ × ℝ :=
  let t := xyz2thphi v
  (if t.2 < 0 then t.2 + 2 * π else t.2, π / 2 - t.1)

/-- `radec2eq`, coord.py 98-102; argument `(ra, dec)` -/
def radec2eq (a : ℝ × ℝ) : Vec := thphi2xyz (π / 2 - a.2, a.1)

/-- `latlong2xyz`, coord.py 104-108; argument `(lat, long)` -/
def latlong2xyz (a : ℝ × ℝ) : Vec := radec2eq (a.2, a.1)

/-- `top2azalt`, coord.py 110-119 -/
def top2azalt (v : Vec) : ℝ × ℝ :=
  let t := xyz2thphi v
  let az := π / 2 - t.2
  (if az < 0 then az + 2 * π else az, π / 2 - t.1)

/-- `azalt2top`, coord.py 121-125; argument `(az, alt)` -/
def azalt2top (a : ℝ × ℝ) : Vec := thphi2xyz (π / 2 - a.2, π / 2 - a.1)

/-- `eq2top_m`, coord.py 127-137 -/
def eq2top_m (ha dec : ℝ) : Mat :=
  !![sin ha, cos ha, 0;
     -sin dec * cos ha, sin dec * sin ha, cos dec;
     cos dec * cos ha, -cos dec * sin ha, sin dec]

/-- `top2eq_m`, coord.py 139-146 (`np.linalg.inv` is the matrix inverse) -/
def top2eq_m (ha dec : ℝ) : Mat := (eq2top_m ha dec)⁻¹

end Verif.Coord
