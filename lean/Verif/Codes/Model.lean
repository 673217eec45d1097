/-!
# Baseline and polarisation codes

Model of the index codecs of aipy.

* `/repo/aipy/miriad.py` 16-32 (`str2pol`, `pol2str`), 291-304 (`bl2ij`, `ij2bl`)
* `/repo/aipy/pol.py` 17-23 (`ijp2blp`, `blp2ijp`)
* `/repo/aipy/_miriad/miriad_wrap.h` 13-15 (`GETI`, `GETJ`, `MKBL`)
* `/repo/aipy/_miriad/mir/uvio.c` 4893-4905 (`uvbasant_c`)

Python integers are `Int`; `//` and `%` by a positive constant are Lean's `/` and `%` on `Int`
(both are floor division there).
-/
namespace Verif.Codes

/-- `miriad.bl2ij`, miriad.py 291-299.  (`int(bl)` is the identity on the integers modelled.) -/
def bl2ij (bl : Int) : Int × Int :=
  if bl > 65536 then
    let bl := bl - 65536
    (bl / 2048 - 1, bl % 2048 - 1)
  else
    (bl / 256 - 1, bl % 256 - 1)

/-- `miriad.ij2bl`, miriad.py 301-304. -/
def ij2bl (i j : Int) : Int :=
  let (i, j) := if i > j then (j, i) else (i, j)
  if j + 1 < 256 then 256 * (i + 1) + (j + 1)
  else 2048 * (i + 1) + (j + 1) + 65536

/-- `miriad.str2pol`, miriad.py 16-29, in source order. -/
def str2polTable : List (String × Int) :=
  [("I", 1), ("Q", 2), ("U", 3), ("V", 4),
   ("rr", -1), ("ll", -2), ("rl", -3), ("lr", -4),
   ("xx", -5), ("yy", -6), ("xy", -7), ("yx", -8)]

/-- `str2pol[s]` (KeyError = `none`). -/
def str2pol (s : String) : Option Int := str2polTable.lookup s

/-- Building `pol2str` by the loop `for k in str2pol: pol2str[str2pol[k]] = k`, miriad.py 31-32:
a later assignment to the same code overwrites, so it is looked up first. -/
def pol2strTable : List (Int × String) :=
  str2polTable.foldl (fun acc kv => (kv.2, kv.1) :: acc) []

/-- `pol2str[c]`. -/
def pol2str (c : Int) : Option String := pol2strTable.lookup c

/-- `pol.ijp2blp`, pol.py 17-18. -/
def ijp2blp (i j pol : Int) : Int := ij2bl i j * 16 + (pol + 9)

/-- `pol.blp2ijp`, pol.py 20-23. -/
def blp2ijp (blp : Int) : Int × Int × Int :=
  let bl := blp / 16
  let pol := blp % 16 - 9
  let (i, j) := bl2ij bl
  (i, j, pol)

/-- Conversion of a non-negative C `int` to `float` (IEEE binary32, round to nearest, ties to
even): exact below `2^24`, otherwise the value is rounded to 24 significant bits.
Simplification: the value is returned as the natural number it denotes; overflow to infinity
(impossible for a 32-bit `int`) is not modelled. -/
def f32 (n : Nat) : Nat :=
  if n < 2 ^ 24 then n
  else
    let e := Nat.log2 n - 23
    let q := n / 2 ^ e
    let r := n % 2 ^ e
    let h := 2 ^ e / 2
    if r < h then q * 2 ^ e
    else if h < r then (q + 1) * 2 ^ e
    else if q % 2 = 0 then q * 2 ^ e else (q + 1) * 2 ^ e

/-- macro `MKBL(i,j)`, miriad_wrap.h 15, followed by the store into the 4-byte `baseline` variable
(uvio.c 2120-2129: `temp = *(preamble+..)`, a `float`).  No ordering of the antennas takes place. -/
def mkbl (i j : Nat) : Nat :=
  if i + 1 < 256 ∧ j + 1 < 256 then f32 (((i + 1) <<< 8) ||| (j + 1))
  else f32 ((i + 1) * 2048 + (j + 1 + 65536))

/-- macro `GETI(bl)`, miriad_wrap.h 13. -/
def geti (bl : Nat) : Int :=
  if bl > 65536 then ((bl : Int) - 65536).tdiv 2048 - 1 else ((bl >>> 8 : Nat) : Int) - 1

/-- macro `GETJ(bl)`, miriad_wrap.h 14. -/
def getj (bl : Nat) : Int :=
  if bl > 65536 then ((bl : Int) - 65536).tmod 2048 - 1 else ((bl &&& 255 : Nat) : Int) - 1

/-- `uvbasant_c`, uvio.c 4893-4905: decoding used by the selection code; antennas are counted from 1. -/
def uvbasant (baseline : Int) : Int × Int :=
  if baseline > 65536 then
    let i2 := baseline - 65536
    (i2.tdiv 2048, i2.tmod 2048)
  else (baseline.tdiv 256, baseline.tmod 256)

end Verif.Codes
