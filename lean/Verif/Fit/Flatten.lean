import Mathlib.Order.Defs.LinearOrder
/-!
# Flattening parameter dictionaries

Model of `/repo/aipy/fit.py` 18-50 (`flatten_prms`, `reconstruct_prms`).

Python's nested dictionaries are the inductive type `PDict` below: a list of entries whose values are
numbers, lists of numbers or dictionaries.  Keys are any type with a linear order (`sorted(keys)`);
numbers are an arbitrary type (`None` and floats alike: the code never looks at them).
-/
namespace Verif.Fit

/-- a value of a parameter dictionary that is not a dictionary -/
inductive Leaf (V : Type) where
  | num (v : V)
  | vec (vs : List V)
deriving DecidableEq, Repr

/-- nested parameter dictionary -/
inductive PDict (K V : Type) where
  | nil
  | leaf (k : K) (v : Leaf V) (rest : PDict K V)
  | sub (k : K) (d : PDict K V) (rest : PDict K V)

/-- `key_list`: the same shape, with `(start, length)` in place of the values -/
inductive KDict (K : Type) where
  | nil
  | leaf (k : K) (i L : Nat) (rest : KDict K)
  | sub (k : K) (d : KDict K) (rest : KDict K)

variable {K V : Type}

/-- the entries in ascending key order: insertion of one leaf entry -/
def insLeaf [LinearOrder K] (k : K) (v : Leaf V) : PDict K V → PDict K V
  | .nil => .leaf k v .nil
  | .leaf k' v' r => if k ≤ k' then .leaf k v (.leaf k' v' r) else .leaf k' v' (insLeaf k v r)
  | .sub k' d' r => if k ≤ k' then .leaf k v (.sub k' d' r) else .sub k' d' (insLeaf k v r)

/-- insertion of one sub-dictionary entry -/
def insSub [LinearOrder K] (k : K) (d : PDict K V) : PDict K V → PDict K V
  | .nil => .sub k d .nil
  | .leaf k' v' r => if k ≤ k' then .sub k d (.leaf k' v' r) else .leaf k' v' (insSub k d r)
  | .sub k' d' r => if k ≤ k' then .sub k d (.sub k' d' r) else .sub k' d' (insSub k d r)

/-- `for k in sorted(keys)` at every level, fit.py 25-26: the dictionary with its entries in the order in
which `flatten_prms` visits them. -/
def sortD [LinearOrder K] : PDict K V → PDict K V
  | .nil => .nil
  | .leaf k v r => insLeaf k v (sortD r)
  | .sub k d r => insSub k (sortD d) (sortD r)

/-- the numbers of a value: `len` and `list` of a list, `TypeError` branch for a number, fit.py 31-36 -/
def Leaf.elems : Leaf V → List V
  | .num v => [v]
  | .vec vs => vs

/-- the loop of `flatten_prms`, fit.py 26-36, over entries in visiting order; `acc` is `prm_list`. -/
def flatLoop (acc : List V) : PDict K V → List V × KDict K
  | .nil => (acc, .nil)
  | .leaf k v r =>
    let res := flatLoop (acc ++ v.elems) r
    (res.1, .leaf k acc.length v.elems.length res.2)
  | .sub k d r =>
    let res1 := flatLoop acc d
    let res2 := flatLoop res1.1 r
    (res2.1, .sub k res1.2 res2.2)

/-- `flatten_prms(prms)`, fit.py 18-37 -/
def flattenPrms [LinearOrder K] (d : PDict K V) : List V × KDict K := flatLoop [] (sortD d)

/-- one entry of `reconstruct_prms`: `prm_list[i:i+L]` if `L > 1` else `prm_list[i]` (IndexError: `none`),
fit.py 47-49 -/
def readLeaf (ps : List V) (i L : Nat) : Option (Leaf V) :=
  if L > 1 then some (.vec ((ps.drop i).take L))
  else (ps[i]?).map .num

/-- `reconstruct_prms(prm_list, key_list)`, fit.py 39-50 -/
def reconstructPrms (ps : List V) : KDict K → Option (PDict K V)
  | .nil => some .nil
  | .leaf k i L r => do
    let v ← readLeaf ps i L
    let r' ← reconstructPrms ps r
    some (.leaf k v r')
  | .sub k d r => do
    let d' ← reconstructPrms ps d
    let r' ← reconstructPrms ps r
    some (.sub k d' r')

end Verif.Fit
