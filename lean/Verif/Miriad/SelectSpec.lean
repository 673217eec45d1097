import Verif.Miriad.SelectModel
/-!
# What a sequence of `select` calls means

Independent specification of record selection: conditions are collected in clauses; within a clause
conditions of different kinds are ANDed, conditions of one kind follow "last matching condition wins,
and with no match the opposite of the first condition"; clauses are combined left to right.
-/
namespace Verif.Miriad

/-- one selection condition: kind (0 = antennas), include/exclude, and which records it names -/
structure Cond where
  ty : Nat
  incl : Bool
  test : Rec → Bool

/-- does this group of conditions of one kind keep the record? -/
def groupKeeps (r : Rec) (g : List Cond) : Bool :=
  match g with
  | [] => true
  | first :: _ =>
    match g.reverse.find? (fun c => c.test r) with
    | some c => c.incl
    | none => !first.incl

/-- a clause of the selection: joined by AND (`true`) or OR, and its conditions -/
structure SpecClause where
  conj : Bool
  conds : List Cond

/-- a clause keeps a record iff every kind of condition keeps it -/
def SpecClause.Keeps (r : Rec) (c : SpecClause) : Prop :=
  ∀ t, groupKeeps r (c.conds.filter (fun x => decide (x.ty = t))) = true

/-- left to right combination -/
def SpecSelected (r : Rec) : List SpecClause → Prop :=
  fun cls => cls.foldl (fun (p : Prop) c => if c.conj then p ∧ c.Keeps r else p ∨ c.Keeps r) True

/-- does the unordered pair of antennas (1-based, 0 = any) name the record's baseline? -/
def namesBaseline (a b : Int) (r : Rec) : Bool :=
  (a == 0 && b == 0) ||
  (a == 0 && (b == r.i1 || b == r.i2)) ||
  (b == 0 && (a == r.i1 || a == r.i2)) ||
  (a == r.i1 && b == r.i2) || (a == r.i2 && b == r.i1)

/-- the condition a call stands for -/
def condOf : SelCall → Option Cond
  | .antennae a b incl => some ⟨0, incl, namesBaseline a b⟩
  | .auto incl => some ⟨0, incl, fun r => r.i1 == r.i2⟩
  | .oper ty test incl => some ⟨ty, incl, test⟩
  | _ => none

/-- add a condition to the last clause -/
def addCond (c : Cond) : List SpecClause → List SpecClause
  | [] => [⟨true, [c]⟩]
  | [l] => [⟨l.conj, l.conds ++ [c]⟩]
  | l :: m :: ls => l :: addCond c (m :: ls)

/-- the clauses built by a call -/
def specStep (cls : List SpecClause) (c : SelCall) : List SpecClause :=
  match c with
  | .clear => []
  | .conj => if cls.isEmpty then [] else cls ++ [⟨true, []⟩]
  | .disj => if cls.isEmpty then [] else cls ++ [⟨false, []⟩]
  | .antennae a b incl => addCond ⟨0, incl, namesBaseline a b⟩ cls
  | .auto incl => addCond ⟨0, incl, fun r => r.i1 == r.i2⟩ cls
  | .oper ty test incl => addCond ⟨ty, incl, test⟩ cls

def specClauses (cs : List SelCall) : List SpecClause := cs.foldl specStep []

/-- calls that do not raise and are not `dazim`/`delev` selections -/
def OkCall : SelCall → Prop
  | .antennae a b _ => 0 ≤ a ∧ a ≤ 2048 ∧ 0 ≤ b ∧ b ≤ 2048
  | .oper ty _ _ => 1 ≤ ty ∧ ty ≤ 19
  | _ => True

/-- records as written by this library with ordered antennas -/
def OrderedRec (r : Rec) : Prop := 1 ≤ r.i1 ∧ r.i1 ≤ r.i2 ∧ r.i2 ≤ 2048

end Verif.Miriad
