import Verif.Mir.UvSelectC79
import Mathlib.Data.Real.Basic
import Mathlib.Tactic.Linarith
import Mathlib.Tactic.Ring
import Mathlib.Tactic.NormNum

/-!
# Selection by amplitude (C131)

`uv.select('amplitude', lo, hi, include)` does not choose records: it flags the channels of those that are returned whose amplitude is outside
(or, with `include=0`, inside) the interval.  `uvselect_c` keeps the interval in the last clause of the selection (uvio.c 2461-2471),
`uvread_select` notes the interval of the clauses that select a record (2867, 3518-3526), and `uvread_flags` applies it (4362-4402).  The rest
is the reader of C79.

Simplified: floats are real numbers, rounded by a function of which only a bound of its relative error is assumed (so exponents are
unlimited, and there are no infinities and NaNs); each operation is rounded (no fused operations).  `plscale` is 1: aipy does not ask for
planet scaling.
-/
noncomputable section

namespace Verif.Mir.UvAmp

open Verif.Mir.Uv
open Verif.Mir.UvSel
open Verif.Mir.Hio (Byte)
open Verif.Mir.Mask (Mask)
open Verif.Miriad (SelCall Clause newClause uvselect uvreadSelect clauseDiscard SpecSelected SpecClause specStep OkCall OrderedRec Cond
  addCond RelList Rel)

/-! ## Model -/

/-- `AMP`, uvio.c 425-428 -/
structure Amp where
  discard : Bool
  lo : ℝ
  hi : ℝ

/-- the numbers that bits of a `float` stand for, and rounding to a `float` -/
structure Env where
  num : Nat → ℝ
  rnd : ℝ → ℝ

/-- the calls of `select` -/
inductive ACall
  | amp (lo hi : ℝ) (incl : Bool)
  | call (c : Call)

/-- the selection of a file: that of C79 and `amp` of each clause -/
structure ASel where
  sel : Sel
  amps : List (Option Amp)

/-- a file that is opened -/
def noASel : ASel := ⟨noSel, []⟩

/-- the interval in the last clause, which is made if there is none, uvio.c 2309-2318, 2463-2471; `none` is a fatal error -/
def setAmp (a : Amp) : List (Option Amp) → Option (List (Option Amp))
  | [] => some [some a]
  | [x] => if x.isSome then none else some [some a]
  | x :: y :: l => (setAmp a (y :: l)).map fun l' => x :: l'

/-- the clauses another call makes have none, uvio.c 2311, 2320-2332 -/
def ampStep (am : List (Option Amp)) : Call → List (Option Amp)
  | .other .clear => []
  | .other .conj => if am.isEmpty then [] else am ++ [none]
  | .other .disj => if am.isEmpty then [] else am ++ [none]
  | _ => if am.isEmpty then [none] else am

open Classical in
/-- `uvselect_c`, uvio.c 2259-2526; `none` is a fatal error -/
def aselect (E : Env) (s : ASel) : ACall → Option ASel
  | .amp lo hi incl =>
    if lo < 0 ∨ hi ≤ lo then none
    else (setAmp ⟨!incl, E.rnd lo, E.rnd hi⟩ s.amps).map fun am =>
      ⟨{ s.sel with
          clauses := if s.sel.clauses.isEmpty then [newClause true] else s.sel.clauses
          vis := if s.sel.vis.isEmpty then [[]] else s.sel.vis
          init := false }, am⟩
  | .call c => (select s.sel c).map fun sel => ⟨sel, ampStep s.amps c⟩

def aselectAll (E : Env) (s : ASel) (cs : List ACall) : Option ASel := cs.foldlM (aselect E) s

/-- the loop of `uvread_select`, uvio.c 3160-3529: is the record selected, and what does `uv->amp` point to; `none` is a fatal error -/
def active (r : Miriad.Rec) : List (Clause × Option Amp) → Bool → Option Amp → Option (Bool × Option Amp)
  | [], p, a => some (p, a)
  | c :: l, p, a =>
    if (!p && c.1.conj) || (p && !c.1.conj) then active r l p a
    else if clauseDiscard r c.1 then active r l false a
    else if a.isSome && c.2.isSome then none
    else active r l true (if c.2.isSome then c.2 else a)

/-- uvio.c 2867-2870 -/
def achosen (S : SelEnv) (r : Reader) (sel : Sel) (am : List (Option Amp)) : Option (Bool × Option Amp) :=
  if sel.clauses = [] then some (true, none) else (seeRec S r).bind fun x => active x (sel.clauses.zip am) true none

/-- the real and the imaginary part of channel `k`, uvio.c 4379-4380, 4393-4395 -/
def sample (E : Env) (d : Data) (k : Nat) : ℝ × ℝ :=
  match d with
  | .plain b => (E.num ((words b).getD (2 * k) 0), E.num ((words b).getD (2 * k + 1) 0))
  | .scaled t b => (E.rnd (E.num t * toInt32 ((words b).getD (2 * k) 0)), E.rnd (E.num t * toInt32 ((words b).getD (2 * k + 1) 0)))

open Classical in
/-- `amplo2 <= amp2 && amp2 <= amphi2`, uvio.c 4369-4372, 4380-4381, 4396-4397 -/
def within (E : Env) (a : Amp) (z : ℝ × ℝ) : Bool :=
  decide (E.rnd (a.lo * a.lo) ≤ E.rnd (E.rnd (z.1 * z.1) + E.rnd (z.2 * z.2)) ∧
    E.rnd (E.rnd (z.1 * z.1) + E.rnd (z.2 * z.2)) ≤ E.rnd (a.hi * a.hi))

/-- the flags after `uvread_flags`, uvio.c 4362-4402; true is good -/
def ampFlags (E : Env) (a : Option Amp) (d : Data) (flags : List Bool) : List Bool :=
  match a with
  | none => flags
  | some a => flags.mapIdx fun k g => if within E a (sample E d k) then g && !a.discard else g && a.discard

/-- a record that is returned -/
def atake (E : Env) (a : Option Amp) (nsize : Nat) (v : VisR) (sel : Sel) : SRead :=
  match take nsize v sel with
  | .ok st out => .ok st { out with flags := ampFlags E a out.data out.flags }
  | x => x

/-- the loop of `uvread_c`, uvio.c 2850-2873 -/
def aloop (S : SelEnv) (E : Env) (am : List (Option Amp)) (f : Nat → Byte) (size nsize : Nat) : Nat → SelR → SRead
  | 0, _ => .bad
  | fuel + 1, s =>
    if 0 < s.sel.maxvis ∧ s.sel.maxvis < s.v.r.callno then .eof s
    else
      match findCorr f size (s.v.r.maxOffset - s.v.r.offset + 1) s.v.r with
      | .eof r => .eof { s with v := { s.v with r := r } }
      | .bad => .bad
      | .ok r =>
        match achosen S r (initSel s.sel) am with
        | none => .bad
        | some (true, a) => atake E a nsize { s.v with r := r } (initSel s.sel)
        | some (false, _) => aloop S E am f size nsize fuel ⟨⟨r, s.v.flagOff + channels r, s.v.m⟩, initSel s.sel⟩

/-- `uvread_c`, uvio.c 2830-2885 -/
def aread (S : SelEnv) (E : Env) (am : List (Option Amp)) (f : Nat → Byte) (size nsize : Nat) (s : SelR) : SRead :=
  aloop S E am f size nsize (s.v.r.maxOffset - s.v.r.offset + 1)
    ⟨{ s.v with r := { s.v.r with mark := s.v.r.callno + 1, copy := false } }, s.sel⟩

/-- `UV.all`, miriad.py 226-232 -/
def areadAll (S : SelEnv) (E : Env) (am : List (Option Amp)) (f : Nat → Byte) (size nsize : Nat) : Nat → SelR → Option (List (VisR × Out))
  | 0, _ => none
  | n + 1, s =>
    match aread S E am f size nsize s with
    | .eof _ => some []
    | .bad => none
    | .ok s' out => (areadAll S E am f size nsize n s').map fun l => (s'.v, out) :: l

/-! ## Specification -/

/-- an interval of amplitudes: keep those inside, or those outside -/
structure Range where
  incl : Bool
  lo : ℝ
  hi : ℝ

/-- a clause of C07 and the interval in it -/
abbrev ASpec := SpecClause × Option Range

/-- an interval belongs to the last clause; without any it makes one, which selects everything -/
def attach (g : Range) : List ASpec → List ASpec
  | [] => [(⟨true, []⟩, some g)]
  | [x] => [(x.1, some g)]
  | x :: y :: l => x :: attach g (y :: l)

/-- clauses with the intervals they have; new ones have none -/
def pad : List SpecClause → List (Option Range) → List ASpec
  | [], _ => []
  | x :: xs, [] => (x, none) :: pad xs []
  | x :: xs, g :: gs => (x, g) :: pad xs gs

/-- what a call makes of the clauses -/
def astep (sp : List ASpec) : ACall → List ASpec
  | .amp lo hi incl => attach ⟨incl, lo, hi⟩ sp
  | .call c => pad (specStep (sp.map (·.1)) c.sel) (sp.map (·.2))

/-- the clauses that calls make -/
def aspec (cs : List ACall) : List ASpec := cs.foldl astep []

/-- this clause, behind the clauses `pre`, adds the record to those or leaves it there -/
def Applies (r : Miriad.Rec) (pre : List SpecClause) (c : SpecClause) : Prop :=
  c.Keeps r ∧ (if c.conj then SpecSelected r pre else ¬ SpecSelected r pre)

/-- the interval that is to be applied to a record -/
def Limited (r : Miriad.Rec) (sp : List ASpec) : Option Range → Prop
  | some g => ∃ pre c post, sp = pre ++ (c, some g) :: post ∧ Applies r (pre.map (·.1)) c
  | none => ∀ pre c g post, sp = pre ++ (c, some g) :: post → ¬ Applies r (pre.map (·.1)) c

/-- the words of each channel -/
def pairs : List Nat → List (Nat × Nat)
  | a :: b :: l => (a, b) :: pairs l
  | [a] => [(a, 0)]
  | [] => []

/-- the real and the imaginary part of channel `k` as they are returned: floats, or 16-bit integers times the scale -/
def returned (E : Env) : Data → Nat → ℝ × ℝ
  | .plain b, k => ((pairs (words b)).getD k (0, 0)).map E.num E.num
  | .scaled t b, k => ((pairs (words b)).getD k (0, 0)).map (fun n => E.rnd (E.num t * toInt32 n)) fun n => E.rnd (E.num t * toInt32 n)

/-- the square of the amplitude of channel `k` as it is returned -/
def power (E : Env) (d : Data) (k : Nat) : ℝ := (returned E d k).1 ^ 2 + (returned E d k).2 ^ 2

/-- a flag (true is good) before and after: within the errors `ε` of rounding at the ends of the interval -/
def Clipped (ε : ℝ) (lim : Option Range) (pow : ℝ) (g g' : Bool) : Prop :=
  match lim with
  | none => g' = g
  | some r => (g = false → g' = false) ∧
    (r.lo ^ 2 * (1 + ε) ^ 3 ≤ pow * (1 - ε) ^ 2 → pow * (1 + ε) ^ 2 ≤ r.hi ^ 2 * (1 - ε) ^ 3 → g' = (g && r.incl)) ∧
    (pow * (1 + ε) ^ 2 < r.lo ^ 2 * (1 - ε) ^ 3 ∨ r.hi ^ 2 * (1 + ε) ^ 3 < pow * (1 - ε) ^ 2 → g' = (g && !r.incl))

/-- calls that do not raise, C79 -/
def OkA : ACall → Prop
  | .amp lo hi _ => 0 ≤ lo ∧ lo < hi
  | .call c => OkSel c

def ACall.isAmp : ACall → Bool
  | .amp _ _ _ => true
  | .call _ => false

/-- what is returned for a record: all that C79 says, but for the flags `fl` that were written -/
structure AReturned (E : Env) (ε : ℝ) (S : SelEnv) (o : FpOps) (q : Quant) (mode : Ty) (s : VisW) (ant : Block → Nat × Nat) (sp : List ASpec)
    (p : VisR × Out) (r : Block × Nat) : Prop where
  rest : ∃ fl, Returned o q mode s (p.1, { p.2 with flags := fl }) r ∧ fl.length = p.2.flags.length ∧
    ∃ lim, Limited (recAt S s (ant r.1) r.2) sp lim ∧
      ∀ (k : Nat) (g g' : Bool), fl[k]? = some g → p.2.flags[k]? = some g' → Clipped ε lim (power E p.2.data k) g g'

/-- floats are rounded with a relative error of at most `ε` -/
structure Rounds (E : Env) (ε : ℝ) : Prop where
  nonneg : 0 ≤ ε
  small : ε < 1
  near : ∀ x, 0 ≤ x → x * (1 - ε) ≤ E.rnd x ∧ E.rnd x ≤ x * (1 + ε)

/-! ## Rounding -/

theorem rnd_nonneg {E : Env} {ε : ℝ} (h : Rounds E ε) {x : ℝ} (hx : 0 ≤ x) : 0 ≤ E.rnd x :=
  le_trans (mul_nonneg hx (by linarith [h.small])) (h.near x hx).1

theorem limit_near {E : Env} {ε : ℝ} (h : Rounds E ε) {x : ℝ} (hx : 0 ≤ x) :
    x ^ 2 * (1 - ε) ^ 3 ≤ E.rnd (E.rnd x * E.rnd x) ∧ E.rnd (E.rnd x * E.rnd x) ≤ x ^ 2 * (1 + ε) ^ 3 := by
  have h0 := h.nonneg
  have h1 := h.small
  obtain ⟨a1, a2⟩ := h.near x hx
  have a0 := rnd_nonneg h hx
  have hp : 0 ≤ x * (1 - ε) := mul_nonneg hx (by linarith)
  obtain ⟨b1, b2⟩ := h.near (E.rnd x * E.rnd x) (mul_nonneg a0 a0)
  have c1 : x * (1 - ε) * (x * (1 - ε)) ≤ E.rnd x * E.rnd x := mul_self_le_mul_self hp a1
  have c2 : E.rnd x * E.rnd x ≤ x * (1 + ε) * (x * (1 + ε)) := mul_self_le_mul_self a0 a2
  constructor
  · calc x ^ 2 * (1 - ε) ^ 3 = x * (1 - ε) * (x * (1 - ε)) * (1 - ε) := by ring
      _ ≤ E.rnd x * E.rnd x * (1 - ε) := mul_le_mul_of_nonneg_right c1 (by linarith)
      _ ≤ _ := b1
  · calc E.rnd (E.rnd x * E.rnd x) ≤ E.rnd x * E.rnd x * (1 + ε) := b2
      _ ≤ x * (1 + ε) * (x * (1 + ε)) * (1 + ε) := mul_le_mul_of_nonneg_right c2 (by linarith)
      _ = _ := by ring

theorem power_near {E : Env} {ε : ℝ} (h : Rounds E ε) (x y : ℝ) :
    (x ^ 2 + y ^ 2) * (1 - ε) ^ 2 ≤ E.rnd (E.rnd (x * x) + E.rnd (y * y)) ∧
    E.rnd (E.rnd (x * x) + E.rnd (y * y)) ≤ (x ^ 2 + y ^ 2) * (1 + ε) ^ 2 := by
  have h0 := h.nonneg
  have h1 := h.small
  have hx := mul_self_nonneg x
  have hy := mul_self_nonneg y
  obtain ⟨a1, a2⟩ := h.near _ hx
  obtain ⟨b1, b2⟩ := h.near _ hy
  have c := add_nonneg (rnd_nonneg h hx) (rnd_nonneg h hy)
  obtain ⟨d1, d2⟩ := h.near _ c
  constructor
  · calc (x ^ 2 + y ^ 2) * (1 - ε) ^ 2 = (x * x * (1 - ε) + y * y * (1 - ε)) * (1 - ε) := by ring
      _ ≤ (E.rnd (x * x) + E.rnd (y * y)) * (1 - ε) := mul_le_mul_of_nonneg_right (by linarith) (by linarith)
      _ ≤ _ := d1
  · calc E.rnd (E.rnd (x * x) + E.rnd (y * y)) ≤ (E.rnd (x * x) + E.rnd (y * y)) * (1 + ε) := d2
      _ ≤ (x * x * (1 + ε) + y * y * (1 + ε)) * (1 + ε) := mul_le_mul_of_nonneg_right (by linarith) (by linarith)
      _ = _ := by ring

/-- the interval of a clause as it is kept -/
def toAmp (E : Env) (g : Range) : Amp := ⟨!g.incl, E.rnd g.lo, E.rnd g.hi⟩

theorem pairs_getD : ∀ (l : List Nat) (k : Nat), (pairs l).getD k (0, 0) = (l.getD (2 * k) 0, l.getD (2 * k + 1) 0)
  | [], k => by simp [pairs]
  | [a], 0 => by simp [pairs]
  | [a], k + 1 => by simp [pairs, Nat.mul_add]
  | a :: b :: l, 0 => by simp [pairs]
  | a :: b :: l, k + 1 => by
    have := pairs_getD l k
    simp only [pairs, List.getD_cons_succ, Nat.mul_add, this]

theorem sample_returned (E : Env) (d : Data) (k : Nat) : sample E d k = returned E d k := by
  cases d <;> simp only [sample, returned, pairs_getD] <;> rfl

theorem power_sample (E : Env) (d : Data) (k : Nat) : power E d k = (sample E d k).1 ^ 2 + (sample E d k).2 ^ 2 := by
  rw [power, sample_returned]

theorem clipped_ok {E : Env} {ε : ℝ} (h : Rounds E ε) (lim : Option Range) (hlim : ∀ g, lim = some g → 0 ≤ g.lo ∧ g.lo < g.hi) (d : Data)
    (fl : List Bool) (k : Nat) (g g' : Bool) (h1 : fl[k]? = some g) (h2 : (ampFlags E (lim.map (toAmp E)) d fl)[k]? = some g') :
    Clipped ε lim (power E d k) g g' := by
  cases lim with
  | none =>
    have h2 : fl[k]? = some g' := h2
    rw [h1, Option.some.injEq] at h2
    exact h2.symm
  | some r =>
    have e : g' = if within E (toAmp E r) (sample E d k) then g && r.incl else g && !r.incl := by
      simp only [ampFlags, Option.map_some, List.getElem?_mapIdx, h1, Option.some.injEq, toAmp, Bool.not_not] at h2
      exact h2.symm
    obtain ⟨hlo, hhi⟩ := hlim r rfl
    obtain ⟨a1, a2⟩ := limit_near h hlo
    obtain ⟨b1, b2⟩ := limit_near h (le_of_lt (lt_of_le_of_lt hlo hhi))
    obtain ⟨c1, c2⟩ := power_near h (sample E d k).1 (sample E d k).2
    refine ⟨?_, ?_, ?_⟩
    · intro hg
      rw [e, hg]
      simp
    · intro i1 i2
      have hw : within E (toAmp E r) (sample E d k) = true := by
        unfold within toAmp
        rw [decide_eq_true_eq]
        rw [power_sample] at i1 i2
        exact ⟨by linarith, by linarith⟩
      rw [e, if_pos hw]
    · intro i
      have hw : ¬ within E (toAmp E r) (sample E d k) = true := by
        unfold within toAmp
        rw [decide_eq_true_eq]
        rw [power_sample] at i
        rintro ⟨j1, j2⟩
        simp only at j1 j2
        rcases i with i | i <;> linarith
      rw [e, if_neg hw]

theorem ampFlags_length (E : Env) (a : Option Amp) (d : Data) (fl : List Bool) : (ampFlags E a d fl).length = fl.length := by
  cases a <;> simp [ampFlags]

/-! ## Which interval -/

/-- the number of intervals -/
def amps (l : List (Option Amp)) : Nat := (l.filter Option.isSome).length

theorem amps_none (l : List (Option Amp)) : amps (none :: l) = amps l := rfl

theorem amps_some (a : Amp) (l : List (Option Amp)) : amps (some a :: l) = amps l + 1 := rfl

theorem active_fst (r : Miriad.Rec) : ∀ (cl : List Clause) (am : List (Option Amp)) (p : Bool) (a : Option Amp), am.length = cl.length →
    amps (a :: am) ≤ 1 → ∃ a', active r (cl.zip am) p a = some (cl.foldl (fun selprev c =>
      if (!selprev && c.conj) || (selprev && !c.conj) then selprev else !(clauseDiscard r c)) p, a') := by
  intro cl
  induction cl with
  | nil => intro am p a _ _; exact ⟨a, by simp [active]⟩
  | cons c cl ih =>
    intro am p a hl hn
    cases am with
    | nil => simp at hl
    | cons x am =>
      have hl : am.length = cl.length := by simpa using hl
      have hskip : amps (a :: am) ≤ 1 := by
        clear ih
        cases a <;> cases x <;> simp only [amps_none, amps_some] at hn ⊢ <;> omega
      simp only [List.zip_cons_cons, active, List.foldl_cons]
      by_cases hs : ((!p && c.conj) || (p && !c.conj)) = true
      · rw [if_pos hs, if_pos hs]
        exact ih am p a hl hskip
      · rw [if_neg hs, if_neg hs]
        cases hd : clauseDiscard r c with
        | true =>
          rw [if_pos rfl]
          exact ih am false a hl hskip
        | false =>
          rw [if_neg (by simp)]
          have hboth : ¬ (a.isSome && x.isSome) = true := by
            clear ih
            cases a <;> cases x <;> simp only [amps_none, amps_some] at hn <;> first | omega | simp
          rw [if_neg hboth]
          refine ih am true _ hl ?_
          clear ih
          cases a <;> cases x <;> simp only [amps_none, amps_some, Option.isSome_none, Option.isSome_some, if_true] at hn ⊢ <;> simp [amps_none, amps_some] <;> omega

theorem skip_sel {p cj : Bool} (hs : ((!p && cj) || (p && !cj)) = true) (K : Prop) :
    p = true ↔ (if cj then p = true ∧ K else p = true ∨ K) := by
  cases p <;> cases cj <;> simp at hs ⊢

theorem skip_not {p cj : Bool} (hs : ((!p && cj) || (p && !cj)) = true) : ¬ (if cj then p = true else ¬ p = true) := by
  cases p <;> cases cj <;> simp at hs ⊢

theorem take_this {p cj : Bool} (hs : ¬ ((!p && cj) || (p && !cj)) = true) : if cj then p = true else ¬ p = true := by
  cases p <;> cases cj <;> simp at hs ⊢

theorem active_lim {r : Miriad.Rec} (hr : OrderedRec r) (E : Env) : ∀ (sp : List ASpec) (cl : List Clause),
    RelList r cl (sp.map (·.1)) → ∀ (pre : List ASpec) (p : Bool) (a : Option Amp) (q : Bool) (a' : Option Amp),
    (p = true ↔ SpecSelected r (pre.map (·.1))) →
    active r (cl.zip (sp.map fun x => x.2.map (toAmp E))) p a = some (q, a') →
    (a' = a ∧ ∀ mid c g post, sp = mid ++ (c, some g) :: post → ¬ Applies r ((pre ++ mid).map (·.1)) c) ∨
    (∃ mid c g post, sp = mid ++ (c, some g) :: post ∧ Applies r ((pre ++ mid).map (·.1)) c ∧ a' = some (toAmp E g)) := by
  intro sp
  induction sp with
  | nil =>
    intro cl _ pre p a q a' _ h
    have e : active r (cl.zip []) p a = some (p, a) := by rw [List.zip_nil_right]; rfl
    rw [List.map_nil, e] at h
    simp only [Option.some.injEq, Prod.mk.injEq] at h
    exact Or.inl ⟨h.2.symm, fun mid c g post hh => by simp at hh⟩
  | cons s sp ih =>
    intro cl hrel pre p a q a' hp h
    cases hrel with
    | @cons c _ cl _ h1 hrel =>
      have hk := h1.discard hr
      have hj := h1.conj
      -- what is selected behind this clause
      have hnext : SpecSelected r ((pre ++ [s]).map (·.1)) ↔
          (if s.1.conj then SpecSelected r (pre.map (·.1)) ∧ s.1.Keeps r else SpecSelected r (pre.map (·.1)) ∨ s.1.Keeps r) := by
        unfold SpecSelected
        rw [List.map_append, List.foldl_append]
        rfl
      -- lifting the rest
      have lift : ∀ (p' : Bool) (a1 : Option Amp), (p' = true ↔ SpecSelected r ((pre ++ [s]).map (·.1))) →
          active r (cl.zip (sp.map fun x => x.2.map (toAmp E))) p' a1 = some (q, a') →
          (a' = a1 ∧ ∀ mid c g post, sp = mid ++ (c, some g) :: post → ¬ Applies r ((pre ++ s :: mid).map (·.1)) c) ∨
          (∃ mid c g post, sp = mid ++ (c, some g) :: post ∧ Applies r ((pre ++ s :: mid).map (·.1)) c ∧ a' = some (toAmp E g)) := by
        intro p' a1 hp' h'
        have := ih cl hrel (pre ++ [s]) p' a1 q a' hp' h'
        simpa only [List.append_assoc, List.singleton_append] using this
      have up : ∀ (p' : Bool) (a1 : Option Amp), (p' = true ↔ SpecSelected r ((pre ++ [s]).map (·.1))) →
          active r (cl.zip (sp.map fun x => x.2.map (toAmp E))) p' a1 = some (q, a') →
          (a1 = a ∧ (∀ g, s.2 = some g → ¬ Applies r (pre.map (·.1)) s.1)) ∨
            (∃ g, s.2 = some g ∧ Applies r (pre.map (·.1)) s.1 ∧ a1 = some (toAmp E g)) →
          (a' = a ∧ ∀ mid c g post, s :: sp = mid ++ (c, some g) :: post → ¬ Applies r ((pre ++ mid).map (·.1)) c) ∨
          (∃ mid c g post, s :: sp = mid ++ (c, some g) :: post ∧ Applies r ((pre ++ mid).map (·.1)) c ∧ a' = some (toAmp E g)) := by
        intro p' a1 hp' h' hs
        rcases lift p' a1 hp' h' with ⟨e, hno⟩ | ⟨mid, c', g, post, e1, e2, e3⟩
        · rcases hs with ⟨ha, hs⟩ | ⟨g, g1, g2, g3⟩
          · refine Or.inl ⟨e.trans ha, ?_⟩
            intro mid c' g post he
            cases mid with
            | nil =>
              simp only [List.nil_append, List.cons.injEq] at he
              have := hs g (by rw [he.1])
              rw [he.1] at this
              simpa using this
            | cons m mid =>
              simp only [List.cons_append, List.cons.injEq] at he
              rw [← he.1]
              exact hno mid c' g post he.2
          · refine Or.inr ⟨[], s.1, g, sp, ?_, ?_, e.trans g3⟩
            · rw [List.nil_append, ← g1]
            · simpa using g2
        · exact Or.inr ⟨s :: mid, c', g, post, by rw [e1]; rfl, e2, e3⟩
      simp only [List.map_cons, List.zip_cons_cons, active] at h
      by_cases hs : ((!p && c.conj) || (p && !c.conj)) = true
      · rw [if_pos hs] at h
        have hp' : p = true ↔ SpecSelected r ((pre ++ [s]).map (·.1)) := by
          rw [hnext, ← hp, ← hj]
          exact skip_sel hs _
        refine up p a hp' h (Or.inl ⟨rfl, fun g _ hap => ?_⟩)
        have h2 := hap.2
        rw [← hp, ← hj] at h2
        exact skip_not hs h2
      · rw [if_neg hs] at h
        have hthis : (if s.1.conj then SpecSelected r (pre.map (·.1)) else ¬ SpecSelected r (pre.map (·.1))) := by
          rw [← hp, ← hj]
          exact take_this hs
        cases hd : clauseDiscard r c with
        | true =>
          rw [hd, if_pos rfl] at h
          have hnk : ¬ s.1.Keeps r := fun hh => by
            have := hk.2 hh
            rw [hd] at this
            simp at this
          refine up false a ?_ h (Or.inl ⟨rfl, fun g _ hap => hnk hap.1⟩)
          rw [hnext]
          cases hc : s.1.conj with
          | true => simp [hnk]
          | false =>
            rw [hc] at hthis
            simp at hthis
            simp [hnk, hthis]
        | false =>
          rw [hd, if_neg (by simp)] at h
          have hyk : s.1.Keeps r := hk.1 hd
          by_cases hboth : (a.isSome && (Option.map (toAmp E) s.2).isSome) = true
          · rw [if_pos hboth] at h
            simp at h
          · rw [if_neg hboth] at h
            refine up true _ ?_ h ?_
            · rw [hnext]
              cases hc : s.1.conj with
              | true =>
                rw [hc] at hthis
                simp only [if_true] at hthis
                simp [hyk, hthis]
              | false => simp [hyk]
            · cases hg : s.2 with
              | none => exact Or.inl ⟨by simp, fun g hh => by simp at hh⟩
              | some g => exact Or.inr ⟨g, rfl, ⟨hyk, hthis⟩, by simp⟩

/-! ## The calls -/

theorem pad_fst : ∀ (F : List SpecClause) (G : List (Option Range)), (pad F G).map (·.1) = F := by
  intro F
  induction F with
  | nil => intro G; rfl
  | cons x F ih =>
    intro G
    cases G with
    | nil => simp [pad, ih]
    | cons g G => simp [pad, ih]

theorem pad_same : ∀ (F : List SpecClause) (G : List (Option Range)), F.length = G.length → (pad F G).map (·.2) = G := by
  intro F
  induction F with
  | nil => intro G h; cases G with
    | nil => rfl
    | cons g G => simp at h
  | cons x F ih =>
    intro G h
    cases G with
    | nil => simp at h
    | cons g G => simp [pad, ih G (by simpa using h)]

theorem pad_more : ∀ (F : List SpecClause) (G : List (Option Range)), F.length = G.length + 1 → (pad F G).map (·.2) = G ++ [none] := by
  intro F
  induction F with
  | nil => intro G h; simp at h
  | cons x F ih =>
    intro G h
    cases G with
    | nil =>
      have : F = [] := by
        cases F with
        | nil => rfl
        | cons y F => simp at h
      subst this
      rfl
    | cons g G => simp [pad, ih G (by simpa using h)]

theorem addCond_length (c : Cond) : ∀ (l : List SpecClause), (addCond c l).length = if l = [] then 1 else l.length := by
  intro l
  induction l with
  | nil => rfl
  | cons x l ih =>
    cases l with
    | nil => rfl
    | cons y l =>
      simp only [addCond, List.length_cons]
      rw [ih]
      simp

theorem map_snd (E : Env) (sp : List ASpec) : (sp.map fun x => x.2.map (toAmp E)) = (sp.map (·.2)).map (Option.map (toAmp E)) := by
  simp [List.map_map]

theorem pad_step (E : Env) (sp : List ASpec) (c : Call) :
    ((pad (specStep (sp.map (·.1)) c.sel) (sp.map (·.2))).map fun x => x.2.map (toAmp E)) =
      ampStep (sp.map fun x => x.2.map (toAmp E)) c := by
  rw [map_snd, map_snd]
  have hadd : ∀ k : Cond, ((pad (addCond k (sp.map (·.1))) (sp.map (·.2))).map (·.2)).map (Option.map (toAmp E)) =
      if ((sp.map (·.2)).map (Option.map (toAmp E))).isEmpty then [none] else (sp.map (·.2)).map (Option.map (toAmp E)) := by
    intro k
    cases sp with
    | nil => rfl
    | cons x sp =>
      rw [pad_same _ _ (by rw [addCond_length]; simp)]
      rfl
  have hnew : ∀ b : Bool, ((pad (if (sp.map (·.1)).isEmpty then [] else sp.map (·.1) ++ [⟨b, []⟩]) (sp.map (·.2))).map (·.2)).map
      (Option.map (toAmp E)) = if ((sp.map (·.2)).map (Option.map (toAmp E))).isEmpty then [] else
        (sp.map (·.2)).map (Option.map (toAmp E)) ++ [none] := by
    intro b
    cases sp with
    | nil => rfl
    | cons x sp =>
      rw [if_neg (by simp), if_neg (by simp), pad_more _ _ (by simp)]
      simp
  cases c with
  | vis lo hi incl => exact hadd _
  | other c =>
    cases c with
    | clear => rfl
    | conj => exact hnew true
    | disj => exact hnew false
    | antennae a b i => exact hadd _
    | auto i => exact hadd _
    | oper t x i => exact hadd _

theorem setAmp_attach (E : Env) (g : Range) : ∀ (sp : List ASpec), amps (sp.map fun x => x.2.map (toAmp E)) = 0 →
    setAmp (toAmp E g) (sp.map fun x => x.2.map (toAmp E)) = some ((attach g sp).map fun x => x.2.map (toAmp E)) := by
  intro sp
  induction sp with
  | nil => intro _; rfl
  | cons x sp ih =>
    intro h
    obtain ⟨x1, x2⟩ := x
    cases x2 with
    | some r =>
      rw [List.map_cons] at h
      exact absurd h (by show amps (some _ :: _) ≠ 0; rw [amps_some]; omega)
    | none =>
      rw [List.map_cons] at h
      have h : amps (sp.map fun x => x.2.map (toAmp E)) = 0 := h
      cases sp with
      | nil => rfl
      | cons y sp =>
        have := ih h
        rw [List.map_cons] at this
        rw [List.map_cons, List.map_cons]
        unfold setAmp
        rw [this]
        rfl

theorem attach_fst (g : Range) : ∀ (sp : List ASpec),
    (attach g sp).map (·.1) = if sp.isEmpty then [⟨true, []⟩] else sp.map (·.1) := by
  intro sp
  induction sp with
  | nil => rfl
  | cons x sp ih =>
    cases sp with
    | nil => rfl
    | cons y sp =>
      have : attach g (x :: y :: sp) = x :: attach g (y :: sp) := rfl
      rw [this, List.map_cons, ih]
      rfl

theorem attach_snd (g : Range) : ∀ (sp : List ASpec) (x : ASpec), x ∈ attach g sp → x.2 = some g ∨ x.2 = none ∨ ∃ y ∈ sp, y.2 = x.2 := by
  intro sp
  induction sp with
  | nil => intro x hx; left; simp [attach] at hx; rw [hx]
  | cons a sp ih =>
    intro x hx
    cases sp with
    | nil => left; simp [attach] at hx; rw [hx]
    | cons b sp =>
      have e : attach g (a :: b :: sp) = a :: attach g (b :: sp) := rfl
      rw [e, List.mem_cons] at hx
      rcases hx with rfl | hx
      · exact Or.inr (Or.inr ⟨_, List.mem_cons_self, rfl⟩)
      · rcases ih x hx with h | h | ⟨y, h1, h2⟩
        · exact Or.inl h
        · exact Or.inr (Or.inl h)
        · exact Or.inr (Or.inr ⟨y, List.mem_cons_of_mem _ h1, h2⟩)

theorem pad_snd : ∀ (F : List SpecClause) (G : List (Option Range)) (x : ASpec), x ∈ pad F G → x.2 = none ∨ x.2 ∈ G := by
  intro F
  induction F with
  | nil => intro G x h; simp [pad] at h
  | cons a F ih =>
    intro G x h
    cases G with
    | nil =>
      simp only [pad, List.mem_cons] at h
      rcases h with rfl | h
      · exact Or.inl rfl
      · rcases ih [] x h with h | h
        · exact Or.inl h
        · simp at h
    | cons g G =>
      simp only [pad, List.mem_cons] at h
      rcases h with rfl | h
      · exact Or.inr (by simp)
      · rcases ih G x h with h | h
        · exact Or.inl h
        · exact Or.inr (List.mem_cons_of_mem _ h)

theorem amps_append (a b : List (Option Amp)) : amps (a ++ b) = amps a + amps b := by
  simp [amps]

theorem ampStep_le (am : List (Option Amp)) (c : Call) : amps (ampStep am c) ≤ amps am := by
  have h1 : amps (if am.isEmpty then [none] else am) ≤ amps am := by
    cases am with
    | nil => exact Nat.le_refl _
    | cons x am => exact Nat.le_refl _
  have h2 : amps (if am.isEmpty then [] else am ++ [none]) ≤ amps am := by
    cases am with
    | nil => exact Nat.le_refl _
    | cons x am => rw [if_neg (by simp), amps_append]; exact Nat.le_refl _
  cases c with
  | vis lo hi incl => exact h1
  | other c =>
    cases c with
    | clear => exact Nat.zero_le _
    | conj => exact h2
    | disj => exact h2
    | antennae a b i => exact h1
    | auto i => exact h1
    | oper t x i => exact h1

theorem setAmp_le (a : Amp) : ∀ (am am' : List (Option Amp)), setAmp a am = some am' → amps am' ≤ amps am + 1 := by
  intro am
  induction am with
  | nil => intro am' h; simp only [setAmp, Option.some.injEq] at h; subst h; exact Nat.le_refl _
  | cons x am ih =>
    intro am' h
    cases am with
    | nil =>
      simp only [setAmp] at h
      by_cases hx : x.isSome
      · rw [if_pos hx] at h; simp at h
      · rw [if_neg hx, Option.some.injEq] at h
        subst h
        show amps [some a] ≤ _
        rw [amps_some]
        exact Nat.le_add_left _ _
    | cons y am =>
      have e : setAmp a (x :: y :: am) = (setAmp a (y :: am)).map fun l' => x :: l' := rfl
      rw [e] at h
      cases hs : setAmp a (y :: am) with
      | none => rw [hs] at h; simp at h
      | some l =>
        rw [hs] at h
        simp only [Option.map_some, Option.some.injEq] at h
        subst h
        have := ih l hs
        cases x with
        | none => rw [amps_none, amps_none]; exact this
        | some v => rw [amps_some, amps_some]; omega

/-- the clauses that were made are those of the specification -/
structure AInv (E : Env) (sp : List ASpec) (s : ASel) : Prop where
  rel : ∀ r, OrderedRec r → RelList r s.sel.clauses (sp.map (·.1))
  am : s.amps = sp.map fun x => x.2.map (toAmp E)
  beside : Beside (sp.map (·.1)) s.sel.vis
  init : s.sel.init = false
  maxvis : s.sel.maxvis = 0
  good : ∀ x ∈ sp, ∀ g, x.2 = some g → 0 ≤ g.lo ∧ g.lo < g.hi

theorem ainv_none (E : Env) : AInv E [] noASel := ⟨fun _ _ => .nil, rfl, ⟨.nil, by simp⟩, rfl, rfl, by simp⟩

theorem ainv_call {E : Env} {sp : List ASpec} {s : ASel} (h : AInv E sp s) {c : Call} (hc : OkSel c) :
    ∃ s', aselect E s (.call c) = some s' ∧ AInv E (astep sp (.call c)) s' ∧ amps s'.amps ≤ amps s.amps := by
  -- the clauses do not depend on the record
  have hr0 : OrderedRec ⟨1, 1, 0, fun _ => 0⟩ := by unfold OrderedRec; decide
  obtain ⟨cl, e, _⟩ := Verif.Miriad.step_rel hr0 c.sel hc.ok (h.rel _ hr0)
  have hsel : select s.sel c = some ⟨cl, visStep s.sel.vis c, s.sel.maxvis, false⟩ := by
    cases c with
    | vis lo hi incl =>
      have h1 : 1 ≤ lo ∧ lo ≤ hi := hc
      unfold select
      simp only
      rw [if_neg (by omega), e]
      rfl
    | other c =>
      unfold select
      have e : uvselect c s.sel.clauses = some cl := e
      simp only [e]
      rfl
  refine ⟨⟨⟨cl, visStep s.sel.vis c, s.sel.maxvis, false⟩, ampStep s.amps c⟩, ?_, ⟨?_, ?_, ?_, rfl, h.maxvis, ?_⟩, ampStep_le _ _⟩
  · unfold aselect
    simp only [hsel]
    rfl
  · intro r hr
    obtain ⟨cl', e', hrel⟩ := Verif.Miriad.step_rel hr c.sel hc.ok (h.rel _ hr)
    rw [e, Option.some.injEq] at e'
    subst e'
    show RelList r cl ((pad _ _).map (·.1))
    rw [pad_fst]
    exact hrel
  · show ampStep s.amps c = _
    rw [h.am]
    exact (pad_step E sp c).symm
  · show Beside ((pad _ _).map (·.1)) _
    rw [pad_fst]
    exact beside_step h.beside c hc
  · intro x hx g hg
    rcases pad_snd _ _ x hx with h1 | h1
    · rw [h1] at hg; simp at hg
    · obtain ⟨y, y1, y2⟩ := List.mem_map.1 h1
      exact h.good y y1 g (y2.trans hg)

theorem ainv_amp {E : Env} {sp : List ASpec} {s : ASel} (h : AInv E sp s) {lo hi : ℝ} {incl : Bool} (h1 : 0 ≤ lo) (h2 : lo < hi)
    (h0 : amps s.amps = 0) :
    ∃ s', aselect E s (.amp lo hi incl) = some s' ∧ AInv E (astep sp (.amp lo hi incl)) s' ∧ amps s'.amps ≤ 1 := by
  have ha := setAmp_attach E ⟨incl, lo, hi⟩ sp (by rw [← h.am]; exact h0)
  rw [← h.am] at ha
  have hle := setAmp_le _ _ _ ha
  rw [h0] at hle
  have hemp : s.sel.clauses.isEmpty = sp.isEmpty := by
    have hr0 : OrderedRec ⟨1, 1, 0, fun _ => 0⟩ := by unfold OrderedRec; decide
    have := h.rel _ hr0
    generalize s.sel.clauses = cl at this
    cases sp with
    | nil => cases this; rfl
    | cons x sp => cases this; rfl
  have hemv : s.sel.vis.isEmpty = sp.isEmpty := by
    have := h.beside.each
    generalize s.sel.vis = vs at this
    cases sp with
    | nil => cases this; rfl
    | cons x sp => cases this; rfl
  refine ⟨⟨{ s.sel with
          clauses := if s.sel.clauses.isEmpty then [newClause true] else s.sel.clauses
          vis := if s.sel.vis.isEmpty then [[]] else s.sel.vis
          init := false }, (attach ⟨incl, lo, hi⟩ sp).map fun x => x.2.map (toAmp E)⟩, ?_, ⟨?_, rfl, ?_, rfl, h.maxvis, ?_⟩, hle⟩
  · unfold aselect
    simp only
    rw [if_neg (by rintro (h | h) <;> linarith)]
    have ha : setAmp ⟨!incl, E.rnd lo, E.rnd hi⟩ s.amps = _ := ha
    rw [ha]
    rfl
  · intro r hr
    show RelList r (if s.sel.clauses.isEmpty then [newClause true] else s.sel.clauses) ((attach _ sp).map (·.1))
    rw [attach_fst, hemp]
    cases he : sp.isEmpty with
    | true => exact .cons (Rel.new r true) .nil
    | false => exact h.rel r hr
  · show Beside ((attach _ sp).map (·.1)) (if s.sel.vis.isEmpty then [[]] else s.sel.vis)
    rw [attach_fst, hemv]
    cases he : sp.isEmpty with
    | true => exact ⟨.cons (by rfl) .nil, by intro c hc; simp at hc; rw [← hc]⟩
    | false => exact h.beside
  · intro x hx g hg
    rcases attach_snd _ _ x hx with e | e | ⟨y, y1, y2⟩
    · rw [hg, Option.some.injEq] at e
      subst e
      exact ⟨h1, h2⟩
    · rw [hg] at e; simp at e
    · exact h.good y y1 g (y2.trans hg)

theorem ainv_all (E : Env) : ∀ (cs : List ACall) (sp : List ASpec) (s : ASel), AInv E sp s → (∀ c ∈ cs, OkA c) →
    amps s.amps + (cs.filter ACall.isAmp).length ≤ 1 →
    ∃ s', aselectAll E s cs = some s' ∧ AInv E (cs.foldl astep sp) s' ∧ amps s'.amps ≤ 1 := by
  intro cs
  induction cs with
  | nil => intro sp s h _ hn; exact ⟨s, rfl, h, by simpa using hn⟩
  | cons c cs ih =>
    intro sp s h hok hn
    have hc := hok c List.mem_cons_self
    have hok' := fun x hx => hok x (List.mem_cons_of_mem c hx)
    cases c with
    | call c =>
      obtain ⟨s1, a1, a2, a3⟩ := ainv_call h (c := c) hc
      have hn : amps s.amps + (cs.filter ACall.isAmp).length ≤ 1 := hn
      obtain ⟨s2, b1, b2, b3⟩ := ih _ s1 a2 hok' (by omega)
      refine ⟨s2, ?_, b2, b3⟩
      unfold aselectAll at b1 ⊢
      rw [List.foldlM_cons, a1]
      exact b1
    | amp lo hi incl =>
      have hn : amps s.amps + ((cs.filter ACall.isAmp).length + 1) ≤ 1 := hn
      obtain ⟨s1, a1, a2, a3⟩ := ainv_amp h (incl := incl) hc.1 hc.2 (by omega)
      obtain ⟨s2, b1, b2, b3⟩ := ih _ s1 a2 hok' (by omega)
      refine ⟨s2, ?_, b2, b3⟩
      unfold aselectAll at b1 ⊢
      rw [List.foldlM_cons, a1]
      exact b1

theorem ainv_selOk {E : Env} {sp : List ASpec} {s : ASel} (h : AInv E sp s) (k : Nat) : SelOk (sp.map (·.1)) s.sel k where
  dec := fun r hr => Verif.Miriad.selected_step (h.rel r hr) hr true True (by simp)
  beside := h.beside
  empty := (h.rel ⟨1, 1, 0, fun _ => 0⟩ (by unfold OrderedRec; decide)).nil_iff
  done := by rw [h.init]; simp
  clear := fun _ => h.maxvis
  stop := fun _ h0 => by rw [h.maxvis] at h0; exact absurd h0 (by decide)

/-! ## Reading -/

/-- the interval in use for the record that was read -/
def limOf (S : SelEnv) (r : Reader) (cl : List Clause) (am : List (Option Amp)) : Option Amp :=
  if cl = [] then none else (seeRec S r).bind fun x => (active x (cl.zip am) true none).bind (·.2)

/-- a record with the flags it gets -/
def amend (S : SelEnv) (E : Env) (cl : List Clause) (am : List (Option Amp)) : SRead → SRead
  | .ok st out => .ok st { out with flags := ampFlags E (limOf S st.v.r cl am) out.data out.flags }
  | x => x

theorem initSel_clauses (sel : Sel) : (initSel sel).clauses = sel.clauses := by
  unfold initSel
  split <;> rfl

theorem readLine_reader {nsize : Nat} {v v' : VisR} {out : Out} (h : readLine nsize v = .ok v' out) : v'.r = v.r := by
  unfold readLine at h
  cases h1 : rlocvar v.r.vars nmCorr with
  | none => simp [h1] at h
  | some c =>
    simp only [h1] at h
    by_cases h2 : c.length / (2 * c.ty.ext) = 0
    · simp [h2] at h
    · rw [if_neg h2] at h
      by_cases h3 : nsize < c.length / (2 * c.ty.ext)
      · simp [h3] at h
      · rw [if_neg h3] at h
        cases h4 : Mask.mkreadFlags v.m v.flagOff (c.length / (2 * c.ty.ext)) with
        | error e => simp [h4] at h
        | ok p =>
          simp only [h4] at h
          cases h5 : readCorr v.r c (c.length / (2 * c.ty.ext)) with
          | none => simp [h5] at h
          | some d =>
            cases h6 : readPreamble v.r with
            | none => simp [h5, h6] at h
            | some p =>
              simp only [h5, h6, VRead.ok.injEq] at h
              rw [← h.1]

theorem achosen_ok (S : SelEnv) (r : Reader) (sel : Sel) (am : List (Option Amp)) (hl : am.length = sel.clauses.length) (hn : amps am ≤ 1) :
    achosen S r sel am = (chosen S r sel).map fun b => (b, limOf S r sel.clauses am) := by
  unfold achosen chosen limOf
  by_cases he : sel.clauses = []
  · rw [if_pos he, if_pos he, if_pos he]; rfl
  · rw [if_neg he, if_neg he, if_neg he]
    cases hs : seeRec S r with
    | none => rfl
    | some x =>
      obtain ⟨a, ha⟩ := active_fst x sel.clauses am true none hl (by rw [amps_none]; exact hn)
      simp only [Option.bind_some, ha, Option.map_some]
      rfl

theorem aloop_eq (S : SelEnv) (E : Env) (am : List (Option Amp)) (f : Nat → Byte) (size nsize : Nat) (hn : amps am ≤ 1) :
    ∀ (fuel : Nat) (st : SelR), am.length = st.sel.clauses.length →
      aloop S E am f size nsize fuel st = amend S E st.sel.clauses am (loop S f size nsize fuel st) := by
  intro fuel
  induction fuel with
  | zero => intro st _; rfl
  | succ fuel ih =>
    intro st hl
    unfold aloop loop
    by_cases hmax : 0 < st.sel.maxvis ∧ st.sel.maxvis < st.v.r.callno
    · rw [if_pos hmax, if_pos hmax]; rfl
    · rw [if_neg hmax, if_neg hmax]
      cases hfc : findCorr f size (st.v.r.maxOffset - st.v.r.offset + 1) st.v.r with
      | eof r => rfl
      | bad => rfl
      | ok r =>
        simp only
        rw [achosen_ok S r (initSel st.sel) am (by rw [initSel_clauses]; exact hl) hn]
        cases hc : chosen S r (initSel st.sel) with
        | none => rfl
        | some t =>
          cases t with
          | false =>
            simp only [Option.map_some]
            rw [ih ⟨⟨r, st.v.flagOff + channels r, st.v.m⟩, initSel st.sel⟩ (by rw [initSel_clauses]; exact hl)]
            simp only [initSel_clauses]
          | true =>
            simp only [Option.map_some, initSel_clauses]
            unfold atake take
            cases hr : readLine nsize { st.v with r := r } with
            | eof v => rfl
            | bad => rfl
            | ok v out =>
              have : v.r = r := readLine_reader hr
              simp only [amend, this]

section
variable {S : SelEnv} {o : FpOps} {q : Quant} {mode : Ty} {bs : List Block} {s : VisW} {ant : Block → Nat × Nat}
  {f : Nat → Byte} {size nsize : Nat} {r0 : Reader} {sp : List ASpec}

theorem see_at (hw : DataSet o q mode bs s) (hsel : Selectable S o bs s ant) (hf : Holds f size s.w.out) (hr0 : AtStart s r0)
    (hc0 : r0.callno = 0) {j : Nat} {b : Block} (hb : bs[j]? = some b) {v : VisR} (hat : At bs s f size r0 (j + 1) v) :
    seeRec S v.r = some (recAt S s (ant b) j) := by
  obtain ⟨rk, hrk, hal⟩ := hat.read
  rw [seeRec_alike hal]
  have h := hrk
  rw [readN_succ] at h
  cases hj : readN f size j r0 with
  | none => rw [hj] at h; simp at h
  | some r => exact see_ok hw hsel hf hr0 hc0 hat.flags hb hj hrk

/-- the calls of `uvread_c` until the end -/
theorem areadAll_ok {E : Env} {ε : ℝ} (hE : Rounds E ε) {am : List (Option Amp)} {cl : List Clause}
    (hrel : ∀ r, OrderedRec r → RelList r cl (sp.map (·.1))) (ham : am = sp.map fun x => x.2.map (toAmp E)) (hone : amps am ≤ 1)
    (hgood : ∀ x ∈ sp, ∀ g, x.2 = some g → 0 ≤ g.lo ∧ g.lo < g.hi)
    (hw : DataSet o q mode bs s) (hsel : Selectable S o bs s ant) (hf : Holds f size s.w.out)
    (hn : ∀ b ∈ bs, b.vis.flags.length ≤ nsize) (hr0 : AtStart s r0) (hc0 : r0.callno = 0) :
    ∀ (fuel k : Nat) (st : SelR), bs.length - k < fuel → At bs s f size r0 k st.v → SelOk (sp.map (·.1)) st.sel k → st.sel.clauses = cl →
      ∃ l, areadAll S E am f size nsize fuel st = some l ∧
        List.Forall₂ (AReturned E ε S o q mode s ant sp) l (wantedFrom S s ant (sp.map (·.1)) bs k) := by
  intro fuel
  have hlen : am.length = cl.length := by
    have := hrel ⟨1, 1, 0, fun _ => 0⟩ (by unfold OrderedRec; decide)
    rw [ham, List.length_map, ← List.length_map (f := fun x : ASpec => x.1)]
    clear hrel
    generalize sp.map (fun x : ASpec => x.1) = F at this
    induction this with
    | nil => rfl
    | cons _ _ ih => simp [ih]
  induction fuel with
  | zero => intro k st h; omega
  | succ fuel ih =>
    intro k st hfuel hat hso hcl
    have hread : aread S E am f size nsize st = amend S E cl am (uvreadSel S f size nsize st) := by
      unfold aread uvreadSel
      rw [aloop_eq S E am f size nsize hone _ _ (by rw [hcl]; exact hlen), hcl]
    unfold areadAll
    rw [hread]
    rcases read_one (nsize := nsize) hw hsel hf hn hr0 hc0 hat hso with ⟨st', out, b, j, h1, h2, h3, h4, h5, h6, h7, _⟩ | ⟨st', h1, h2⟩
    · obtain ⟨l, l1, l2⟩ := ih (j + 1) st' (by omega) h6 (by rw [h7]; exact hso.inited _) (by rw [h7, initSel_clauses]; exact hcl)
      rw [h1]
      simp only [amend, l1]
      refine ⟨_, rfl, ?_⟩
      rw [h2]
      refine .cons ?_ l2
      have hb : bs[j]? = some b := by
        have : (b, j) ∈ wantedFrom S s ant (sp.map (·.1)) bs k := by rw [h2]; exact List.mem_cons_self
        unfold wantedFrom at this
        have := (List.mem_filter.1 this).1
        have := List.mem_zipIdx this
        obtain ⟨a1, a2, a3⟩ := this
        rw [List.getElem_drop] at a3
        have e : k + (j - k) = j := by omega
        simp only [e] at a3
        rw [a3]
        exact List.getElem?_eq_getElem _
      have hsee := see_at hw hsel hf hr0 hc0 hb h6
      have hord : OrderedRec (recAt S s (ant b) j) := by
        have := hsel.ants b (List.mem_of_getElem? hb)
        show 1 ≤ (ant b).1 + 1 ∧ (ant b).1 + 1 ≤ (ant b).2 + 1 ∧ (ant b).2 + 1 ≤ 2048
        omega
      -- the interval
      have hlim : ∃ lim, limOf S st'.v.r cl am = lim.map (toAmp E) ∧ Limited (recAt S s (ant b) j) sp lim := by
        unfold limOf
        by_cases he : cl = []
        · rw [if_pos he]
          refine ⟨none, rfl, ?_⟩
          have hsp : sp.map (·.1) = [] := (hrel _ hord).nil_iff.1 he
          have hsp : sp = [] := by simpa using hsp
          intro pre c g post hh
          rw [hsp] at hh
          simp at hh
        · rw [if_neg he, hsee]
          simp only [Option.bind_some]
          obtain ⟨a, ha⟩ := active_fst (recAt S s (ant b) j) cl am true none hlen (by rw [amps_none]; exact hone)
          rw [ha]
          simp only [Option.bind_some]
          have ha' := ha
          rw [ham] at ha'
          rcases active_lim hord E sp cl (hrel _ hord) [] true none _ a (by simp [SpecSelected]) ha' with ⟨e, h⟩ | ⟨mid, c, g, post, e1, e2, e3⟩
          · exact ⟨none, e, fun pre c g post hh => by simpa using h pre c g post hh⟩
          · exact ⟨some g, e3, mid, c, post, e1, by simpa using e2⟩
      obtain ⟨lim, e, hL⟩ := hlim
      refine ⟨out.flags, ?_, ?_, lim, hL, ?_⟩
      · exact h5
      · exact (ampFlags_length _ _ _ _).symm
      · intro i g g' hg hg'
        refine clipped_ok hE lim ?_ out.data out.flags i g g' hg (by rw [← e]; exact hg')
        intro r hr
        subst hr
        obtain ⟨pre, c, post, e1, _⟩ := hL
        exact hgood (c, some r) (by rw [e1]; simp) r rfl
    · rw [h1, h2]
      exact ⟨[], rfl, .nil⟩

/-- **C131**: with a selection by amplitude (one, among any other selections) the records returned are those that the other selections
select, with their own data; flags change only by the interval of a clause that applies to the record, and there a channel stays good if
and only if it was good and its amplitude is inside (outside, if excluded), up to the rounding of floats. -/
theorem c131_read_partial {E : Env} {ε : ℝ} (hE : Rounds E ε) (hw : DataSet o q mode bs s) (hsel : Selectable S o bs s ant)
    (hf : Holds f size s.w.out) (hn : ∀ b ∈ bs, b.vis.flags.length ≤ nsize) {v : VisR} (hv : AtStart s v.r) (hc : v.r.callno = 0)
    (ho : v.flagOff = 0) (hm : FlagFile s v.m) (cs : List ACall) (hcs : ∀ c ∈ cs, OkA c) (hone : (cs.filter ACall.isAmp).length ≤ 1)
    {fuel : Nat} (hfuel : bs.length < fuel) :
    ∃ sel l, aselectAll E noASel cs = some sel ∧ areadAll S E sel.amps f size nsize fuel ⟨v, sel.sel⟩ = some l ∧
      List.Forall₂ (AReturned E ε S o q mode s ant (aspec cs)) l (wanted S s ant ((aspec cs).map (·.1)) bs) := by
  obtain ⟨sel, a1, a2, a3⟩ := ainv_all E cs [] noASel (ainv_none E) hcs (by simpa [noASel, amps] using hone)
  obtain ⟨l, l1, l2⟩ := areadAll_ok (nsize := nsize) hE a2.rel a2.am a3 a2.good hw hsel hf hn hv hc fuel 0 ⟨v, sel.sel⟩ (by omega)
    (at_start ho hm) (ainv_selOk a2 0) rfl
  exact ⟨sel, l, a1, l1, l2⟩

theorem attach_mem (g : Range) : ∀ (sp : List ASpec), ∃ x ∈ attach g sp, x.2 = some g := by
  intro sp
  induction sp with
  | nil => exact ⟨_, List.mem_singleton.2 rfl, rfl⟩
  | cons a sp ih =>
    cases sp with
    | nil => exact ⟨_, List.mem_singleton.2 rfl, rfl⟩
    | cons b sp =>
      obtain ⟨x, h1, h2⟩ := ih
      exact ⟨x, List.mem_cons_of_mem _ h1, h2⟩

theorem pad_mem : ∀ (F : List SpecClause) (G : List (Option Range)), G.length ≤ F.length → ∀ g ∈ G, ∃ x ∈ pad F G, x.2 = g := by
  intro F
  induction F with
  | nil =>
    intro G h g hg
    cases G with
    | nil => simp at hg
    | cons y G => simp at h
  | cons a F ih =>
    intro G h g hg
    cases G with
    | nil => simp at hg
    | cons y G =>
      rcases List.mem_cons.1 hg with rfl | hg
      · exact ⟨(a, g), List.mem_cons_self, rfl⟩
      · obtain ⟨x, h1, h2⟩ := ih G (by simpa using h) g hg
        exact ⟨x, List.mem_cons_of_mem _ h1, h2⟩

theorem specStep_length (F : List SpecClause) (c : SelCall) (hc : c ≠ .clear) : F.length ≤ (specStep F c).length := by
  have hadd : ∀ k : Cond, F.length ≤ (addCond k F).length := by
    intro k
    rw [addCond_length]
    split
    · simp_all
    · exact Nat.le_refl _
  have hnew : ∀ b : Bool, F.length ≤ (if F.isEmpty then [] else F ++ [⟨b, []⟩]).length := by
    intro b
    cases F with
    | nil => simp
    | cons x F => simp
  cases c with
  | clear => exact absurd rfl hc
  | conj => exact hnew true
  | disj => exact hnew false
  | antennae a b i => exact hadd _
  | auto i => exact hadd _
  | oper t x i => exact hadd _

theorem addCond_conj (k : Cond) : ∀ (F : List SpecClause), (∀ c ∈ F, c.conj = true) → ∀ c ∈ addCond k F, c.conj = true := by
  intro F
  induction F with
  | nil => intro _ c hc; simp [addCond] at hc; rw [hc]
  | cons a F ih =>
    intro h c hc
    cases F with
    | nil => simp [addCond] at hc; rw [hc]; exact h a List.mem_cons_self
    | cons b F =>
      have e : addCond k (a :: b :: F) = a :: addCond k (b :: F) := rfl
      rw [e, List.mem_cons] at hc
      rcases hc with rfl | hc
      · exact h _ List.mem_cons_self
      · exact ih (fun x hx => h x (List.mem_cons_of_mem _ hx)) c hc

theorem specStep_conj (F : List SpecClause) (c : SelCall) (hc : c ≠ .disj) (h : ∀ c ∈ F, c.conj = true) :
    ∀ x ∈ specStep F c, x.conj = true := by
  cases c with
  | clear => intro x hx; simp [specStep] at hx
  | conj =>
    intro x hx
    simp only [specStep] at hx
    split at hx
    · simp at hx
    · rcases List.mem_append.1 hx with hx | hx
      · exact h x hx
      · rw [List.mem_singleton] at hx; rw [hx]
  | disj => exact absurd rfl hc
  | antennae a b i => exact addCond_conj _ F h
  | auto i => exact addCond_conj _ F h
  | oper t x i => exact addCond_conj _ F h

theorem conj_selected (r : Miriad.Rec) (F : List SpecClause) (hF : ∀ c ∈ F, c.conj = true) : SpecSelected r F ↔ ∀ c ∈ F, c.Keeps r := by
  have : ∀ (F : List SpecClause) (p : Prop), (∀ c ∈ F, c.conj = true) →
      (F.foldl (fun (p : Prop) c => if c.conj then p ∧ c.Keeps r else p ∨ c.Keeps r) p ↔ p ∧ ∀ c ∈ F, c.Keeps r) := by
    intro F
    induction F with
    | nil => intro p _; simp
    | cons c F ih =>
      intro p h
      rw [List.foldl_cons, ih _ (fun x hx => h x (List.mem_cons_of_mem _ hx)), if_pos (h c List.mem_cons_self)]
      simp [and_assoc]
  unfold SpecSelected
  rw [this F True hF]
  simp

/-- calls that only narrow what is selected -/
def Narrow (c : Call) : Prop := OkSel c ∧ c ≠ .other .disj

theorem narrow_sel {c : Call} (h : Narrow c) : c.sel ≠ .disj := by
  intro he
  cases c with
  | vis lo hi i => simp [Call.sel] at he
  | other c => exact h.2 (by rw [show c = .disj from he])

theorem every_spec (pre post : List Call) (hpre : ∀ c ∈ pre, Narrow c) (hpost : ∀ c ∈ post, Narrow c ∧ c ≠ .other .clear) (g : Range) :
    (∀ x ∈ aspec (pre.map .call ++ .amp g.lo g.hi g.incl :: post.map .call), x.1.conj = true ∧ ∀ g', x.2 = some g' → g' = g) ∧
    ∃ x ∈ aspec (pre.map .call ++ .amp g.lo g.hi g.incl :: post.map .call), x.2 = some g := by
  have hall : ∀ (l : List Call) (sp : List ASpec), (∀ c ∈ l, Narrow c) → (∀ x ∈ sp, x.1.conj = true ∧ ∀ g', x.2 = some g' → g' = g) →
      ∀ x ∈ (l.map ACall.call).foldl astep sp, x.1.conj = true ∧ ∀ g', x.2 = some g' → g' = g := by
    intro l
    induction l with
    | nil => intro sp _ h; exact h
    | cons c l ih =>
      intro sp hl h
      refine ih _ (fun x hx => hl x (List.mem_cons_of_mem _ hx)) ?_
      intro x hx
      have hx : x ∈ pad (specStep (sp.map (·.1)) c.sel) (sp.map (·.2)) := hx
      constructor
      · refine specStep_conj (sp.map (·.1)) c.sel (narrow_sel (hl c List.mem_cons_self)) ?_ x.1 ?_
        · intro y hy
          obtain ⟨z, z1, z2⟩ := List.mem_map.1 hy
          rw [← z2]
          exact (h z z1).1
        · have : x.1 ∈ (pad (specStep (sp.map (·.1)) c.sel) (sp.map (·.2))).map (·.1) := List.mem_map_of_mem hx
          rwa [pad_fst] at this
      · intro g' hg'
        rcases pad_snd _ _ x hx with e | e
        · rw [hg'] at e; simp at e
        · obtain ⟨z, z1, z2⟩ := List.mem_map.1 e
          exact (h z z1).2 g' (z2.trans hg')
  have hex : ∀ (l : List Call) (sp : List ASpec), (∀ c ∈ l, Narrow c ∧ c ≠ .other .clear) → (∃ x ∈ sp, x.2 = some g) →
      ∃ x ∈ (l.map ACall.call).foldl astep sp, x.2 = some g := by
    intro l
    induction l with
    | nil => intro sp _ h; exact h
    | cons c l ih =>
      intro sp hl h
      refine ih _ (fun x hx => hl x (List.mem_cons_of_mem _ hx)) ?_
      obtain ⟨x, x1, x2⟩ := h
      refine pad_mem _ _ ?_ (some g) (List.mem_map.2 ⟨x, x1, x2⟩)
      have := specStep_length (sp.map (·.1)) c.sel (by
        intro he
        cases c with
        | vis lo hi i => simp [Call.sel] at he
        | other c => exact (hl _ List.mem_cons_self).2 (by rw [show c = .clear from he]))
      simpa using this
  have e : aspec (pre.map .call ++ .amp g.lo g.hi g.incl :: post.map .call) =
      (post.map ACall.call).foldl astep (attach g ((pre.map ACall.call).foldl astep [])) := by
    unfold aspec
    rw [List.foldl_append]
    rfl
  have h1 := hall pre [] hpre (by simp)
  rw [e]
  refine ⟨hall post _ (fun c hc => (hpost c hc).1) ?_, hex post _ hpost (attach_mem g _)⟩
  generalize (pre.map ACall.call).foldl astep [] = sp at h1
  intro x hx
  constructor
  · have hx1 : x.1 ∈ (attach g sp).map (·.1) := List.mem_map_of_mem hx
    rw [attach_fst] at hx1
    split at hx1
    · rw [List.mem_singleton] at hx1; rw [hx1]
    · obtain ⟨z, z1, z2⟩ := List.mem_map.1 hx1
      rw [← z2]
      exact (h1 z z1).1
  · intro g' hg'
    rcases attach_snd _ _ x hx with h | h | ⟨y, y1, y2⟩
    · rw [hg', Option.some.injEq] at h; exact h
    · rw [hg'] at h; simp at h
    · exact (h1 y y1).2 g' (y2.trans hg')

theorem every_limited {r : Miriad.Rec} {sp : List ASpec} {g : Range} (h : ∀ x ∈ sp, x.1.conj = true ∧ ∀ g', x.2 = some g' → g' = g)
    (hex : ∃ x ∈ sp, x.2 = some g) (hr : SpecSelected r (sp.map (·.1))) {lim : Option Range} (hl : Limited r sp lim) : lim = some g := by
  have hconj : ∀ c ∈ sp.map (·.1), c.conj = true := by
    intro c hc
    obtain ⟨z, z1, z2⟩ := List.mem_map.1 hc
    rw [← z2]
    exact (h z z1).1
  cases lim with
  | some g' =>
    obtain ⟨pre, c, post, e, _⟩ := hl
    rw [(h (c, some g') (by rw [e]; simp)).2 g' rfl]
  | none =>
    exfalso
    obtain ⟨⟨c, g'⟩, x1, x2⟩ := hex
    have x2 : g' = some g := x2
    subst x2
    obtain ⟨pre, post, e⟩ := List.append_of_mem x1
    have hk := (conj_selected r _ hconj).1 hr
    refine hl pre c g post e ⟨hk c (List.mem_map.2 ⟨_, x1, rfl⟩), ?_⟩
    have hc : c.conj = true := (h _ x1).1
    rw [if_pos hc]
    refine (conj_selected r _ (fun y hy => hconj y ?_)).2 (fun y hy => hk y ?_)
    all_goals
      rw [e, List.map_append]
      exact List.mem_append_left _ hy

/-- **C131**: without `or` the interval applies to every record returned. -/
theorem c131_every {E : Env} {ε : ℝ} (hE : Rounds E ε) (hw : DataSet o q mode bs s) (hsel : Selectable S o bs s ant)
    (hf : Holds f size s.w.out) (hn : ∀ b ∈ bs, b.vis.flags.length ≤ nsize) {v : VisR} (hv : AtStart s v.r) (hc : v.r.callno = 0)
    (ho : v.flagOff = 0) (hm : FlagFile s v.m) (pre post : List Call) (hpre : ∀ c ∈ pre, Narrow c)
    (hpost : ∀ c ∈ post, Narrow c ∧ c ≠ .other .clear) (g : Range) (hg : 0 ≤ g.lo ∧ g.lo < g.hi) {fuel : Nat} (hfuel : bs.length < fuel) :
    ∃ sel l, aselectAll E noASel (pre.map .call ++ .amp g.lo g.hi g.incl :: post.map .call) = some sel ∧
      areadAll S E sel.amps f size nsize fuel ⟨v, sel.sel⟩ = some l ∧
      List.Forall₂ (fun p r => ∃ fl, Returned o q mode s (p.1, { p.2 with flags := fl }) r ∧ fl.length = p.2.flags.length ∧
        ∀ (k : Nat) (x x' : Bool), fl[k]? = some x → p.2.flags[k]? = some x' → Clipped ε (some g) (power E p.2.data k) x x')
        l (wanted S s ant ((aspec (pre.map .call ++ .amp g.lo g.hi g.incl :: post.map .call)).map (·.1)) bs) := by
  have hnone : ∀ l : List Call, (l.map ACall.call).filter ACall.isAmp = [] := by
    intro l
    rw [List.filter_eq_nil_iff]
    intro x hx
    obtain ⟨y, _, rfl⟩ := List.mem_map.1 hx
    simp [ACall.isAmp]
  obtain ⟨sel, l, l1, l2, l3⟩ := c131_read_partial (nsize := nsize) hE hw hsel hf hn hv hc ho hm
    (pre.map .call ++ .amp g.lo g.hi g.incl :: post.map .call) (by
      intro x hx
      rcases List.mem_append.1 hx with hx | hx
      · obtain ⟨y, y1, rfl⟩ := List.mem_map.1 hx
        exact (hpre y y1).1
      · rcases List.mem_cons.1 hx with rfl | hx
        · exact hg
        · obtain ⟨y, y1, rfl⟩ := List.mem_map.1 hx
          exact (hpost y y1).1.1) (by
      rw [List.filter_append, hnone, List.nil_append, List.filter_cons, hnone]
      split <;> simp) hfuel
  refine ⟨sel, l, l1, l2, ?_⟩
  obtain ⟨e1, e2⟩ := every_spec pre post hpre hpost g
  generalize aspec (pre.map .call ++ .amp g.lo g.hi g.incl :: post.map .call) = sp at l3 e1 e2
  have hwant : ∀ x ∈ wanted S s ant (sp.map (·.1)) bs, SpecSelected (recAt S s (ant x.1) x.2) (sp.map (·.1)) := by
    intro x hx
    have := (List.mem_filter.1 hx).2
    simp only [decide_eq_true_eq] at this
    exact this
  generalize wanted S s ant (sp.map (·.1)) bs = ws at l3 hwant
  clear l1 l2
  induction l3 with
  | nil => exact .nil
  | cons h _ ih =>
    refine .cons ?_ (ih fun x hx => hwant x (List.mem_cons_of_mem _ hx))
    obtain ⟨fl, f1, f2, lim, f3, f4⟩ := h.rest
    have := every_limited e1 e2 (hwant _ List.mem_cons_self) f3
    subst this
    exact ⟨fl, f1, f2, f4⟩

end

/-! ## Disagreements -/

/-- a selection by time with an interval, `and` another that the record does not pass, `or` the first one again without an interval -/
def staleCalls : List ACall :=
  [.call (.other (.oper 2 (fun r => r.attr 2 == 0) true)), .amp 0 1 true, .call (.other .conj),
    .call (.other (.oper 3 (fun r => r.attr 3 == 1) true)), .call (.other .disj), .call (.other (.oper 2 (fun r => r.attr 2 == 0) true))]

/-- **C131, disagreement**: a record gets the interval of a clause although what that clause selected was discarded by the `and` behind it,
and the clause that does select the record has no interval. -/
theorem c131_stale_violated (E : Env) : ∃ (r : Miriad.Rec) (sel : ASel), aselectAll E noASel staleCalls = some sel ∧
    ¬ SpecSelected r (((aspec staleCalls).take 2).map (·.1)) ∧ (∃ c, (aspec staleCalls).drop 2 = [(c, none)] ∧ c.Keeps r) ∧
    active r (sel.sel.clauses.zip sel.amps) true none = some (true, some (toAmp E ⟨true, 0, 1⟩)) := by
  let t2 : Miriad.Rec → Bool := fun r => r.attr 2 == 0
  let t3 : Miriad.Rec → Bool := fun r => r.attr 3 == 1
  have hlim : aselect E ⟨⟨[⟨true, none, [⟨2, false, t2⟩]⟩], [[]], 0, false⟩, [none]⟩ (.amp 0 1 true) =
      some ⟨⟨[⟨true, none, [⟨2, false, t2⟩]⟩], [[]], 0, false⟩, [some (toAmp E ⟨true, 0, 1⟩)]⟩ := by
    have : ¬ ((0 : ℝ) < 0 ∨ (1 : ℝ) ≤ 0) := by norm_num
    unfold aselect
    simp only
    rw [if_neg this]
    rfl
  refine ⟨⟨1, 2, 1, fun _ => 0⟩, ⟨⟨[⟨true, none, [⟨2, false, t2⟩]⟩, ⟨true, none, [⟨3, false, t3⟩]⟩, ⟨false, none, [⟨2, false, t2⟩]⟩],
    [[], [], []], 0, false⟩, [some (toAmp E ⟨true, 0, 1⟩), none, none]⟩, ?_, ?_, ⟨_, rfl, ?_⟩, ?_⟩
  · have e : aselectAll E noASel staleCalls = (aselect E ⟨⟨[⟨true, none, [⟨2, false, t2⟩]⟩], [[]], 0, false⟩, [none]⟩ (.amp 0 1 true)).bind
        fun s => aselectAll E s (staleCalls.drop 2) := rfl
    rw [e, hlim]
    rfl
  · intro h
    have h : (True ∧ _) ∧ SpecClause.Keeps _ ⟨true, [⟨3, true, t3⟩]⟩ := h
    have := h.2 3
    revert this
    decide
  · intro t
    by_cases ht : t = 2
    · subst ht; decide
    · have : decide (2 = t) = false := by simpa using fun h => ht h.symm
      show Verif.Miriad.groupKeeps _ (List.filter _ [_]) = true
      simp only [List.filter, this]
      rfl
  · rfl

/-- **C131, disagreement**: two clauses with intervals that both select a record: reading it is a fatal error; and so is a second interval
in one clause. -/
theorem c131_two_violated (E : Env) (incl : Bool) : (∃ sel, aselectAll E noASel [.amp 0 1 true, .call (.other .conj), .amp 0 2 true] = some sel ∧
      ∀ S r, achosen S r sel.sel sel.amps = none) ∧
    aselectAll E noASel [.amp 0 1 true, .amp 2 3 incl] = none := by
  have h1 : ∀ s : ASel, aselect E s (.amp 0 1 true) = (setAmp (toAmp E ⟨true, 0, 1⟩) s.amps).map fun am =>
      ⟨{ s.sel with
          clauses := if s.sel.clauses.isEmpty then [newClause true] else s.sel.clauses
          vis := if s.sel.vis.isEmpty then [[]] else s.sel.vis
          init := false }, am⟩ := by
    intro s
    have : ¬ ((0 : ℝ) < 0 ∨ (1 : ℝ) ≤ 0) := by norm_num
    unfold aselect
    simp only
    rw [if_neg this]
    rfl
  have h2 : ∀ s : ASel, aselect E s (.amp 0 2 true) = (setAmp (toAmp E ⟨true, 0, 2⟩) s.amps).map fun am =>
      ⟨{ s.sel with
          clauses := if s.sel.clauses.isEmpty then [newClause true] else s.sel.clauses
          vis := if s.sel.vis.isEmpty then [[]] else s.sel.vis
          init := false }, am⟩ := by
    intro s
    have : ¬ ((0 : ℝ) < 0 ∨ (2 : ℝ) ≤ 0) := by norm_num
    unfold aselect
    simp only
    rw [if_neg this]
    rfl
  have h3 : ∀ s : ASel, aselect E s (.amp 2 3 incl) = (setAmp (toAmp E ⟨incl, 2, 3⟩) s.amps).map fun am =>
      ⟨{ s.sel with
          clauses := if s.sel.clauses.isEmpty then [newClause true] else s.sel.clauses
          vis := if s.sel.vis.isEmpty then [[]] else s.sel.vis
          init := false }, am⟩ := by
    intro s
    have : ¬ ((2 : ℝ) < 0 ∨ (3 : ℝ) ≤ 2) := by norm_num
    unfold aselect
    simp only
    rw [if_neg this]
    rfl
  constructor
  · refine ⟨⟨⟨[newClause true, newClause true], [[], []], 0, false⟩, [some (toAmp E ⟨true, 0, 1⟩), some (toAmp E ⟨true, 0, 2⟩)]⟩, ?_, ?_⟩
    · unfold aselectAll
      rw [List.foldlM_cons, h1]
      show (aselect E ⟨⟨[newClause true, newClause true], [[], []], 0, false⟩, [some (toAmp E ⟨true, 0, 1⟩), none]⟩ (.amp 0 2 true)).bind _ = _
      rw [h2]
      rfl
    · intro S r
      unfold achosen
      rw [if_neg (by simp)]
      cases seeRec S r with
      | none => rfl
      | some x => rfl
  · unfold aselectAll
    rw [List.foldlM_cons, h1]
    show (aselect E ⟨⟨[newClause true], [[]], 0, false⟩, [some (toAmp E ⟨true, 0, 1⟩)]⟩ (.amp 2 3 incl)).bind _ = _
    rw [h3]
    rfl

/-! ## Example -/

/-- exact arithmetic -/
def demoFloat : Env := ⟨fun n => n, id⟩

theorem demo_rounds : Rounds demoFloat 0 := ⟨le_refl _, by norm_num, fun x _ => ⟨by simp [demoFloat], by simp [demoFloat]⟩⟩

/-- the theorems apply to the example of C79, with an interval that excludes -/
example : ∃ (s : VisW) (v : VisR) (sel : ASel) (l : List (VisR × Out)),
    aselectAll demoFloat noASel [.call (.other (.antennae 2 3 true)), .amp 1 2 false, .call (.other .disj), .call (.vis 1 1 true)] = some sel ∧
    areadAll demoEnv demoFloat sel.amps (content s.w.out) s.w.offset 2 4 ⟨v, sel.sel⟩ = some l ∧
    List.Forall₂ (AReturned demoFloat 0 demoEnv demoOps demoQuant .real s demoAnt (aspec
      [.call (.other (.antennae 2 3 true)), .amp 1 2 false, .call (.other .disj), .call (.vis 1 1 true)])) l
      (wanted demoEnv s demoAnt ((aspec [.call (.other (.antennae 2 3 true)), .amp 1 2 false, .call (.other .disj),
        .call (.vis 1 1 true)]).map (·.1)) demoBlocks) := by
  obtain ⟨s, h1, h2, h3, ⟨m, h4⟩, h5⟩ := demo_selectable
  obtain ⟨sel, l, a1, a2, a3⟩ := c131_read_partial (nsize := 2) (v := ⟨openReader (table s.w) s.w.offset, 0, m⟩) demo_rounds h1 h2 h3 (by decide)
    h5 rfl rfl h4 [.call (.other (.antennae 2 3 true)), .amp 1 2 false, .call (.other .disj), .call (.vis 1 1 true)] (by
      intro c hc
      simp only [List.mem_cons, List.not_mem_nil, or_false] at hc
      rcases hc with rfl | rfl | rfl | rfl
      · simp [OkA, OkSel, OkCall]
      · show (0 : ℝ) ≤ 1 ∧ (1 : ℝ) < 2; norm_num
      · trivial
      · show (1 : Int) ≤ 1 ∧ (1 : Int) ≤ 1; decide) (by decide) (fuel := 4) (by decide)
  exact ⟨s, _, sel, l, a1, a2, a3⟩

/-- a flag of a channel of amplitude 5, selected between 1 and 2 (or outside) -/
example (g' : Bool) (h : Clipped 0 (some ⟨true, 1, 2⟩) 25 true g') : g' = false := by
  have := h.2.2 (Or.inr (by norm_num))
  simpa using this

example (g' : Bool) (h : Clipped 0 (some ⟨false, 1, 2⟩) 25 true g') : g' = true := by
  have := h.2.2 (Or.inr (by norm_num))
  simpa using this

end Verif.Mir.UvAmp
