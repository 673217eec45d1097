import Verif.Mir.PipeState
import Verif.Mir.PipeDemo

/-!
# Property C83 : the script `uv_addsub.py`

`/repo/scripts/uv_addsub.py` 20-39: `mfunc` reads a record of the second file for each record of the first.

The sum of two numbers (`complex64`, 8 bytes) is a parameter.  Arrays of different sizes raise here (numpy would stretch an
array of one channel; this is not modelled).
-/
namespace Verif.Mir.Uv

open Verif.Mir.Hio (Byte)
open Verif.Mir.Mask (Mask)

/-! ## Model -/

/-- numpy's arithmetic of `complex64` -/
structure CArith where
  add : List Byte → List Byte → List Byte
  sub : List Byte → List Byte → List Byte

/-- an element of an array of `complex64` -/
def elem (d : List Byte) (k : Nat) : List Byte := (d.drop (8 * k)).take 8

/-- the body of `mfunc` after the second file was read, uv_addsub.py 26-29.  (`flags` here are true for good data, the
flags of python are true for bad data.) -/
def combine (A : CArith) (sub : Bool) (p p2 : PyRec) : Option PyRec :=
  if p.flags.length = p2.flags.length ∧ p.data.length = p2.data.length then
    let f := List.zipWith (fun a b => !a || !b) p.flags p2.flags
    let d := (List.range p.flags.length).map fun k => (if sub then A.sub else A.add) (elem p.data k) (elem p2.data k)
    some { p with flags := f.map (!·), data := (List.zipWith (fun b x => if b then List.replicate 8 0 else x) f d).flatten }
  else none

/-- `mfunc`, uv_addsub.py 24-29; the state is the second file.  At its end `read` raises. -/
def addSub (E : Env) (A : CArith) (sub : Bool) (f2 : Nat → Byte) (size2 nsize2 : Nat) : Proc VisR := fun S2 _ p =>
  match uvread f2 size2 nsize2 S2 with
  | .ok S2' out2 => (combine A sub p (E.show nsize2 out2)).map fun q => (S2', some q)
  | _ => none

/-! ## What is expected -/

/-- the eight bytes of a channel -/
def at8 (d : List Byte) (k : Nat) : List Byte := (List.range 8).map fun i => d.getD (8 * k + i) 0

/-- the record read from the result: the preamble of the first, flagged where one of them is, the sum elsewhere and zero
where it is flagged -/
structure Combined (o : FpOps) (sum : List Byte → List Byte → List Byte) (x y : Vis) (out : Out) : Prop where
  u : SameD o out.u x.u
  v : SameD o out.v x.v
  w : ∃ z, out.w = some z ∧ SameD o z x.w
  time : SameD o out.time x.time
  bl : SameF o out.bl x.bl
  size : out.flags.length = x.flags.length
  flags : ∀ (k : Nat) (a b : Bool), x.flags[k]? = some a → y.flags[k]? = some b → out.flags[k]? = some (a && b)
  data : ∃ d, out.data = .plain d ∧ d.length = 8 * x.flags.length ∧
    (∀ k, x.flags[k]? = some true → y.flags[k]? = some true → at8 d k = sum (at8 x.data k) (at8 y.data k)) ∧
    (∀ k, x.flags[k]? = some false ∨ y.flags[k]? = some false → at8 d k = List.replicate 8 0)

/-! ## Lemmas -/

theorem elem_at8 {d : List Byte} {k : Nat} (h : 8 * k + 8 ≤ d.length) : elem d k = at8 d k := by
  unfold elem at8
  apply List.ext_getElem
  · simp; omega
  · intro i h1 h2
    simp only [List.getElem_take, List.getElem_drop, List.getElem_map, List.getElem_range]
    simp only [List.length_map, List.length_range] at h2
    rw [List.getD_eq_getElem?_getD, List.getElem?_eq_getElem (by omega)]
    rfl

theorem flatten_len {l : List (List Byte)} (h : ∀ x ∈ l, x.length = 8) : l.flatten.length = 8 * l.length := by
  induction l with
  | nil => rfl
  | cons a l ih =>
    rw [List.flatten_cons, List.length_append, h a List.mem_cons_self, ih (fun x hx => h x (List.mem_cons_of_mem _ hx)),
      List.length_cons]
    omega

theorem flatten_elem {l : List (List Byte)} (h : ∀ x ∈ l, x.length = 8) : ∀ {k : Nat} {x : List Byte}, l[k]? = some x →
    elem l.flatten k = x := by
  induction l with
  | nil => intro k x hx; cases hx
  | cons a l ih =>
    intro k x hx
    have ha := h a List.mem_cons_self
    cases k with
    | zero =>
      cases hx
      unfold elem
      rw [List.flatten_cons, Nat.mul_zero, List.drop_zero, ← ha, List.take_left]
    | succ k =>
      have := ih (fun x hx => h x (List.mem_cons_of_mem _ hx)) (k := k) (x := x) (by simpa using hx)
      rw [← this]
      unfold elem
      rw [List.flatten_cons, List.drop_append, List.drop_of_length_le (by omega), List.nil_append, ha]
      congr 2

theorem combine_spec {A : CArith} (hA : ∀ a b, (A.add a b).length = 8 ∧ (A.sub a b).length = 8) {sub : Bool} {p p2 : PyRec}
    (hf : p.flags.length = p2.flags.length) (hd : p.data.length = 8 * p.flags.length)
    (hd2 : p2.data.length = 8 * p2.flags.length) :
    ∃ q, combine A sub p p2 = some q ∧ Mild p q ∧
      (∀ (k : Nat) (a b : Bool), p.flags[k]? = some a → p2.flags[k]? = some b → q.flags[k]? = some (a && b)) ∧
      (∀ k, p.flags[k]? = some true → p2.flags[k]? = some true →
        at8 q.data k = (if sub then A.sub else A.add) (at8 p.data k) (at8 p2.data k)) ∧
      (∀ k, p.flags[k]? = some false ∨ p2.flags[k]? = some false → at8 q.data k = List.replicate 8 0) := by
  have hc : combine A sub p p2 = _ := if_pos ⟨hf, by omega⟩
  refine ⟨_, hc, ?_⟩
  let L := List.zipWith (fun (b : Bool) x => if b then List.replicate 8 (0 : Byte) else x)
    (List.zipWith (fun a b => !a || !b) p.flags p2.flags)
    ((List.range p.flags.length).map fun k => (if sub then A.sub else A.add) (elem p.data k) (elem p2.data k))
  have hLlen : L.length = p.flags.length := by simp [L, hf]
  have h8 : ∀ x ∈ L, x.length = 8 := by
    intro x hx
    obtain ⟨k, hk, rfl⟩ := List.getElem_of_mem hx
    simp only [L, List.getElem_zipWith, List.getElem_map]
    split
    · simp
    · split
      · exact (hA _ _).2
      · exact (hA _ _).1
  have hlen : L.flatten.length = 8 * p.flags.length := by rw [flatten_len h8, hLlen]
  have hget : ∀ (k : Nat) (a b : Bool), p.flags[k]? = some a → p2.flags[k]? = some b → k < p.flags.length ∧
      L[k]? = some (if (!a || !b) then List.replicate 8 0 else
        (if sub then A.sub else A.add) (elem p.data k) (elem p2.data k)) := by
    intro k a b ha hb
    have hk : k < p.flags.length := (List.getElem?_eq_some_iff.1 ha).1
    refine ⟨hk, ?_⟩
    simp only [L, List.getElem?_zipWith, ha, hb, List.getElem?_map, List.getElem?_range hk, Option.map_some]
  have hat : ∀ (k : Nat) (a b : Bool), p.flags[k]? = some a → p2.flags[k]? = some b → at8 L.flatten k =
      if (!a || !b) then List.replicate 8 0 else (if sub then A.sub else A.add) (at8 p.data k) (at8 p2.data k) := by
    intro k a b ha hb
    obtain ⟨hk, hg⟩ := hget k a b ha hb
    rw [← elem_at8 (by omega), flatten_elem h8 hg, elem_at8 (d := p.data) (by omega), elem_at8 (d := p2.data) (by omega)]
  refine ⟨⟨rfl, rfl, rfl, rfl, rfl, rfl, by simp [hf], by rw [hd]; exact hlen⟩, ?_, ?_, ?_⟩
  · intro k a b ha hb
    simp only [List.getElem?_map, List.getElem?_zipWith, ha, hb, Option.map_some]
    cases a <;> cases b <;> rfl
  · intro k ha hb
    exact hat k true true ha hb
  · intro k h
    rcases h with h | h
    · have hk := (List.getElem?_eq_some_iff.1 h).1
      have := hat k false _ h (List.getElem?_eq_getElem (hf ▸ hk))
      exact this
    · have hk := (List.getElem?_eq_some_iff.1 h).1
      have := hat k _ false (List.getElem?_eq_getElem (hf ▸ hk)) h
      rw [Bool.not_false, Bool.or_true, if_pos rfl] at this
      exact this

section

variable {E : Env} {o o2 : FpOps} {q q2 : Quant} {junk junk2 : Nat → Nat} {bs bs2 : List Block} {W W2 : VisW} {n n2 : Nat}

/-- the records of the second file, one by one -/
theorem run_addSub {A : CArith} {sub : Bool} {f2 : Nat → Byte} {size2 nsize : Nat} {n : Nat}
    (hA : ∀ a b, (A.add a b).length = 8 ∧ (A.sub a b).length = 8) {S2 : VisR} {l2 : List (VisR × Out)}
    (hr2 : Reads f2 size2 nsize S2 l2) : ∀ {l : List (VisR × Out)},
    (∀ x ∈ l, (E.show nsize x.2).flags.length = n ∧ (E.show nsize x.2).data.length = 8 * n) →
    (∀ x ∈ l2, (E.show nsize x.2).flags.length = n ∧ (E.show nsize x.2).data.length = 8 * n) →
    (l.length ≤ l2.length → ∃ S2' qs, runProc E nsize (addSub E A sub f2 size2 nsize) S2 l = some (S2', qs.map some) ∧
      List.Forall₂ (fun x q => Mild (E.show nsize x.2) q) l qs ∧
      ∀ (j : Nat) (x y : VisR × Out) (q : PyRec), l[j]? = some x → l2[j]? = some y → qs[j]? = some q →
        combine A sub (E.show nsize x.2) (E.show nsize y.2) = some q) ∧
    (l2.length < l.length → runProc E nsize (addSub E A sub f2 size2 nsize) S2 l = none) := by
  induction hr2 with
  | @done S2 S2' he =>
    intro l hl _
    cases l with
    | nil => exact ⟨fun _ => ⟨S2, [], rfl, .nil, by intro j x y q h; cases h⟩, by simp⟩
    | cons a l =>
      obtain ⟨S, out⟩ := a
      refine ⟨by simp, fun _ => ?_⟩
      rw [runProc]
      unfold addSub
      rw [he]
  | @more S2 S2' out2 l2 he hr ih =>
    intro l hl hl2
    cases l with
    | nil => exact ⟨fun _ => ⟨S2, [], rfl, .nil, by intro j x y q h; cases h⟩, by simp⟩
    | cons a l =>
      obtain ⟨S, out⟩ := a
      obtain ⟨i1, i2⟩ := ih (l := l) (fun x hx => hl x (List.mem_cons_of_mem _ hx)) (fun x hx => hl2 x (List.mem_cons_of_mem _ hx))
      obtain ⟨c1, c2⟩ := hl _ List.mem_cons_self
      obtain ⟨c3, c4⟩ := hl2 _ List.mem_cons_self
      obtain ⟨qq, g1, g2, _⟩ := combine_spec hA (sub := sub) (p := E.show nsize out) (p2 := E.show nsize out2) (by rw [c1, c3])
        (by rw [c1, c2]) (by rw [c3, c4])
      have hstep : addSub E A sub f2 size2 nsize S2 S (E.show nsize out) = some (S2', some qq) := by
        unfold addSub
        rw [he]
        simp only [g1, Option.map_some]
      refine ⟨fun hlen => ?_, fun hlen => ?_⟩
      · obtain ⟨S3, qs, r1, r2, r3⟩ := i1 (by simp at hlen; omega)
        refine ⟨S3, qq :: qs, ?_, .cons g2 r2, ?_⟩
        · rw [runProc, hstep]
          simp only [r1, Option.map_some, List.map_cons]
        · intro j x y z hx hy hz
          cases j with
          | zero => cases hx; cases hy; cases hz; exact g1
          | succ j => exact r3 j x y z (by simpa using hx) (by simpa using hy) (by simpa using hz)
      · rw [runProc, hstep]
        simp only [i2 (by simp at hlen; omega), Option.map_none]

theorem addSub_mild {A : CArith} {sub : Bool} {f2 : Nat → Byte} {size2 nsize : Nat} {n : Nat}
    (hA : ∀ a b, (A.add a b).length = 8 ∧ (A.sub a b).length = 8) {l : List (VisR × Out)}
    (hl : ∀ x ∈ l, (E.show nsize x.2).flags.length = n ∧ (E.show nsize x.2).data.length = 8 * n) :
    MildOn E nsize (addSub E A sub f2 size2 nsize) l := by
  intro S2 S out hx S2' q h
  unfold addSub at h
  cases hu : uvread f2 size2 nsize S2 with
  | eof _ => rw [hu] at h; cases h
  | bad => rw [hu] at h; cases h
  | ok S3 out2 =>
    rw [hu] at h
    simp only at h
    cases hc : combine A sub (E.show nsize out) (E.show nsize out2) with
    | none => rw [hc] at h; cases h
    | some q' =>
      rw [hc] at h
      cases h
      have hcond : (E.show nsize out).flags.length = (E.show nsize out2).flags.length ∧
          (E.show nsize out).data.length = (E.show nsize out2).data.length := by
        by_contra hne
        unfold combine at hc
        rw [if_neg hne] at hc
        cases hc
      obtain ⟨c1, c2⟩ := hl _ hx
      obtain ⟨q'', g1, g2, _⟩ := combine_spec hA (sub := sub) (p := E.show nsize out) (p2 := E.show nsize out2) hcond.1
        (by rw [c1, c2]) (by rw [← hcond.1, ← hcond.2, c1, c2])
      rw [hc] at g1
      cases g1
      exact g2

/-- the arrays that python gets for the records of a data set -/
theorem matches_show {mode : Ty} {bs : List Block} {W : VisW} (hreal : mode = .real) (ha : Archive E o q junk mode bs W n)
    {out : Out} {b : Block} (hb : b ∈ bs) (hm : Matches o q mode out b.vis) :
    (E.show n out).flags = b.vis.flags ∧ (E.show n out).data = b.vis.data ∧ b.vis.flags.length = n ∧
      b.vis.data.length = 8 * n := by
  subst hreal
  have hc := ha.chans b hb
  have hd := (ha.wr.blocks b hb).vis.data
  have e : E.value out.data = b.vis.data := by rw [hm.data]; rfl
  refine ⟨?_, ?_, hc, by rw [hd, hc]⟩
  · show out.flags ++ (List.range (n - out.flags.length)).map E.tailFlags = _
    rw [hm.flags, hc, Nat.sub_self]; simp
  · show E.value out.data ++ (List.range (8 * n - (E.value out.data).length)).map E.tailData = _
    rw [e, hd, hc, Nat.sub_self]; simp

/-- a property of all records that are read -/
theorem reads_all {l : List (VisR × Out)} {bs : List Block} {P : Out → Prop} (hlen : l.length = bs.length)
    (h : ∀ (j : Nat) (x : VisR × Out) (b : Block), l[j]? = some x → bs[j]? = some b → P x.2) : ∀ x ∈ l, P x.2 := by
  intro x hx
  obtain ⟨j, hj, rfl⟩ := List.getElem_of_mem hx
  exact h j _ _ (List.getElem?_eq_getElem hj) (List.getElem?_eq_getElem (hlen ▸ hj))

/-! ## The theorems -/

/-- **C83**: two data sets written with aipy, of the same number of channels, and the second with at least as many records.
`uv_addsub.py` does not raise.  The result has as many records as the first.  Each has the preamble of the first, is flagged
where one of the two is flagged, and holds the sum (the difference) of the two where neither is, and zero elsewhere; with
each the variables have the values they have in the first. -/
theorem c83_sum {A : CArith} (hA : ∀ a b, (A.add a b).length = 8 ∧ (A.sub a b).length = 8) (sub : Bool)
    (ha : Archive E o q junk .real bs W n) (hne : bs ≠ []) (hv : PlainVars W)
    (ha2 : Archive E o2 q2 junk2 .real bs2 W2 n) (hlen : bs.length ≤ bs2.length) (hmode : E.mode = .real)
    (hl : FpLaws E.o) (hq : QuantOk E.q) (hbl : BlLaws E.bl o) (hun : ∀ t ints, (E.unscale t ints).length = ints.length)
    {f : Nat → Byte} {size : Nat} (hf : Holds f size W.w.out) {m : Mask} (hm : FlagFile W m)
    {f2 : Nat → Byte} {size2 : Nat} (hf2 : Holds f2 size2 W2.w.out) {m2 : Mask} (hm2 : FlagFile W2 m2) :
    ∃ S S2 W', openUv E f size (table W.w) W.w.offset m = some (S, n) ∧
      openUv E f2 size2 (table W2.w) W2.w.offset m2 = some (S2, n) ∧
      (∀ fuel, bs.length < fuel → pipeSt E f size n (addSub E A sub f2 size2 n) [] [] S2 S fuel = some W') ∧
      ∀ {f' : Nat → Byte} {size' : Nat} {r0 : Reader} {m' : Mask}, Holds f' size' W'.w.out → AtStart W' r0 → FlagFile W' m' →
        (∃ R outs R', uvreadN f' size' n bs.length ⟨r0, 0, m'⟩ = some (R, outs) ∧ uvread f' size' n R = .eof R') ∧
        ∀ (j : Nat) (b b2 : Block), bs[j]? = some b → bs2[j]? = some b2 → ∃ R outs out,
          uvreadN f' size' n (j + 1) ⟨r0, 0, m'⟩ = some (R, outs ++ [out]) ∧ outs.length = j ∧
          Combined o (if sub then A.sub else A.add) b.vis b2.vis out ∧
          ∀ nm ty d, (nm, ty) ∈ table W.w → nm ≠ nmCorr → valueAfter (upTo (j + 1) W.evs) nm = some d →
            getvr R.r nm ty = some d := by
  have hne2 : bs2 ≠ [] := by
    intro h0
    rw [h0] at hlen
    exact hne (List.length_eq_zero_iff.1 (by simpa using hlen))
  obtain ⟨S, us, ks, h1, g1, g2⟩ := init_archive (E := E) ha hne hv hf hm
  obtain ⟨S2, l2, k1, k2, k3, k4⟩ := archive_reads (E := E) ha2 hne2 hf2 hm2
  obtain ⟨-, l, hsrc, hll, hl3⟩ := archive_source ha hbl hun hf hm h1 g1 g2 (by intro x _ _; simp)
  have hs1 : ∀ x ∈ l, (E.show n x.2).flags.length = n ∧ (E.show n x.2).data.length = 8 * n :=
    reads_all (P := fun out => (E.show n out).flags.length = n ∧ (E.show n out).data.length = 8 * n) hll
      (by
        intro j x b hx hb
        obtain ⟨e1, e2, e3, e4⟩ := matches_show rfl ha (List.mem_of_getElem? hb) (hl3 j x.1 x.2 b hx hb).1
        rw [e1, e2]; exact ⟨e3, e4⟩)
  have hs2 : ∀ x ∈ l2, (E.show n x.2).flags.length = n ∧ (E.show n x.2).data.length = 8 * n :=
    reads_all (P := fun out => (E.show n out).flags.length = n ∧ (E.show n out).data.length = 8 * n) k3
      (by
        intro j x b hx hb
        obtain ⟨e1, e2, e3, e4⟩ := matches_show rfl ha2 (List.mem_of_getElem? hb) (k4 j x.1 x.2 b hx hb)
        rw [e1, e2]; exact ⟨e3, e4⟩)
  obtain ⟨S3, qs, r1, r2, r3⟩ := (run_addSub (E := E) (A := A) (sub := sub) hA k2 hs1 hs2).1 (by omega)
  obtain ⟨W', w1, w2⟩ := copy_state hl hq (Or.inl hmode) hsrc r1 (addSub_mild hA hs1)
  refine ⟨S, S2, W', h1, k1, by rw [← hll]; exact w1, ?_⟩
  intro f' size' r0 m' hf' hr0 hm'
  obtain ⟨p1, p2⟩ := w2 hf' hr0 hm'
  have hkept := kept_returned (E := E) (nsize := n) (l := l) 0 [] qs rfl r2
  rw [List.nil_append] at hkept
  have hql : qs.length = l.length := r2.length_eq.symm
  rw [hkept, List.length_zip, List.length_map, hql, Nat.min_self, hll] at p1
  refine ⟨p1, ?_⟩
  intro j b b2 hb hb2
  have hj : j < l.length := by rw [hll]; exact (List.getElem?_eq_some_iff.1 hb).1
  have hj2 : j < l2.length := by rw [k3]; exact (List.getElem?_eq_some_iff.1 hb2).1
  have hlj : l[j]? = some (l[j].1, l[j].2) := List.getElem?_eq_getElem hj
  have hl2j : l2[j]? = some (l2[j].1, l2[j].2) := List.getElem?_eq_getElem hj2
  have hqj : qs[j]? = some (qs[j]'(by omega)) := List.getElem?_eq_getElem (by omega)
  generalize qs[j]'(by omega) = qj at hqj
  have hK : (kept E n (returned (qs.map some)) 0 l)[j]? = some (l[j].1, qj) := by
    rw [hkept, List.getElem?_zip_eq_some, List.getElem?_map, hlj]
    exact ⟨rfl, hqj⟩
  obtain ⟨R, outs, q1, q2, q3⟩ := p2 j _ _ hK
  obtain ⟨m1, m2'⟩ := hl3 j _ _ b hlj hb
  have mm2 := k4 j _ _ b2 hl2j hb2
  obtain ⟨e1, e2, e3, e4⟩ := matches_show rfl ha (List.mem_of_getElem? hb) m1
  obtain ⟨t1, t2, t3, t4⟩ := matches_show rfl ha2 (List.mem_of_getElem? hb2) mm2
  have hcomb := r3 j _ _ _ hlj hl2j hqj
  obtain ⟨qq, c1, c2, c3, c4, c5⟩ := combine_spec hA (sub := sub) (p := E.show n l[j].2) (p2 := E.show n l2[j].2)
    (by rw [e1, t1, e3, t3]) (by rw [e1, e2, e3, e4]) (by rw [t1, t2, t3, t4])
  rw [hcomb] at c1
  cases c1
  rw [e1, t1] at c3 c4 c5
  rw [e2, t2] at c4
  obtain ⟨d1, d2, d3, d4, d5, d6, d7, d8⟩ := c2
  rw [e1] at d7
  rw [e2] at d8
  obtain ⟨z, z1, z2⟩ := m1.w
  refine ⟨R, outs, recOf E qj, q1, q2, ⟨?_, ?_, ⟨qj.w, rfl, ?_⟩, ?_, ?_, d7, c3, ⟨qj.data, ?_, by rw [d8, e4, e3], c4, c5⟩⟩, ?_⟩
  · show SameD o qj.u b.vis.u
    rw [d1]; exact m1.u
  · show SameD o qj.v b.vis.v
    rw [d2]; exact m1.v
  · rw [d3]
    show SameD o (l[j].2.w.getD 0) b.vis.w
    rw [z1]; exact z2
  · show SameD o qj.time b.vis.time
    rw [d4]; exact m1.time
  · show SameF o (E.bl.bits (Codes.mkbl qj.i qj.j)) b.vis.bl
    rw [d5, d6]
    have hc := (hsrc.recs _ (List.getElem_mem hj)).canon
    show SameF o (E.bl.bits (Codes.mkbl (Codes.geti (E.bl.val l[j].2.bl)).toNat (Codes.getj (E.bl.val l[j].2.bl)).toNat)) b.vis.bl
    rw [hc]; exact m1.bl
  · show dataOf E.q E.mode (E.vis qj) = _
    unfold dataOf
    rw [hmode, if_neg (by decide)]
    rfl
  · intro nm ty d ht hc hvv
    have hg := m2' nm ty d ht hvv
    obtain ⟨v, hv', rfl, rfl⟩ := getvr_mem_of hg
    rw [q3 v hv' ⟨hc, by simp, by simp, fun _ => by rw [hmode]; decide⟩, hg]

/-- **C83**: where the second data set has fewer records than the first, the script raises (and does not write records that
are not sums). -/
theorem c83_short {A : CArith} (hA : ∀ a b, (A.add a b).length = 8 ∧ (A.sub a b).length = 8) (sub : Bool)
    (ha : Archive E o q junk .real bs W n) (hne : bs ≠ []) (hv : PlainVars W)
    (ha2 : Archive E o2 q2 junk2 .real bs2 W2 n) (hne2 : bs2 ≠ []) (hlen : bs2.length < bs.length)
    (hbl : BlLaws E.bl o) (hun : ∀ t ints, (E.unscale t ints).length = ints.length)
    {f : Nat → Byte} {size : Nat} (hf : Holds f size W.w.out) {m : Mask} (hm : FlagFile W m)
    {f2 : Nat → Byte} {size2 : Nat} (hf2 : Holds f2 size2 W2.w.out) {m2 : Mask} (hm2 : FlagFile W2 m2) :
    ∃ S S2, openUv E f size (table W.w) W.w.offset m = some (S, n) ∧
      openUv E f2 size2 (table W2.w) W2.w.offset m2 = some (S2, n) ∧
      ∀ fuel, pipeSt E f size n (addSub E A sub f2 size2 n) [] [] S2 S fuel = none := by
  obtain ⟨S, us, ks, h1, g1, g2⟩ := init_archive (E := E) ha hne hv hf hm
  obtain ⟨S2, l2, k1, k2, k3, k4⟩ := archive_reads (E := E) ha2 hne2 hf2 hm2
  obtain ⟨-, l, hsrc, hll, hl3⟩ := archive_source ha hbl hun hf hm h1 g1 g2 (by intro x _ _; simp)
  have hs1 : ∀ x ∈ l, (E.show n x.2).flags.length = n ∧ (E.show n x.2).data.length = 8 * n :=
    reads_all (P := fun out => (E.show n out).flags.length = n ∧ (E.show n out).data.length = 8 * n) hll
      (by
        intro j x b hx hb
        obtain ⟨e1, e2, e3, e4⟩ := matches_show rfl ha (List.mem_of_getElem? hb) (hl3 j x.1 x.2 b hx hb).1
        rw [e1, e2]; exact ⟨e3, e4⟩)
  have hs2 : ∀ x ∈ l2, (E.show n x.2).flags.length = n ∧ (E.show n x.2).data.length = 8 * n :=
    reads_all (P := fun out => (E.show n out).flags.length = n ∧ (E.show n out).data.length = 8 * n) k3
      (by
        intro j x b hx hb
        obtain ⟨e1, e2, e3, e4⟩ := matches_show rfl ha2 (List.mem_of_getElem? hb) (k4 j x.1 x.2 b hx hb)
        rw [e1, e2]; exact ⟨e3, e4⟩)
  exact ⟨S, S2, h1, k1, raise_state hsrc ((run_addSub (E := E) (A := A) (sub := sub) hA k2 hs1 hs2).2 (by omega))⟩

end

/-! ## Examples -/

/-- an addition that can be computed: byte by byte -/
def demoArith : CArith := ⟨fun a b => (List.range 8).map fun i => a.getD i 0 + b.getD i 0,
  fun a b => (List.range 8).map fun i => a.getD i 0 - b.getD i 0⟩

theorem demoArith_len (a b : List Byte) : (demoArith.add a b).length = 8 ∧ (demoArith.sub a b).length = 8 := by
  simp [demoArith]

/-- the theorem applies: a data set and itself; its first record has a flagged channel -/
example : ∃ (W' : VisW) (S S2 : VisR) (W : VisW), pipeSt demoEnv (content W.w.out) W.w.offset 2
      (addSub demoEnv demoArith false (content W.w.out) W.w.offset 2) [] [] S2 S 3 = some W' ∧
    ∀ {f' : Nat → Byte} {size' : Nat} {r0 : Reader} {m' : Mask}, Holds f' size' W'.w.out → AtStart W' r0 → FlagFile W' m' →
      ∃ R outs out d, uvreadN f' size' 2 1 ⟨r0, 0, m'⟩ = some (R, outs ++ [out]) ∧ out.data = .plain d ∧
        out.flags[1]? = some false ∧ at8 d 0 = List.replicate 8 18 ∧ at8 d 1 = List.replicate 8 0 := by
  obtain ⟨W, h1, h2, h3, m, h4⟩ := demo_archive
  obtain ⟨S, S2, W', _, _, g2, g3⟩ := c83_sum demoArith_len false h1 (by decide) h2 h1 (Nat.le_refl _) rfl demo_laws demo_quant
    demo_bl (fun _ _ => rfl) h3 h4 h3 h4
  refine ⟨W', S, S2, W, g2 3 (by decide), ?_⟩
  intro f' size' r0 m' a b c
  obtain ⟨R, outs, out, q1, _, q3, _⟩ := (g3 a b c).2 0 _ _ rfl rfl
  obtain ⟨d, d1, _, d3, d4⟩ := q3.data
  exact ⟨R, outs, out, d, q1, d1, q3.flags 1 false false rfl rfl, d3 0 rfl rfl, d4 1 (Or.inl rfl)⟩

/-- two data sets are written and opened, and `uv_addsub.py` is run -/
def addSubOf (sub : Bool) (bs bs2 : List Block) : Option VisW :=
  (writeAll .real bs).bind fun s => (writeAll .real bs2).bind fun s2 =>
    match Mask.run (Mask.mkopen (fun _ => 0) (fun _ => 0) 1) (s.flagOps ++ [.reopen (fun _ => 0)]),
      Mask.run (Mask.mkopen (fun _ => 0) (fun _ => 0) 1) (s2.flagOps ++ [.reopen (fun _ => 0)]) with
    | .ok m, .ok m2 => (openUv demoEnv (content s.w.out) s.w.offset (table s.w) s.w.offset m).bind fun x =>
        (openUv demoEnv (content s2.w.out) s2.w.offset (table s2.w) s2.w.offset m2).bind fun y =>
          pipeSt demoEnv (content s.w.out) s.w.offset x.2 (addSub demoEnv demoArith sub (content s2.w.out) s2.w.offset y.2)
            [] [] y.1 x.1 (bs.length + 1)
    | _, _ => none

def demoOther : List Block :=
  [⟨[], ⟨5, 5, 5, 5, Codes.mkbl 0 1, List.replicate 16 2, [true, true]⟩⟩,
   ⟨[], ⟨5, 5, 5, 6, Codes.mkbl 0 2, List.replicate 16 3, [false, true]⟩⟩,
   ⟨[], ⟨5, 5, 5, 7, Codes.mkbl 0 2, List.replicate 16 4, [true, true]⟩⟩]

example : (addSubOf true demoSrc demoOther).bind (fun s => readAll s 2) = some
    [⟨1, 2, some 3, 4, Codes.mkbl 0 1, .plain (List.replicate 8 7 ++ List.replicate 8 0), [true, false]⟩,
     ⟨1, 2, some 8, 6, Codes.mkbl 0 2, .plain (List.replicate 8 0 ++ List.replicate 8 254), [false, true]⟩] := by
  decide +kernel

/-- the second is shorter -/
example : addSubOf true demoSrc (demoOther.take 1) = none := by decide +kernel

end Verif.Mir.Uv
