import Verif.Mir.PipeRead
import Verif.Mir.PipeWrite

/-!
# Property C51 : copying a data set with `init_from_uv` and `pipe`
-/
namespace Verif.Mir.Uv

open Verif.Mir.Hio (Byte)
open Verif.Mir.Mask (Mask)

/-! ## Specification -/

/-- the records of a data set: the state of the reader after each, and what is read -/
inductive Reads (f : Nat → Byte) (size nsize : Nat) : VisR → List (VisR × Out) → Prop
  | done {S S' : VisR} : uvread f size nsize S = .eof S' → Reads f size nsize S []
  | more {S S1 : VisR} {out : Out} {l : List (VisR × Out)} : uvread f size nsize S = .ok S1 out →
      Reads f size nsize S1 l → Reads f size nsize S ((S1, out) :: l)

/-- the same, whatever the records are read with -/
inductive Chain : VisR → List (VisR × Out) → Prop
  | done {S : VisR} : Chain S []
  | more {S S1 : VisR} {out : Out} {l : List (VisR × Out)} : Step S S1 out → Chain S1 l → Chain S ((S1, out) :: l)

theorem Reads.chain {f : Nat → Byte} {size nsize : Nat} {S : VisR} {l : List (VisR × Out)} (h : Reads f size nsize S l) :
    Chain S l := by
  induction h with
  | done _ => exact .done
  | more h _ ih => exact .more (uvread_step h) ih

/-- the loop of `pipe` for the records that are read -/
def pipeList (E : Env) (nsize : Nat) (mf : MFunc) : Nat → List (VisR × Out) → VisW → Option VisW
  | _, [], s => some s
  | k, (S1, out) :: l, s =>
    match assignAll s (copyvr S1.r) with
    | none => none
    | some s1 =>
      match writeMaybe E s1 (mf k (E.show nsize out)) with
      | none => none
      | some s2 => pipeList E nsize mf (k + 1) l s2

theorem pipe_list {E : Env} {f : Nat → Byte} {size nsize : Nat} {mf : MFunc} {S : VisR} {l : List (VisR × Out)}
    (hr : Reads f size nsize S l) : ∀ (fuel k : Nat) (s : VisW), l.length < fuel →
      pipeLoop E f size nsize mf fuel k S s = pipeList E nsize mf k l s := by
  induction hr with
  | done h =>
    intro fuel k s hf
    obtain ⟨n, rfl⟩ : ∃ n, fuel = n + 1 := ⟨fuel - 1, by simp at hf; omega⟩
    simp only [pipeLoop, h, pipeList]
  | @more S S1 out l h hr ih =>
    intro fuel k s hf
    obtain ⟨n, rfl⟩ : ∃ n, fuel = n + 1 := ⟨fuel - 1, by simp at hf; omega⟩
    have hf' : l.length < n := by simp at hf; omega
    simp only [pipeLoop, h, pipeList]
    cases assignAll s (copyvr S1.r) with
    | none => rfl
    | some s1 =>
      simp only
      cases writeMaybe E s1 (mf k (E.show nsize out)) with
      | none => rfl
      | some s2 => exact ih n (k + 1) s2 hf'

/-- the records that `mfunc` keeps: the state of the reader, and what is to be written -/
def kept (E : Env) (nsize : Nat) (mf : MFunc) : Nat → List (VisR × Out) → List (VisR × PyRec)
  | _, [] => []
  | k, (S, out) :: l =>
    match mf k (E.show nsize out) with
    | none => kept E nsize mf (k + 1) l
    | some p => (S, p) :: kept E nsize mf (k + 1) l

/-- `mfunc` changes data and flags, not the preamble or the number of channels -/
structure Polite (mf : MFunc) : Prop where
  pre : ∀ k p p', mf k p = some p' → p'.u = p.u ∧ p'.v = p.v ∧ p'.w = p.w ∧ p'.time = p.time ∧ p'.i = p.i ∧ p'.j = p.j
  flags : ∀ k p p', mf k p = some p' → p'.flags.length = p.flags.length
  data : ∀ k p p', mf k p = some p' → p'.data.length = p.data.length

/-- the variables that `uvwrite_c` writes itself, and their types -/
def std : List (Name × Ty) :=
  [(nmCoord, .dble), (nmTime, .dble), (nmBl, .real), (nmNchan, .int), (nmTscale, .real)]

/-- a record in order: a preamble of three coordinates, the channels that `nchan` says, a baseline number that is the
one `UVObject_write` chooses for its antennas -/
structure RecOk (E : Env) (nsize : Nat) (S : VisR) (out : Out) : Prop where
  coord : ∃ d, getvr S.r nmCoord .dble = some d ∧ d.length = 24
  time : ∃ d, getvr S.r nmTime .dble = some d ∧ d.length = 8
  bl : ∃ d, getvr S.r nmBl .real = some d ∧ d.length = 4
  nchan : getvr S.r nmNchan .int = some (be32 nsize)
  flags : out.flags.length = nsize
  data : (E.value out.data).length = 8 * nsize
  canon : E.bl.bits (Codes.mkbl (Codes.geti (E.bl.val out.bl)).toNat (Codes.getj (E.bl.val out.bl)).toNat) = out.bl
  small : ∀ v ∈ S.r.vars, v.copy = true → v.ty = .int2 → v.length < 2 ^ 30

/-- records that can be copied: `us` is what `init_from_uv` assigns, `ks` the variables it tracks, `l` the records -/
structure Listed (E : Env) (nsize : Nat) (over : List (Name × PyVal)) (excl : List Name)
    (us : List User) (ks : List Name) (S : VisR) (l : List (VisR × Out)) : Prop where
  init : initFrom E S.r over excl S.r.vars = some (us, ks)
  initOk : ∀ u ∈ us, EvOk u.ev
  chain : Chain { S with r := track S.r ks } l
  recs : ∀ x ∈ l, RecOk E nsize x.1 x.2
  first : ∀ S1 out l', l = (S1, out) :: l' → ∀ v ∈ S1.r.vars, v.name ∈ ks →
    S1.r.mark ≤ v.callno ∧ S1.r.copy = true
  good : AllGood S.r.vars
  names : (S.r.vars.map (·.name)).Nodup
  short : ∀ v ∈ S.r.vars, v.name.length ≤ MAXNAM
  few : S.r.vars.length ≤ 122
  types : ∀ v ∈ S.r.vars, ∀ ty, (v.name, ty) ∈ std → v.ty = ty
  plain : ∀ v ∈ S.r.vars, v.copy = false
  own : ∀ x ∈ std, x.1 ≠ nmTscale → x.1 ∉ excl ∧ over.find? (fun p => p.1 = x.1) = none
  chans : 0 < nsize ∧ nsize < 2 ^ 28

/-- a data set that can be copied -/
structure Source (E : Env) (f : Nat → Byte) (size nsize : Nat) (over : List (Name × PyVal)) (excl : List Name)
    (us : List User) (ks : List Name) (S : VisR) (l : List (VisR × Out)) : Prop
    extends Listed E nsize over excl us ks S l where
  reads : Reads f size nsize { S with r := track S.r ks } l

/-! ## The calls -/

/-- the assignments and visibilities that the loop writes; the assignments of a record that is omitted come before the
next -/
def blocksOf (E : Env) (nsize : Nat) (mf : MFunc) : Nat → List User → List (VisR × Out) → List Block × List User
  | _, pend, [] => ([], pend)
  | k, pend, (S, out) :: l =>
    match mf k (E.show nsize out) with
    | none => blocksOf E nsize mf (k + 1) (pend ++ copyvr S.r) l
    | some p => (⟨pend ++ copyvr S.r, E.vis p⟩ :: (blocksOf E nsize mf (k + 1) [] l).1, (blocksOf E nsize mf (k + 1) [] l).2)

theorem assignAll_append (s : VisW) (a b : List User) :
    assignAll s (a ++ b) = (assignAll s a).bind fun s1 => assignAll s1 b := by
  unfold assignAll
  rw [List.map_append, wrun_append]
  cases wrun s.w (a.map User.ev) with
  | none => rfl
  | some w =>
    simp only [Option.bind_some, Option.map_some]
    cases wrun w (b.map User.ev) with
    | none => rfl
    | some w' => simp

theorem assignAll_nil (s : VisW) : assignAll s [] = some s := by
  simp [assignAll, wrun]

theorem pipe_blocks (E : Env) (nsize : Nat) (mf : MFunc) (l : List (VisR × Out)) :
    ∀ (k : Nat) (s : VisW) (pend : List User),
      ((assignAll s pend).bind fun s1 => pipeList E nsize mf k l s1) =
      ((writeBlocks E.o E.q E.junk E.mode s (blocksOf E nsize mf k pend l).1).bind fun s1 =>
        assignAll s1 (blocksOf E nsize mf k pend l).2) := by
  induction l with
  | nil =>
    intro k s pend
    simp only [blocksOf, writeBlocks, Option.bind_some]
    cases assignAll s pend with
    | none => rfl
    | some s1 => simp only [Option.bind_some, pipeList]
  | cons x l ih =>
    obtain ⟨S1, out⟩ := x
    intro k s pend
    cases hm : mf k (E.show nsize out) with
    | none =>
      have e : blocksOf E nsize mf k pend ((S1, out) :: l) = blocksOf E nsize mf (k + 1) (pend ++ copyvr S1.r) l := by
        rw [blocksOf, hm]
      rw [e, ← ih (k + 1) s (pend ++ copyvr S1.r), assignAll_append]
      cases assignAll s pend with
      | none => rfl
      | some s1 =>
        simp only [Option.bind_some, pipeList, hm]
        cases assignAll s1 (copyvr S1.r) with
        | none => rfl
        | some s2 => rfl
    | some p =>
      have e : blocksOf E nsize mf k pend ((S1, out) :: l) = (⟨pend ++ copyvr S1.r, E.vis p⟩ ::
          (blocksOf E nsize mf (k + 1) [] l).1, (blocksOf E nsize mf (k + 1) [] l).2) := by
        rw [blocksOf, hm]
      rw [e]
      simp only [writeBlocks, writeBlock, assignAll_append]
      cases assignAll s pend with
      | none => rfl
      | some s1 =>
        simp only [Option.bind_some, pipeList, hm]
        cases assignAll s1 (copyvr S1.r) with
        | none => rfl
        | some s2 =>
          simp only [Option.bind_some, writeMaybe]
          cases uvwrite E.o E.q E.junk E.mode s2 (E.vis p) with
          | none => rfl
          | some s3 =>
            simp only [Option.bind_some]
            have := ih (k + 1) s3 []
            rw [assignAll_nil] at this
            exact this

/-! ## Totality -/

theorem assignAll_total {σ : Scheme} {s : VisW} (h : Typed σ s.w) (ps : List User) (hp : ∀ p ∈ ps, EvIn σ p.ev) :
    ∃ s', assignAll s ps = some s' ∧ Typed σ s'.w := by
  obtain ⟨w', h1, h2⟩ := wrun_total h (ps.map User.ev) (by
    intro e he
    obtain ⟨p, hp', rfl⟩ := List.mem_map.1 he
    exact hp p hp')
  exact ⟨{ s with w := w', evs := s.evs ++ ps.map User.ev }, by simp [assignAll, h1], h2⟩

/-- the scheme knows the variables of `uvwrite_c` -/
structure KnowsStd (σ : Scheme) (mode : Ty) : Prop where
  corr : nmCorr ∈ σ.names ∧ σ.ty nmCorr = mode
  std : ∀ x ∈ std, x.1 ∈ σ.names ∧ σ.ty x.1 = x.2

theorem visEvs_in {σ : Scheme} {mode : Ty} (h : KnowsStd σ mode) (o : FpOps) (q : Quant) (first : Bool) (n0 : Nat)
    (c : Cache) (v : Vis) : ∀ e ∈ visEvs o q mode first n0 c v, EvIn σ e := by
  have h1 := h.std (nmCoord, .dble) (by simp [Uv.std])
  have h2 := h.std (nmTime, .dble) (by simp [Uv.std])
  have h3 := h.std (nmBl, .real) (by simp [Uv.std])
  have h4 := h.std (nmNchan, .int) (by simp [Uv.std])
  have h5 := h.std (nmTscale, .real) (by simp [Uv.std])
  have h6 := h.corr
  intro e he
  unfold visEvs at he
  simp only [List.mem_append] at he
  rcases he with (((((he | he) | he) | he) | he) | he) | he
  · split at he <;> simp at he
    rcases he with rfl | rfl | rfl
    · exact ⟨h1.1, h1.2.symm⟩
    · exact ⟨h2.1, h2.2.symm⟩
    · exact ⟨h3.1, h3.2.symm⟩
  · split at he <;> simp at he
    subst he
    exact ⟨h4.1, h4.2.symm⟩
  · unfold corrEvs at he
    split at he
    · rename_i hm
      simp only [List.mem_cons, List.not_mem_nil, or_false] at he
      rcases he with rfl | rfl
      · exact ⟨h5.1, h5.2.symm⟩
      · exact ⟨h6.1, (h6.2.trans hm).symm⟩
    · rw [List.mem_singleton] at he
      subst he
      exact ⟨h6.1, h6.2.symm⟩
  · split at he <;> simp at he
    subst he
    exact ⟨h1.1, h1.2.symm⟩
  · split at he <;> simp at he
    subst he
    exact ⟨h2.1, h2.2.symm⟩
  · split at he <;> simp at he
    subst he
    exact ⟨h3.1, h3.2.symm⟩
  · rw [List.mem_singleton] at he
    subst he
    trivial

theorem writeBlock_total {σ : Scheme} {o q junk mode} (hk : KnowsStd σ mode) {s : VisW} (h : Typed σ s.w) (b : Block)
    (hb : ∀ p ∈ b.users, EvIn σ p.ev) : ∃ s', writeBlock o q junk mode s b = some s' ∧ Typed σ s'.w := by
  obtain ⟨s1, h1, h2⟩ := assignAll_total h b.users hb
  obtain ⟨w2, h3, h4⟩ := wrun_total h2 (callEvs o q junk mode s1 b.vis) (visEvs_in hk o q _ _ _ _)
  refine ⟨⟨w2, some (newCache o (theCache o junk s1 b.vis) b.vis), s1.flagOff + b.vis.flags.length,
      s1.flagOps ++ [.write s1.flagOff b.vis.flags], s1.evs ++ callEvs o q junk mode s1 b.vis⟩, ?_, h4⟩
  unfold writeBlock
  rw [h1]
  simp only [Option.bind_some, uvwrite, h3, Option.map_some]

theorem writeBlocks_total {σ : Scheme} {o q junk mode} (hk : KnowsStd σ mode) (bs : List Block) : ∀ {s : VisW},
    Typed σ s.w → (∀ b ∈ bs, ∀ p ∈ b.users, EvIn σ p.ev) →
    ∃ s', writeBlocks o q junk mode s bs = some s' ∧ Typed σ s'.w := by
  induction bs with
  | nil => intro s h _; exact ⟨s, rfl, h⟩
  | cons b bs ih =>
    intro s h hb
    obtain ⟨s1, h1, h2⟩ := writeBlock_total (o := o) (q := q) (junk := junk) hk h b (hb b List.mem_cons_self)
    obtain ⟨s2, h3, h4⟩ := ih h2 (fun b' hb' => hb b' (List.mem_cons_of_mem _ hb'))
    exact ⟨s2, by simp only [writeBlocks, h1, Option.bind_some, h3], h4⟩

/-! ## The values in the copy -/

theorem vis_nchan (o : FpOps) (q : Quant) (mode : Ty) (first : Bool) (n0 : Nat) (c : Cache) (v : Vis)
    (acc : Option (List Byte)) : (visEvs o q mode first n0 c v).foldl (assign nmNchan) acc =
      if v.flags.length ≠ n0 then some (be32 v.flags.length) else acc := by
  unfold visEvs corrEvs
  cases first <;> by_cases h1 : v.flags.length ≠ n0 <;> by_cases h2 : mode = .int2 <;> by_cases h3 : coordEq o c v = true <;>
    by_cases h4 : o.deq v.time c.time = true <;> by_cases h5 : o.feq v.bl c.bl = true <;>
    simp [h1, h2, h3, h4, h5, assign_put, assign_noCheck, assign_next, nmCoord, nmTime, nmBl, nmNchan, nmCorr, nmTscale,
      be32_ne]

theorem vis_other (o : FpOps) (q : Quant) (mode : Ty) (first : Bool) (n0 : Nat) (c : Cache) (v : Vis) (nm : Name)
    (acc : Option (List Byte)) (h1 : nm ≠ nmCoord) (h2 : nm ≠ nmTime) (h3 : nm ≠ nmBl) (h4 : nm ≠ nmNchan)
    (h5 : nm ≠ nmCorr) (h6 : nm = nmTscale → mode ≠ .int2) :
    (visEvs o q mode first n0 c v).foldl (assign nm) acc = acc := by
  have key : ∀ (es : List Ev) (acc : Option (List Byte)), (∀ e ∈ es, ∀ n ty d, e = .put n ty d → n ≠ nm) →
      es.foldl (assign nm) acc = acc := by
    intro es
    induction es with
    | nil => intro acc _; rfl
    | cons e es ih =>
      intro acc he
      rw [List.foldl_cons, ih _ (fun e' he' => he e' (List.mem_cons_of_mem _ he'))]
      cases e with
      | next => rfl
      | noCheck n t => rfl
      | reopen => rfl
      | put n t d =>
        rw [assign_put, if_neg]
        rintro ⟨hn, _⟩
        exact he _ List.mem_cons_self n t d rfl hn
  refine key _ acc ?_
  intro e he n ty d hd
  subst hd
  unfold visEvs at he
  simp only [List.mem_append] at he
  rcases he with (((((he | he) | he) | he) | he) | he) | he
  · split at he <;> simp at he
  · split at he <;> simp at he
    rw [he.1]; exact Ne.symm h4
  · unfold corrEvs at he
    split at he
    · rename_i hm
      simp only [List.mem_cons, Ev.put.injEq, List.not_mem_nil, or_false] at he
      rcases he with he | he
      · rw [he.1]
        intro hc
        exact h6 hc.symm hm
      · rw [he.1]; exact Ne.symm h5
    · simp only [List.mem_singleton, Ev.put.injEq] at he
      rw [he.1]; exact Ne.symm h5
  · split at he <;> simp at he
    rw [he.1]; exact Ne.symm h1
  · split at he <;> simp at he
    rw [he.1]; exact Ne.symm h2
  · split at he <;> simp at he
    rw [he.1]; exact Ne.symm h3
  · simp at he

end Verif.Mir.Uv
