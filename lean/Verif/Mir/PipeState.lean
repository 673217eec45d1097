import Verif.Mir.PipeWhole

/-!
# Scripts that keep something from record to record: `UV.pipe` with an `mfunc` that has a state and may raise

`mfunc` is a python function.  It sees the file that is read (`uv['pol']`), may keep things in global variables, read
another file, and raise.  Here it is a step of a state.  See `pipeLoop` for the same without a state.
-/
namespace Verif.Mir.Uv

open Verif.Mir.Hio (Byte)
open Verif.Mir.Mask (Mask)

/-- a function given to `pipe`: the state of the script, the file that is read, the record; `none` raises -/
abbrev Proc (σ : Type) := σ → VisR → PyRec → Option (σ × Option PyRec)

/-- the loop of `UV.pipe`, miriad.py 276-286: `mfunc`, `copyvr`, `write` -/
def pipeStLoop {σ : Type} (E : Env) (f : Nat → Byte) (size nsize : Nat) (pr : Proc σ) : Nat → σ → VisR → VisW → Option VisW
  | 0, _, _, _ => none
  | fuel + 1, x, S, s =>
    match uvread f size nsize S with
    | .eof _ => some s
    | .bad => none
    | .ok S1 out =>
      match pr x S1 (E.show nsize out) with
      | none => none
      | some (x1, p) =>
        match assignAll s (copyvr S1.r) with
        | none => none
        | some s1 =>
          match writeMaybe E s1 p with
          | none => none
          | some s2 => pipeStLoop E f size nsize pr fuel x1 S1 s2

/-- a new file, `init_from_uv(uv, override, exclude)`, `pipe(uv, mfunc)` -/
def pipeSt {σ : Type} (E : Env) (f : Nat → Byte) (size nsize : Nat) (pr : Proc σ) (over : List (Name × PyVal))
    (excl : List Name) (x : σ) (S : VisR) (fuel : Nat) : Option VisW :=
  match openVis E.mode, initFrom E S.r over excl S.r.vars with
  | some s0, some i =>
    match assignAll s0 i.1 with
    | none => none
    | some s1 => pipeStLoop E f size nsize pr fuel x { S with r := track S.r i.2 } s1
  | _, _ => none

/-! ## Lemmas -/

/-- what the function returns for the records that are read -/
def runProc {σ : Type} (E : Env) (nsize : Nat) (pr : Proc σ) : σ → List (VisR × Out) → Option (σ × List (Option PyRec))
  | x, [] => some (x, [])
  | x, (S, out) :: l =>
    match pr x S (E.show nsize out) with
    | none => none
    | some (x1, p) => (runProc E nsize pr x1 l).map fun r => (r.1, p :: r.2)

/-- the same without a state, from what was returned -/
def returned (ys : List (Option PyRec)) : MFunc := fun k p =>
  match ys[k]? with
  | some (some q) =>
    if q.u = p.u ∧ q.v = p.v ∧ q.w = p.w ∧ q.time = p.time ∧ q.i = p.i ∧ q.j = p.j ∧ q.flags.length = p.flags.length ∧
      q.data.length = p.data.length then some q else none
  | _ => none

theorem returned_polite (ys : List (Option PyRec)) : Polite (returned ys) := by
  have key : ∀ k p p', returned ys k p = some p' → p'.u = p.u ∧ p'.v = p.v ∧ p'.w = p.w ∧ p'.time = p.time ∧ p'.i = p.i ∧
      p'.j = p.j ∧ p'.flags.length = p.flags.length ∧ p'.data.length = p.data.length := by
    intro k p p' h
    unfold returned at h
    split at h
    · split at h
      · rename_i hq
        cases h
        exact hq
      · cases h
    · cases h
  exact ⟨fun k p p' h => by have := key k p p' h; tauto, fun k p p' h => (key k p p' h).2.2.2.2.2.2.1,
    fun k p p' h => (key k p p' h).2.2.2.2.2.2.2⟩

/-- preamble and numbers of channels are kept -/
def Mild (p q : PyRec) : Prop :=
  q.u = p.u ∧ q.v = p.v ∧ q.w = p.w ∧ q.time = p.time ∧ q.i = p.i ∧ q.j = p.j ∧ q.flags.length = p.flags.length ∧
    q.data.length = p.data.length

theorem returned_at {ys : List (Option PyRec)} {k : Nat} {p : PyRec} {y : Option PyRec} (h : ys[k]? = some y)
    (hm : ∀ q, y = some q → Mild p q) : returned ys k p = y := by
  unfold returned
  rw [h]
  cases y with
  | none => rfl
  | some q =>
    simp only
    exact if_pos (hm q rfl)

/-- for the records that are read -/
def MildOn {σ : Type} (E : Env) (nsize : Nat) (pr : Proc σ) (l : List (VisR × Out)) : Prop :=
  ∀ x S out, (S, out) ∈ l → ∀ x1 q, pr x S (E.show nsize out) = some (x1, some q) → Mild (E.show nsize out) q

theorem runProc_length {σ : Type} {E : Env} {nsize : Nat} {pr : Proc σ} {l : List (VisR × Out)} :
    ∀ {x x1 : σ} {ys : List (Option PyRec)}, runProc E nsize pr x l = some (x1, ys) → ys.length = l.length := by
  induction l with
  | nil => intro x x1 ys h; cases h; rfl
  | cons a l ih =>
    obtain ⟨S, out⟩ := a
    intro x x1 ys h
    rw [runProc] at h
    cases hp : pr x S (E.show nsize out) with
    | none => rw [hp] at h; cases h
    | some r =>
      rw [hp] at h
      simp only at h
      cases hr : runProc E nsize pr r.1 l with
      | none => rw [hr] at h; cases h
      | some z =>
        rw [hr] at h
        cases h
        simp [ih hr]

theorem runProc_pipe {σ : Type} {E : Env} {f : Nat → Byte} {size nsize : Nat} {pr : Proc σ} {S : VisR} {l : List (VisR × Out)}
    (hr : Reads f size nsize S l) : ∀ (fuel k : Nat) (x x1 : σ) (zs ys : List (Option PyRec)) (s : VisW), l.length < fuel →
      zs.length = k → runProc E nsize pr x l = some (x1, ys) → MildOn E nsize pr l →
      pipeStLoop E f size nsize pr fuel x S s = pipeList E nsize (returned (zs ++ ys)) k l s := by
  induction hr with
  | done h =>
    intro fuel k x x1 zs ys s hf _ _ _
    obtain ⟨n, rfl⟩ : ∃ n, fuel = n + 1 := ⟨fuel - 1, by simp at hf; omega⟩
    simp only [pipeStLoop, h, pipeList]
  | @more S S1 out l h hr ih =>
    intro fuel k x x1 zs ys s hf hk hrun hm
    obtain ⟨n, rfl⟩ : ∃ n, fuel = n + 1 := ⟨fuel - 1, by simp at hf; omega⟩
    have hf' : l.length < n := by simp at hf; omega
    rw [runProc] at hrun
    cases hp : pr x S1 (E.show nsize out) with
    | none => rw [hp] at hrun; cases hrun
    | some r =>
      obtain ⟨x2, p⟩ := r
      rw [hp] at hrun
      simp only at hrun
      cases hl : runProc E nsize pr x2 l with
      | none => rw [hl] at hrun; cases hrun
      | some z =>
        obtain ⟨x3, ys'⟩ := z
        rw [hl] at hrun
        cases hrun
        have hret : returned (zs ++ p :: ys') k (E.show nsize out) = p := by
          refine returned_at ?_ ?_
          · rw [List.getElem?_append_right (by omega), hk, Nat.sub_self]; rfl
          · intro q hq
            subst hq
            exact hm x S1 out List.mem_cons_self x2 q hp
        simp only [pipeStLoop, h, pipeList, hp, hret]
        cases assignAll s (copyvr S1.r) with
        | none => rfl
        | some s1 =>
          simp only
          cases writeMaybe E s1 p with
          | none => rfl
          | some s2 =>
            have := ih n (k + 1) x2 _ (zs ++ [p]) ys' s2 hf' (by simp [hk]) hl
              (fun y S' out' hmem => hm y S' out' (List.mem_cons_of_mem _ hmem))
            rw [List.append_assoc, List.singleton_append] at this
            exact this

theorem runProc_raise {σ : Type} {E : Env} {f : Nat → Byte} {size nsize : Nat} {pr : Proc σ} {S : VisR} {l : List (VisR × Out)}
    (hr : Reads f size nsize S l) : ∀ (fuel : Nat) (x : σ) (s : VisW), runProc E nsize pr x l = none →
      pipeStLoop E f size nsize pr fuel x S s = none := by
  induction hr with
  | done h => intro fuel x s hn; cases hn
  | @more S S1 out l h hr ih =>
    intro fuel x s hn
    cases fuel with
    | zero => rfl
    | succ n =>
      rw [runProc] at hn
      simp only [pipeStLoop, h]
      cases hp : pr x S1 (E.show nsize out) with
      | none => rfl
      | some r =>
        rw [hp] at hn
        simp only at hn ⊢
        have hl : runProc E nsize pr r.1 l = none := by
          cases hl : runProc E nsize pr r.1 l with
          | none => rfl
          | some z => rw [hl] at hn; cases hn
        cases assignAll s (copyvr S1.r) with
        | none => rfl
        | some s1 =>
          simp only
          cases writeMaybe E s1 r.2 with
          | none => rfl
          | some s2 => exact ih n r.1 s2 hl

/-- the records that are kept -/
theorem kept_returned {E : Env} {nsize : Nat} {l : List (VisR × Out)} : ∀ (k : Nat) (zs : List (Option PyRec)) (qs : List PyRec),
    zs.length = k → List.Forall₂ (fun x q => Mild (E.show nsize x.2) q) l qs →
    kept E nsize (returned (zs ++ qs.map some)) k l = (l.map (·.1)).zip qs := by
  induction l with
  | nil =>
    intro k zs qs _ hf
    cases hf
    rfl
  | cons a l ih =>
    obtain ⟨S, out⟩ := a
    intro k zs qs hk hf
    cases hf with
    | @cons _ q _ qs' h1 h2 =>
      have hret : returned (zs ++ some q :: qs'.map some) k (E.show nsize out) = some q := by
        refine returned_at ?_ ?_
        · rw [List.getElem?_append_right (by omega), hk, Nat.sub_self]; rfl
        · intro q' hq'
          cases hq'
          exact h1
      rw [List.map_cons, kept, hret]
      simp only
      have := ih (k + 1) (zs ++ [some q]) qs' (by simp [hk]) h2
      rw [List.append_assoc, List.singleton_append] at this
      rw [this]
      rfl

/-- `init_from_uv` and `pipe` with a function that has a state, does not raise, and keeps preambles and numbers of
channels: the new file holds the records that it returned, and with each the copied variables have the values they have
in the source -/
theorem copy_state {σ : Type} {E : Env} (hl : FpLaws E.o) (hq : QuantOk E.q) (hmode : E.mode = .real ∨ E.mode = .int2)
    {f : Nat → Byte} {size nsize : Nat} {over : List (Name × PyVal)} {excl : List Name} {us : List User} {ks : List Name}
    {S : VisR} {l : List (VisR × Out)} (h : Source E f size nsize over excl us ks S l) {pr : Proc σ} {x x1 : σ}
    {ys : List (Option PyRec)} (hrun : runProc E nsize pr x l = some (x1, ys)) (hm : MildOn E nsize pr l) :
    ∃ W, (∀ fuel, l.length < fuel → pipeSt E f size nsize pr over excl x S fuel = some W) ∧
      ∀ {f' : Nat → Byte} {size' : Nat} {r0 : Reader} {m : Mask}, Holds f' size' W.w.out → AtStart W r0 → FlagFile W m →
        (∃ R outs R', uvreadN f' size' nsize (kept E nsize (returned ys) 0 l).length ⟨r0, 0, m⟩ = some (R, outs) ∧
          uvread f' size' nsize R = .eof R') ∧
        ∀ (j : Nat) (Sj : VisR) (p : PyRec), (kept E nsize (returned ys) 0 l)[j]? = some (Sj, p) →
          ∃ R outs, uvreadN f' size' nsize (j + 1) ⟨r0, 0, m⟩ = some (R, outs ++ [recOf E p]) ∧ outs.length = j ∧
            ∀ v ∈ Sj.r.vars, Copied E.mode over excl v.name → getvr R.r v.name v.ty = getvr Sj.r v.name v.ty := by
  obtain ⟨W, s0, h0, hW, h1⟩ := copy_list hl hq hmode h.toListed (returned_polite ys)
  refine ⟨W, fun fuel hf => ?_, h1⟩
  unfold pipeSt
  rw [h0, h.init]
  simp only
  cases ha : assignAll s0 us with
  | none => rw [ha] at hW; simp at hW
  | some s2 =>
    rw [ha, Option.bind_some] at hW
    simp only
    rw [runProc_pipe h.reads fuel 0 x x1 [] ys s2 hf rfl hrun hm]
    exact hW

/-- where it raises, `pipe` raises -/
theorem raise_state {σ : Type} {E : Env} {f : Nat → Byte} {size nsize : Nat} {over : List (Name × PyVal)} {excl : List Name}
    {us : List User} {ks : List Name} {S : VisR} {l : List (VisR × Out)} (h : Source E f size nsize over excl us ks S l)
    {pr : Proc σ} {x : σ} (hrun : runProc E nsize pr x l = none) (fuel : Nat) :
    pipeSt E f size nsize pr over excl x S fuel = none := by
  unfold pipeSt
  rw [h.init]
  cases openVis E.mode with
  | none => rfl
  | some s0 =>
    simp only
    cases assignAll s0 us with
    | none => rfl
    | some s1 => exact runProc_raise h.reads fuel x s1 hrun

/-- a data set that was written with aipy is read from the start, to its end -/
theorem archive_reads {E : Env} {o : FpOps} {q : Quant} {junk : Nat → Nat} {mode : Ty} {bs : List Block} {W : VisW}
    {n : Nat} (ha : Archive E o q junk mode bs W n) (hne : bs ≠ []) {f : Nat → Byte} {size : Nat} (hf : Holds f size W.w.out)
    {m : Mask} (hm : FlagFile W m) :
    ∃ S l, openUv E f size (table W.w) W.w.offset m = some (S, n) ∧ Reads f size n S l ∧ l.length = bs.length ∧
      ∀ (j : Nat) (Sj : VisR) (out : Out) (b : Block), l[j]? = some (Sj, out) → bs[j]? = some b → Matches o q mode out b.vis := by
  have hw := ha.wr
  have hnm : ∀ b ∈ bs, b.vis.flags.length ≤ MAXCHAN := fun b hb => by rw [ha.chans b hb]; exact ha.size
  have hnn : ∀ b ∈ bs, b.vis.flags.length ≤ n := fun b hb => by rw [ha.chans b hb]; exact Nat.le_refl _
  have hpos : 0 < bs.length := List.length_pos_iff.2 hne
  obtain ⟨S, hopen, htab, _⟩ := archive_opens (E := E) ha hne hf hm
  obtain ⟨S1, outs1, i1, i2, _, i6, _, _⟩ := reads_k hw hf hnm (open_atStart W) hm 1 hpos
  obtain ⟨R0, outs0, out, k1, k2, _⟩ := uvreadN_last i1
  simp only [uvreadN, Option.some.injEq, Prod.mk.injEq] at k1
  rw [← k1.1] at k2
  have hS : S = rewindVis S1 := by
    unfold openUv at hopen
    rw [k2] at hopen
    simp only at hopen
    cases hn : nchanOf E (rewind S1.r) with
    | none => rw [hn] at hopen; cases hopen
    | some c => rw [hn] at hopen; cases hopen; rfl
  have hmax : S1.r.maxOffset = W.w.offset := by
    obtain ⟨s0, sk, u1, u2, u3, u4, u5, u6, u7⟩ := written_upTo hw 0 hpos
    obtain ⟨r1, _, _, a1, _, _, _, _, _, a7, _, _, _⟩ := readN_all u6 u7 hw.vars hf (open_atStart W).vars rfl rfl u4
    rw [i2, Option.some.injEq] at a1
    rw [a1]; exact a7
  subst hS
  have hstart : AtStart W (rewind S1.r) := ⟨htab, rfl, hmax⟩
  obtain ⟨R, outs, g1, g2, g3, R', g4⟩ := c48_records hw hf hnn hstart i6
  obtain ⟨l, l1, l2, _⟩ := reads_of _ g1 g4
  refine ⟨rewindVis S1, l, hopen, l1, by rw [← g2, ← l2, List.length_map], ?_⟩
  intro j Sj out b hj hb
  exact g3 j out b (by rw [← l2, List.getElem?_map, hj]; rfl) hb

end Verif.Mir.Uv
