import Verif.Mir.PipeDir
import Verif.Mir.PipeState

/-!
# Scripts on directories: `UV(infile)`, `init_from_uv`, `pipe` with a function that sees the file and may raise

C87 is about functions of the record and its number.  The function of a script is also given the file that is read, so
that it can look at variables (`uv['pol']`), can keep things between records, and can raise: `Proc` of `PipeState`.
-/
namespace Verif.Mir.Uv

open Verif.Mir.Hio (Byte Item Flat Op Tree Dataset Rel session reopenTree openRead newTree)
open Verif.Mir.Mask (Mask)
open Verif.Mir.Head (rdhd HOp Conv Asg Val Kind itype itemtable copyItems pipeHist hrun)

/-! ## The model -/

/-- the loop of `UV.pipe`, miriad.py 276-286: `mfunc`, `copyvr`, `write` (see `pipeStLoop`, `hpipeLoop`) -/
def hpipeStLoop {σ : Type} (E : Env) (g : Nat → Byte) (nsize : Nat) (pr : Proc σ) : Nat → σ → Item → VisR → VisW → Option VisW
  | 0, _, _, _, _ => none
  | fuel + 1, x, it, S, s =>
    match huvread g nsize it S with
    | (_, .eof _) => some s
    | (_, .bad) => none
    | (it', .ok S1 out) =>
      match pr x S1 (E.show nsize out) with
      | none => none
      | some (x1, p) =>
        match assignAll s (copyvr S1.r) with
        | none => none
        | some s1 =>
          match writeMaybe E s1 p with
          | none => none
          | some s2 => hpipeStLoop E g nsize pr fuel x1 it' S1 s2

/-- `uvo = UV(outfile, status='new')`, `uvo.init_from_uv(uvi, override, exclude)`, `uvo.pipe(uvi, mfunc, append2hist)`, miriad.py
247-286, where `uvi` is open and at the beginning -/
def restRunSt {σ : Type} (E : Env) (c : Conv) (g : Nat → Byte) (src : Tree) (pr : Proc σ) (x0 : σ) (over : List (Name × PyVal))
    (iover : List (Hio.Name × Val)) (excl : List Name) (app : List Nat) (fuel : Nat) (it : Item) (S : VisR) (nsize : Nat) : Option (Tree × VisW) :=
  (openVis E.mode).bind fun s0 =>
    ((copyItems c src iover (excl.map nameBytes) g itemtable newTree).toOption).bind fun t =>
      (initFrom E S.r over excl S.r.vars).bind fun i =>
        (assignAll s0 i.1).bind fun s1 =>
          ((pipeHist c t g app).toOption).bind fun t1 =>
            (hpipeStLoop E g nsize pr fuel x0 it { S with r := track S.r i.2 } s1).map fun W => (t1, W)

/-- What a script does: `uvi = UV(infile)`, `uvo = UV(outfile, status='new')`, `uvo.init_from_uv(uvi, override, exclude)`,
`uvo.pipe(uvi, mfunc, append2hist)`, miriad.py 247-286 (see `copyRun`). -/
def copyRunSt {σ : Type} (E : Env) (c : Conv) (g : Nat → Byte) (src : Tree) (m : Mask) (pr : Proc σ) (x0 : σ) (over : List (Name × PyVal))
    (iover : List (Hio.Name × Val)) (excl : List Name) (app : List Nat) (fuel : Nat) : Option (Tree × VisW) :=
  (hopenUv E g src m).bind fun x => restRunSt E c g src pr x0 over iover excl app fuel x.1 x.2.1 x.2.2

/-! ## Lemmas -/

theorem hpipeStLoop_eq {σ : Type} (E : Env) (g : Nat → Byte) {F : Flat} {f : Nat → Byte} (nsize : Nat) (pr : Proc σ) : ∀ (fuel : Nat)
    (x : σ) (it : Item) (S : VisR) (s : VisW), Loaded it F f → Sound S.r →
    hpipeStLoop E g nsize pr fuel x it S s = pipeStLoop E f F.size nsize pr fuel x S s
  | 0, _, _, _, _, _, _ => rfl
  | fuel + 1, x, it, S, s, hl, hs => by
    obtain ⟨it', e, hl', hs'⟩ := huvread_eq g nsize hl hs
    rw [hpipeStLoop, pipeStLoop, e]
    cases hu : uvread f F.size nsize S with
    | eof S' => rfl
    | bad => rfl
    | ok S1 out =>
      rw [hu] at hs'
      simp only
      cases pr x S1 (E.show nsize out) with
      | none => rfl
      | some r =>
        simp only
        cases assignAll s (copyvr S1.r) with
        | none => rfl
        | some s1 =>
          simp only
          cases writeMaybe E s1 r.2 with
          | none => rfl
          | some s2 => exact hpipeStLoop_eq E g nsize pr fuel r.1 it' S1 s2 hl' hs'

theorem chain_good {S : VisR} {l : List (VisR × Out)} (h : Chain S l) : AllGood S.r.vars → ∀ x ∈ l, AllGood x.1.r.vars := by
  induction h with
  | done => intro _ x hx; cases hx
  | more h1 _ ih =>
    intro hg x hx
    rcases List.mem_cons.1 hx with rfl | hx
    · exact h1.good hg
    · exact ih (h1.good hg) x hx

/-- the value of a variable that fits into the buffer of `UVObject_rdvr` -/
theorem rdvr_of_getvr {r : Reader} (hg : AllGood r.vars) (fo : FloatOps) (junk : Nat → Nat) {nm : Name} {ty : Ty} {d : List Byte}
    (h : getvr r nm ty = some d) (hd : d.length / ty.mem * ty.ext ≤ BUFSIZE) :
    rdvr fo junk r nm (tyChar ty) = decode fo junk (tyChar ty) d := by
  have h0 := h
  unfold getvr at h
  unfold rdvr probe
  cases hl : rlocvar r.vars nm with
  | none => rw [hl] at h; cases h
  | some v =>
    rw [hl] at h
    simp only at h
    by_cases ht : ty = v.ty
    · subst ht
      rw [if_neg (fun hh => hh rfl)] at h
      obtain ⟨b, hb, hbd⟩ := Option.map_eq_some_iff.1 h
      have hv := hg v (List.mem_of_find?_eq_some hl)
      obtain ⟨hpos, hlen, _⟩ := hv.buf b hb
      have hw := hv.whole
      have hq : d.length / v.ty.mem = v.length / v.ty.ext := by
        rw [← hbd, List.length_take, hlen]
        revert hw
        cases v.ty <;> simp only [Ty.ext, Ty.mem] <;> omega
      rw [tyOf_tyChar]
      simp only [Option.map_some]
      rw [if_neg (by rw [← hq]; omega), h0, Option.bind_some]
    · rw [if_pos ht] at h; cases h

/-- a record as it is read is written as it was -/
theorem show_same {E : Env} (hmode : E.mode = .real) {f : Nat → Byte} {size n : Nat} {over : List (Name × PyVal)} {excl : List Name}
    {us : List User} {ks : List Name} {S : VisR} {l : List (VisR × Out)} (hsrc : Source E f size n over excl us ks S l)
    {x : VisR × Out} (hx : x ∈ l) {o : FpOps} {q : Quant} {v : Vis} (hm : Matches o q .real x.2 v) : recOf E (E.show n x.2) = x.2 := by
  have key : ∀ {S : VisR} {l : List (VisR × Out)}, Reads f size n S l → ∀ x ∈ l, ∃ S0, uvread f size n S0 = .ok x.1 x.2 := by
    intro S l hr
    induction hr with
    | done _ => intro x hx; simp at hx
    | @more S S1 out l h hr ih =>
      intro x hx
      rcases List.mem_cons.1 hx with rfl | hx
      · exact ⟨S, h⟩
      · exact ih x hx
  obtain ⟨S0, hS0⟩ := key hsrc.reads x hx
  exact echo_same hmode (uvread_step hS0) (hsrc.recs x hx) (d := v.data) (by rw [hm.data]; rfl)

/-- `uvi` is open and at the beginning of the data set: with the records `l` that are read from it, the rest of the script raises if
its function does; otherwise the records of the copy are those the function returns, in the same order. -/
theorem copy_state_at (c : Conv) (hw : ∀ x < 2 ^ 32, c.round (c.widen x) = x) {E : Env} {o q junk bs W n names h old}
    (O : Origin E o q junk bs W n names h old) (hmode : E.mode = .real) (hl : FpLaws E.o)
    (hq : QuantOk E.q) (hbl : BlLaws E.bl o) (hun : ∀ t ints, (E.unscale t ints).length = ints.length)
    {over : List (Name × PyVal)} {excl : List Name} (hv : VarsOk E W over excl)
    {iover : List (Hio.Name × Val)} {app : List Nat} (hi : ItemsOk iover excl old app) {obs : Option (List Byte)}
    (hobs : ObsOk obs) (g : Nat → Byte) {src : Tree} {D : Dataset} (d2 : Closed names src W.w (flagsOf h) D)
    (d3 : ∀ n, n ∉ reserved → D n = (Head.lastOf (itemsOf h) n).map fun a => Head.flatOf n (Head.chunksOf c n a))
    {it0 : Item} {F : Flat} {f : Nat → Byte} (z2 : Loaded it0 F f) (z3 : Holds f F.size W.w.out) {S : VisR} (hbg : Begun W S) (z4 : Sound S.r)
    {us : List User} {ks : List Name} (i2 : initFrom E S.r over excl S.r.vars = some (us, ks)) (i3 : ∀ u ∈ us, EvOk u.ev) :
    ∃ l, Reads f F.size n { S with r := track S.r ks } l ∧ l.length = bs.length ∧
      (∀ (j : Nat) (Sj : VisR) (out : Out) (b : Block), l[j]? = some (Sj, out) → bs[j]? = some b →
        Matches o q .real out b.vis ∧ recOf E (E.show n out) = out ∧
        ∀ nm ty d, (nm, ty) ∈ table W.w → valueAfter (upTo (j + 1) W.evs) nm = some d → getvr Sj.r nm ty = some d ∧
          (d.length / ty.mem * ty.ext ≤ BUFSIZE → rdvr E.fo E.junk Sj.r nm (tyChar ty) = decode E.fo E.junk (tyChar ty) d)) ∧
      ∀ {σ : Type} (pr : Proc σ) (x : σ),
      (runProc E n pr x l = none → ∀ fuel, restRunSt E c g src pr x over iover excl app fuel it0 S n = none) ∧
      ∀ x1 ys, runProc E n pr x l = some (x1, ys) → MildOn E n pr l → ∃ t1 W',
        (∀ fuel, bs.length < fuel → restRunSt E c g src pr x over iover excl app fuel it0 S n = some (t1, W')) ∧
        (kept E n (returned ys) 0 l ≠ [] → W'.w.offset ≤ 2 ^ 31 → ∃ cpy, closeCopy c g obs (t1, W') = some cpy ∧
          SameItems c src cpy g iover excl old app obs ∧
          ∀ (g' : Nat → Byte) (m' : Mask), FlagFile W' m' → ∃ it r0, openOld cpy g' = some (it, r0) ∧
            (∃ it1 it2 R outs R', huvreadN g' n (kept E n (returned ys) 0 l).length it ⟨r0, 0, m'⟩ = some (it1, R, outs) ∧
              huvread g' n it1 R = (it2, .eof R')) ∧
            ∀ (j : Nat) (Sj : VisR) (p : PyRec), (kept E n (returned ys) 0 l)[j]? = some (Sj, p) → ∃ it1 R outs,
              huvreadN g' n (j + 1) it ⟨r0, 0, m'⟩ = some (it1, R, outs ++ [recOf E p]) ∧ outs.length = j ∧
              ∀ v ∈ Sj.r.vars, Copied .real over excl v.name → getvr R.r v.name v.ty = getvr Sj.r v.name v.ty) := by
  have hs := written_sessions O.arch.wr
  have hne' : allBlocks (bs.map .block) ≠ [] := by rw [allBlocks_map]; exact O.nonempty
  have hprog := hs.program hne' O.size O.ok O.evs O.flags O.count O.apart
  obtain ⟨k1, k2⟩ := origin_copyable c hw O d2 hprog.holds.2 d3
  have hks : ∀ nm ∈ ks, valueAfter (upTo 1 W.evs) nm ≠ none := by
    intro nm hnm hc
    obtain ⟨v, hv', rfl, e1, e2, e3, _⟩ := (init_spec i2).2.1 nm hnm
    obtain ⟨d, hd, _⟩ := hv.plain (v.name, v.ty) (by rw [← hbg.start.vars]; exact List.mem_map.2 ⟨v, hv', rfl⟩) e1 e2 e3
    rw [hc] at hd
    cases hd
  obtain ⟨l, e6, e7, e7'⟩ := source_at O.arch O.nonempty hbl hun z3 hbg i2 i3 hks hv.own
  obtain ⟨t, t1, t2, D2, q1, q2, e13, e14, e15⟩ := copy_tree c d2.good k1 iover hi.given (excl.map nameBytes) g old app k2 hi.kept
    hi.free hi.ascii hi.len obs O.obs (fun s h => ⟨(hobs s h).1, (hobs s h).2.1⟩)
  refine ⟨l, e6.reads, e7, ?_, fun {σ} pr x => ⟨?_, ?_⟩⟩
  · intro j Sj out b hj hb
    obtain ⟨a1, _, a2⟩ := e7' j Sj out b hj hb
    have hmem := List.mem_of_getElem? hj
    refine ⟨a1, show_same hmode e6 hmem a1, fun nm ty d ht hd => ⟨a2 nm ty d ht hd, fun hs => ?_⟩⟩
    exact rdvr_of_getvr (chain_good e6.chain (track_good e6.good ks) _ hmem) _ _ (a2 nm ty d ht hd) hs
  · intro hrun fuel
    unfold restRunSt
    rw [q1]
    cases openVis E.mode with
    | none => rfl
    | some s0 =>
      simp only [Option.bind_some, Except.toOption]
      rw [i2]
      simp only [Option.bind_some]
      cases assignAll s0 us with
      | none => rfl
      | some s1 =>
        simp only [Option.bind_some]
        rw [q2]
        simp only [Option.bind_some]
        rw [hpipeStLoop_eq E g n pr fuel x it0 _ s1 z2 (sound_track z4 ks), runProc_raise e6.reads fuel x s1 hrun]
        rfl
  · intro x1 ys hrun hmild
    obtain ⟨W', bs', s0, w1, w2, w3, e9, e10, w6, w7, w8⟩ := pipe_written hl hq (Or.inl hmode) e6.toListed (returned_polite ys)
    have e11 := copy_apart O.apart hbg.start.vars _ _ w8
    refine ⟨t1, W', fun fuel hfuel => ?_, fun hk hb => ?_⟩
    · unfold restRunSt
      rw [w1, q1]
      simp only [Option.bind_some, Except.toOption]
      rw [i2]
      simp only [Option.bind_some]
      cases ha : assignAll s0 us with
      | none => rw [ha] at w3; cases w3
      | some s1 =>
        rw [ha] at w3
        simp only [Option.bind_some] at w3 ⊢
        rw [q2]
        simp only [Option.bind_some]
        rw [hpipeStLoop_eq E g n pr fuel x it0 _ s1 z2 (sound_track z4 ks),
          runProc_pipe e6.reads fuel 0 x x1 [] ys s1 (by rw [e7]; exact hfuel) rfl hrun hmild]
        show (pipeList E n (returned ys) 0 l s1).map _ = _
        rw [w3]
        rfl
    · have hne : bs' ≠ [] := by
        have h1 := congrArg List.length e10
        rw [List.length_map, List.length_map] at h1
        intro h0
        rw [h0] at h1
        exact hk (List.length_eq_zero_iff.1 h1.symm)
      have hres : ∀ k ∈ reserved, k ∈ copyNames names := fun k hk =>
        mem_copyNames.2 ⟨O.ok.own k hk, List.mem_append_right _ hk⟩
      obtain ⟨cpy, D', c1, c2, c3⟩ := copy_closed c e9 hne hb e11 hres e13 e14
      refine ⟨cpy, c1, same_items c k1 (origin_history O hi) hi hobs c2.good.rel c2.good.items
        (fun k hk => by rw [c3 k hk]; exact e15 k), ?_⟩
      intro g' m' hm'
      obtain ⟨it, F', f', o1, o2, o3⟩ := old_ok c2 hb g'
      have hfuel := pipe_from e6 w1 w3 (fuel := bs.length + 1) (by rw [e7]; exact Nat.lt_succ_self _)
      obtain ⟨W1, a1, a2⟩ := c51_copy hl hq (Or.inl hmode) e6 (returned_polite ys)
      have hW1 : W1 = W' := by
        have := a1 (bs.length + 1) (by rw [e7]; exact Nat.lt_succ_self _)
        rw [hfuel, Option.some.injEq] at this
        exact this.symm
      subst hW1
      obtain ⟨p1, p2⟩ := a2 o3 (open_atStart W1) hm'
      refine ⟨it, _, o1, ?_, ?_⟩
      · obtain ⟨R, outs, R', r1, r2⟩ := p1
        obtain ⟨it1, q1, q2, q3⟩ := huvreadN_eq g' n _ it _ _ o2 (sound_open _ _) r1
        obtain ⟨it2, q4, _⟩ := huvread_eq g' n q2 q3
        exact ⟨it1, it2, R, outs, R', q1, by rw [q4, r2]⟩
      · intro j Sj p hj
        obtain ⟨R, outs, r1, r2, r3⟩ := p2 j Sj p hj
        obtain ⟨it1, q1, q2, q3⟩ := huvreadN_eq g' n _ it _ _ o2 (sound_open _ _) r1
        exact ⟨it1, R, outs, q1, r2, by rw [hmode] at r3; exact r3⟩

/-- a data set in a directory that is open -/
theorem origin_opens (c : Conv) {E : Env} {o q junk bs W n names h old} (O : Origin E o q junk bs W n names h old)
    (hbl : BlLaws E.bl o) (hun : ∀ t ints, (E.unscale t ints).length = ints.length) {m : Mask} (hm : FlagFile W m)
    {over : List (Name × PyVal)} {excl : List Name} (hv : VarsOk E W over excl) (g0 g : Nat → Byte) :
    ∃ src D it F f S us ks, directory c g0 h = some src ∧ Closed names src W.w (flagsOf h) D ∧
      (∀ n, n ∉ reserved → D n = (Head.lastOf (itemsOf h) n).map fun a => Head.flatOf n (Head.chunksOf c n a)) ∧
      hopenUv E g src m = some (it, S, n) ∧ Loaded it F f ∧ Holds f F.size W.w.out ∧ Begun W S ∧ Sound S.r ∧
      initFrom E S.r over excl S.r.vars = some (us, ks) ∧ ∀ u ∈ us, EvOk u.ev := by
  have hs := written_sessions O.arch.wr
  have hne' : allBlocks (bs.map .block) ≠ [] := by rw [allBlocks_map]; exact O.nonempty
  have hprog := hs.program hne' O.size O.ok O.evs O.flags O.count O.apart
  obtain ⟨src, D, d1, d2, d3⟩ := hprog.closed c g0
  obtain ⟨it, F, f, o1, o2, o3⟩ := old_ok d2 O.size g
  obtain ⟨S, us, ks, i1, i2, i3, i4⟩ := init_origin O.arch O.nonempty hv o3 hm
  obtain ⟨_, ⟨b1, b2, b3, b4, b5⟩, l, l1, _⟩ := archive_source' O.arch hbl hun o3 hm i1 i2 i3 hv.own
  obtain ⟨it', u1, u2, u3⟩ := hopenUv_eq o1 o2 m i1
  exact ⟨src, D, it', F, f, S, us, ks, d1, d2, d3, u1, u2, o3, ⟨⟨i4, b1.offset, b1.maxOffset⟩, b4, b5, l1.good, l1.plain, b2, b3⟩, u3, i2, i3⟩

/-- A script on a directory: with the records `l` that are read from the source, it raises if its function does; otherwise
the records of the copy are those the function returns, in the same order. -/
theorem copy_state_dir {σ : Type} (c : Conv) (hw : ∀ x < 2 ^ 32, c.round (c.widen x) = x) {E : Env} {o q junk bs W n names h old}
    (O : Origin E o q junk bs W n names h old) (hmode : E.mode = .real) (hl : FpLaws E.o)
    (hq : QuantOk E.q) (hbl : BlLaws E.bl o) (hun : ∀ t ints, (E.unscale t ints).length = ints.length)
    {m : Mask} (hm : FlagFile W m) {over : List (Name × PyVal)} {excl : List Name} (hv : VarsOk E W over excl)
    {iover : List (Hio.Name × Val)} {app : List Nat} (hi : ItemsOk iover excl old app) {obs : Option (List Byte)}
    (hobs : ObsOk obs) (pr : Proc σ) (x : σ) (g0 g : Nat → Byte) :
    ∃ src l, directory c g0 h = some src ∧ l.length = bs.length ∧
      (∀ (j : Nat) (Sj : VisR) (out : Out) (b : Block), l[j]? = some (Sj, out) → bs[j]? = some b →
        Matches o q .real out b.vis ∧ recOf E (E.show n out) = out ∧
        ∀ nm ty d, (nm, ty) ∈ table W.w → valueAfter (upTo (j + 1) W.evs) nm = some d → getvr Sj.r nm ty = some d ∧
          (d.length / ty.mem * ty.ext ≤ BUFSIZE → rdvr E.fo E.junk Sj.r nm (tyChar ty) = decode E.fo E.junk (tyChar ty) d)) ∧
      (runProc E n pr x l = none → ∀ fuel, copyRunSt E c g src m pr x over iover excl app fuel = none) ∧
      ∀ x1 ys, runProc E n pr x l = some (x1, ys) → MildOn E n pr l → ∃ t1 W',
        (∀ fuel, bs.length < fuel → copyRunSt E c g src m pr x over iover excl app fuel = some (t1, W')) ∧
        (kept E n (returned ys) 0 l ≠ [] → W'.w.offset ≤ 2 ^ 31 → ∃ cpy, closeCopy c g obs (t1, W') = some cpy ∧
          SameItems c src cpy g iover excl old app obs ∧
          ∀ (g' : Nat → Byte) (m' : Mask), FlagFile W' m' → ∃ it r0, openOld cpy g' = some (it, r0) ∧
            (∃ it1 it2 R outs R', huvreadN g' n (kept E n (returned ys) 0 l).length it ⟨r0, 0, m'⟩ = some (it1, R, outs) ∧
              huvread g' n it1 R = (it2, .eof R')) ∧
            ∀ (j : Nat) (Sj : VisR) (p : PyRec), (kept E n (returned ys) 0 l)[j]? = some (Sj, p) → ∃ it1 R outs,
              huvreadN g' n (j + 1) it ⟨r0, 0, m'⟩ = some (it1, R, outs ++ [recOf E p]) ∧ outs.length = j ∧
              ∀ v ∈ Sj.r.vars, Copied .real over excl v.name → getvr R.r v.name v.ty = getvr Sj.r v.name v.ty) := by
  obtain ⟨src, D, it0, F, f, S, us, ks, d1, d2, d3, z1, z2, z3, hbg, z4, i2, i3⟩ := origin_opens c O hbl hun hm hv g0 g
  obtain ⟨l, _, l1, l2, l3⟩ := copy_state_at c hw O hmode hl hq hbl hun hv hi hobs g d2 d3 z2 z3 hbg z4 i2 i3
  obtain ⟨l4, l5⟩ := l3 pr x
  refine ⟨src, l, d1, l1, l2, fun hrun fuel => ?_, fun x1 ys hrun hmild => ?_⟩
  · unfold copyRunSt
    rw [z1]
    exact l4 hrun fuel
  · obtain ⟨t1, W', e1, e2⟩ := l5 x1 ys hrun hmild
    refine ⟨t1, W', fun fuel hf => ?_, e2⟩
    unfold copyRunSt
    rw [z1]
    exact e1 fuel hf

end Verif.Mir.Uv
