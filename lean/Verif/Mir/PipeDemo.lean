import Verif.Mir.PipeWhole

/-!
# Property C51 : an example, and where copies differ
-/
namespace Verif.Mir.Uv

open Verif.Mir.Hio (Byte)
open Verif.Mir.Mask (Mask run mkopen Op)

/-! ## An example -/

def demoEnv : Env := ⟨demoOps, demoQuant, fun _ => 0, cut, ⟨id, id⟩, .real, fun _ i => i, fun _ => 99, fun _ => true⟩

def srcName : Name := ['s', 'r', 'c']
def raName : Name := ['r', 'a']

/-- two records of two channels; the source changes with the second, the antennas as well -/
def demoSrc : List Block :=
  [⟨[⟨srcName, .byte, [65, 66, 0]⟩, ⟨raName, .dble, be64 7⟩], ⟨1, 2, 3, 4, Codes.mkbl 0 1, List.replicate 16 9, [true, false]⟩⟩,
   ⟨[⟨srcName, .byte, [67, 0]⟩], ⟨1, 2, 8, 6, Codes.mkbl 0 2, List.replicate 16 1, [true, true]⟩⟩]

theorem demo_archive' : ∃ W, writeAll .real demoSrc = some W ∧ Archive demoEnv demoOps demoQuant (fun _ => 0) .real demoSrc W 2 ∧
    PlainVars W ∧ Holds (content W.w.out) W.w.offset W.w.out ∧ ∃ m, FlagFile W m := by
  have hex : ∃ s0 s, openVis .real = some s0 ∧ writeBlocks demoOps demoQuant (fun _ => 0) .real s0 demoSrc = some s ∧
      (table s.w).length ≤ 122 ∧ Holds (content s.w.out) s.w.offset s.w.out ∧
      s.flagOps = [.write 0 [true, false], .write 2 [true, true]] ∧
      (∀ x ∈ table s.w, x ∈ [(nmCorr, Ty.real), (srcName, .byte), (raName, .dble), (nmCoord, .dble), (nmTime, .dble), (nmBl, .real),
        (nmNchan, .int)]) ∧
      valueAfter (upTo 1 s.evs) srcName = some [65, 66, 0] ∧ valueAfter (upTo 1 s.evs) raName = some (be64 7) ∧
      (valueAfter (upTo 1 s.evs) nmCoord).map List.length = some 24 ∧ (valueAfter (upTo 1 s.evs) nmTime).map List.length = some 8 ∧
      (valueAfter (upTo 1 s.evs) nmBl).map List.length = some 4 ∧ (valueAfter (upTo 1 s.evs) nmNchan).map List.length = some 4 :=
    ⟨_, _, rfl, rfl, by decide +kernel, by unfold Holds; decide +kernel, rfl, by decide +kernel, by decide +kernel, by decide +kernel,
      by decide +kernel, by decide +kernel, by decide +kernel, by decide +kernel⟩
  obtain ⟨s0, s, h0, h1, h2, h3, h4, h5, v1, v2, v3, v4, v5, v6⟩ := hex
  have hassign : assignAll s [] = some s := by
    cases s
    simp [assignAll, wrun]
  have hbl : ∀ b ∈ demoSrc, BlockOk b := by
    intro b hb
    simp only [demoSrc, List.mem_cons, List.not_mem_nil, or_false] at hb
    rcases hb with rfl | rfl
    · refine ⟨⟨by decide, by decide, by decide, by decide, by decide, by decide, by decide, by decide⟩, ?_, ?_⟩
      · intro p hp
        simp only [List.mem_cons, List.not_mem_nil, or_false] at hp
        rcases hp with rfl | rfl
        · exact ⟨by decide, by decide, by simp⟩
        · exact ⟨by decide, by decide, by simp⟩
      · refine ⟨fun p hp _ => ?_, fun d hd => by simp [lastGiven, nmCoord, srcName, raName] at hd,
          fun d hd => by simp [lastGiven, nmTime, srcName, raName] at hd,
          fun d hd => by simp [lastGiven, nmBl, srcName, raName] at hd⟩
        simp only [List.mem_cons, List.not_mem_nil, or_false] at hp
        rcases hp with rfl | rfl <;> exact ⟨by decide, by decide, by decide⟩
    · refine ⟨⟨by decide, by decide, by decide, by decide, by decide, by decide, by decide, by decide⟩, ?_, ?_⟩
      · intro p hp
        rw [List.mem_singleton.1 hp]
        exact ⟨by decide, by decide, by simp⟩
      · refine ⟨fun p hp _ => ?_, fun d hd => by simp [lastGiven, nmCoord, srcName] at hd,
          fun d hd => by simp [lastGiven, nmTime, srcName] at hd, fun d hd => by simp [lastGiven, nmBl, srcName] at hd⟩
        rw [List.mem_singleton.1 hp]
        exact ⟨by decide, by decide, by decide⟩
  have hall : writeAll .real demoSrc = some s := by
    unfold writeAll
    rw [h0]
    exact h1
  refine ⟨s, hall, ⟨⟨demo_laws, demo_quant, Or.inl rfl, ⟨s0, s, [], h0, h1, hassign, by simp⟩, hbl, ?_, by omega⟩, ?_, by decide, ?_, ?_, ?_,
    ?_, h2⟩, ?_, h3, ?_⟩
  · intro b hb
    simp only [demoSrc, List.head?_cons, Option.some.injEq] at hb
    subst hb
    exact ⟨fun _ => by decide, fun _ => by decide, fun _ => by decide⟩
  · intro b hb
    simp only [demoSrc, List.mem_cons, List.not_mem_nil, or_false] at hb
    rcases hb with rfl | rfl <;> rfl
  · intro b hb p hp hn
    simp only [demoSrc, List.mem_cons, List.not_mem_nil, or_false] at hb
    rcases hb with rfl | rfl
    · simp only [List.mem_cons, List.not_mem_nil, or_false] at hp
      rcases hp with rfl | rfl <;> exact absurd hn (by decide)
    · rw [List.mem_singleton.1 hp] at hn
      exact absurd hn (by decide)
  · intro b hb p hp
    simp only [demoSrc, List.mem_cons, List.not_mem_nil, or_false] at hb
    rcases hb with rfl | rfl
    · simp only [List.mem_cons, List.not_mem_nil, or_false] at hp
      rcases hp with rfl | rfl <;> decide
    · rw [List.mem_singleton.1 hp]
      decide
  · intro b hb
    simp only [demoSrc, List.mem_cons, List.not_mem_nil, or_false] at hb
    rcases hb with rfl | rfl
    · exact ⟨0, 1, by decide, by decide, rfl⟩
    · exact ⟨0, 2, by decide, by decide, rfl⟩
  · intro x hx ty hxt
    have := h5 x hx
    clear hx h5
    revert hxt
    simp only [List.mem_cons, List.not_mem_nil, or_false] at this
    rcases this with rfl | rfl | rfl | rfl | rfl | rfl | rfl <;> cases ty <;> decide
  · intro x hx hc
    have := h5 x hx
    have key : ∀ nm n, (valueAfter (upTo 1 s.evs) nm).map List.length = some n →
        ∃ d, valueAfter (upTo 1 s.evs) nm = some d ∧ d.length = n := by
      intro nm n h
      cases hv : valueAfter (upTo 1 s.evs) nm with
      | none => rw [hv] at h; simp at h
      | some d => rw [hv] at h; exact ⟨d, rfl, Option.some.inj h⟩
    simp only [List.mem_cons, List.not_mem_nil, or_false] at this
    rcases this with rfl | rfl | rfl | rfl | rfl | rfl | rfl
    · exact absurd rfl hc
    · exact ⟨_, v1, by decide, Or.inl rfl⟩
    · exact ⟨_, v2, by decide, Or.inr (Or.inr (Or.inl rfl))⟩
    · obtain ⟨d, d1, d2⟩ := key _ _ v3
      exact ⟨d, d1, by show d.length / 8 * 8 ≤ 32768; omega, Or.inr (Or.inr (Or.inl rfl))⟩
    · obtain ⟨d, d1, d2⟩ := key _ _ v4
      exact ⟨d, d1, by show d.length / 8 * 8 ≤ 32768; omega, Or.inr (Or.inr (Or.inl rfl))⟩
    · obtain ⟨d, d1, d2⟩ := key _ _ v5
      exact ⟨d, d1, by show d.length / 4 * 4 ≤ 32768; omega, Or.inr (Or.inl rfl)⟩
    · obtain ⟨d, d1, d2⟩ := key _ _ v6
      exact ⟨d, d1, by show d.length / 4 * 4 ≤ 32768; omega, Or.inr (Or.inr (Or.inr (Or.inl ⟨rfl, d2⟩)))⟩
  · have hr : ∃ m, run (mkopen (fun _ => 0) (fun _ => 0) 1) (s.flagOps ++ []) = .ok m := by
      rw [h4]
      exact ⟨_, rfl⟩
    obtain ⟨m, hr⟩ := hr
    exact ⟨m, fun _ => 0, fun _ => 0, 1, [], by simp, hr⟩

theorem demo_archive : ∃ W, Archive demoEnv demoOps demoQuant (fun _ => 0) .real demoSrc W 2 ∧ PlainVars W ∧
    Holds (content W.w.out) W.w.offset W.w.out ∧ ∃ m, FlagFile W m := by
  obtain ⟨W, _, h⟩ := demo_archive'
  exact ⟨W, h⟩

theorem demo_bl : BlLaws demoEnv.bl demoOps := by
  refine ⟨fun n _ => rfl, fun a n _ _ h => ?_⟩
  rcases h with h | h
  · exact h
  · simpa [demoOps, demoEnv] using h

/-- the theorem applies: the copy of the example has the second record with its value of `src` -/
example : ∃ (W' : VisW) (S : VisR) (W : VisW), pipeFrom demoEnv (content W.w.out) W.w.offset 2 echo [] [] S 3 = some W' ∧
    ∀ {f' : Nat → Byte} {size' : Nat} {r0 : Reader} {m' : Mask}, Holds f' size' W'.w.out → AtStart W' r0 → FlagFile W' m' →
      ∃ R outs out, uvreadN f' size' 2 2 ⟨r0, 0, m'⟩ = some (R, outs ++ [out]) ∧ out.data = .plain (List.replicate 16 1) := by
  obtain ⟨W, h1, h2, h3, m, h4⟩ := demo_archive
  obtain ⟨S, W', g1, g2, g3⟩ := c51_whole h1 (by decide) h2 rfl demo_laws demo_quant demo_bl (fun _ _ => rfl) h3 h4
  refine ⟨W', S, W, g2 3 (by decide), ?_⟩
  intro f' size' r0 m' a b c
  obtain ⟨R, outs, out, q1, _, q3, _⟩ := (g3 a b c).2 1 _ rfl
  exact ⟨R, outs, out, q1, q3.data⟩

/-- write, open, copy -/
def copyOf (E : Env) (mf : MFunc) (over : List (Name × PyVal)) (excl : List Name) (bs : List Block) : Option VisW :=
  (writeAll .real bs).bind fun s =>
    match run (mkopen (fun _ => 0) (fun _ => 0) 1) (s.flagOps ++ [.reopen (fun _ => 0)]) with
    | .error _ => none
    | .ok m => (openUv E (content s.w.out) s.w.offset (table s.w) s.w.offset m).bind fun x =>
        pipeFrom E (content s.w.out) s.w.offset x.2 mf over excl x.1 (bs.length + 1)

/-- and the values of a variable with each record -/
def valuesOf (s : VisW) (nm : Name) (ty : Ty) (n : Nat) : Option (List (List Byte)) :=
  (List.range n).mapM fun k => (readN (content s.w.out) s.w.offset (k + 1) (openReader (table s.w) s.w.offset)).bind
    fun r => getvr r nm ty

example : (copyOf demoEnv echo [] [] demoSrc).bind (fun s => readAll s 2) = some
    [⟨1, 2, some 3, 4, Codes.mkbl 0 1, .plain (List.replicate 16 9), [true, false]⟩,
     ⟨1, 2, some 8, 6, Codes.mkbl 0 2, .plain (List.replicate 16 1), [true, true]⟩] ∧
    (copyOf demoEnv echo [] [] demoSrc).bind (fun s => valuesOf s srcName .byte 2) = some [[65, 66, 0], [67, 0]] := by
  decide +kernel

/-- with another `src`, and without `ra` -/
example : (copyOf demoEnv echo [(srcName, .str [88])] [raName] demoSrc).bind (fun s => valuesOf s srcName .byte 2) =
      some [[88, 0], [88, 0]] ∧
    ((copyOf demoEnv echo [(srcName, .str [88])] [raName] demoSrc).map fun s => (table s.w).map (·.1)) =
      some [nmCorr, srcName, nmCoord, nmTime, nmBl, nmNchan] := by
  decide +kernel

/-- a `mfunc` that leaves out the first record: the values with the second are right -/
example : (copyOf demoEnv (fun k p => if k = 0 then none else some p) [] [] demoSrc).bind (fun s => readAll s 1) = some
    [⟨1, 2, some 8, 6, Codes.mkbl 0 2, .plain (List.replicate 16 1), [true, true]⟩] ∧
    (copyOf demoEnv (fun k p => if k = 0 then none else some p) [] [] demoSrc).bind (fun s => valuesOf s srcName .byte 1) =
      some [[67, 0]] := by
  decide +kernel

/-! ## Disagreements -/

/-- **C51, disagreement**: a variable that is not set before the second record: `init_from_uv` raises, because `uv[k]` has no
value for it. -/
theorem c51_late_variable : ∃ b1 b2, writeAll .real [b1, b2] ≠ none ∧ copyOf demoEnv echo [] [] [b1, b2] = none ∧
    copyOf demoEnv echo [] [raName] [b1, b2] ≠ none := by
  refine ⟨⟨[], ⟨1, 2, 3, 4, Codes.mkbl 0 1, List.replicate 16 9, [true, false]⟩⟩,
    ⟨[⟨raName, .dble, be64 7⟩], ⟨1, 2, 8, 6, Codes.mkbl 0 2, List.replicate 16 1, [true, true]⟩⟩, ?_, ?_, ?_⟩ <;>
    simp only [ne_eq, ← Option.isNone_iff_eq_none] <;> decide +kernel

/-- **C51, disagreement**: a variable with more than one integer: `uv[k]` is an array of 32-bit integers, and `_wrvr` wants
64-bit integers; `init_from_uv` raises. -/
theorem c51_int_array : ∃ b, writeAll .real [b] ≠ none ∧ copyOf demoEnv echo [] [] [b] = none := by
  refine ⟨⟨[⟨raName, .int, be32 1 ++ be32 2⟩], ⟨1, 2, 3, 4, Codes.mkbl 0 1, List.replicate 16 9, [true, false]⟩⟩, ?_, ?_⟩ <;>
    simp only [ne_eq, ← Option.isNone_iff_eq_none] <;> decide +kernel

/-- **C51, disagreement**: a record of fewer channels than the first: the copy has as many channels as the first, the
others hold whatever was in memory. -/
theorem c51_fewer_channels : ∃ b1 b2, ((writeAll .real [b1, b2]).bind (fun s => readAll s 2)).map (·.map (·.flags)) =
      some [[true, false], [true]] ∧
    ((copyOf demoEnv echo [] [] [b1, b2]).bind (fun s => readAll s 2)).map (·.map fun x => (x.data, x.flags)) =
      some [(.plain (List.replicate 16 9), [true, false]), (.plain (List.replicate 8 1 ++ List.replicate 8 99), [true, true])] :=
  ⟨⟨[], ⟨1, 2, 3, 4, Codes.mkbl 0 1, List.replicate 16 9, [true, false]⟩⟩,
    ⟨[], ⟨1, 2, 8, 6, Codes.mkbl 0 2, List.replicate 8 1, [true]⟩⟩, by decide +kernel, by decide +kernel⟩

/-- **C51, disagreement**: a `mfunc` that changes the time: here it returns 4 for all records.  The time of the second
record is copied from the source with the variables (6), and `uvwrite_c` does not write 4 because the record before had 4. -/
theorem c51_time_changed : ∃ mf : MFunc, (∀ k p, ∃ q, mf k p = some q ∧ q.time = 4) ∧
    ((copyOf demoEnv mf [] [] demoSrc).bind (fun s => readAll s 2)).map (·.map (·.time)) = some [4, 6] :=
  ⟨fun _ p => some { p with time := 4 }, fun _ p => ⟨_, rfl, rfl⟩, by decide +kernel⟩

/-- **C51, disagreement**: `exclude` does not keep a variable from being copied if an earlier `init_from_uv` with the same
source has marked it: `uvtrack_c` is never undone. -/
theorem c51_exclude_again : ∃ s m S nsize, writeAll .real demoSrc = some s ∧
    openUv demoEnv (content s.w.out) s.w.offset (table s.w) s.w.offset m = some (S, nsize) ∧
    ∃ us ks W, initFrom demoEnv S.r [] [] S.r.vars = some (us, ks) ∧
      pipeFrom demoEnv (content s.w.out) s.w.offset nsize echo [] [srcName] { S with r := track S.r ks } 5 = some W ∧
      (srcName, Ty.byte) ∈ table W.w := by
  have h : ((writeAll .real demoSrc).bind fun s =>
      match run (mkopen (fun _ => 0) (fun _ => 0) 1) (s.flagOps ++ [.reopen (fun _ => 0)]) with
      | .error _ => none
      | .ok m => (openUv demoEnv (content s.w.out) s.w.offset (table s.w) s.w.offset m).bind fun x =>
          (initFrom demoEnv x.1.r [] [] x.1.r.vars).bind fun y =>
            (pipeFrom demoEnv (content s.w.out) s.w.offset x.2 echo [] [srcName] { x.1 with r := track x.1.r y.2 } 5).map
              fun W => decide ((srcName, Ty.byte) ∈ table W.w)) = some true := by
    decide +kernel
  rw [Option.bind_eq_some_iff] at h
  obtain ⟨s, h1, h⟩ := h
  cases hm : run (mkopen (fun _ => 0) (fun _ => 0) 1) (s.flagOps ++ [.reopen (fun _ => 0)]) with
  | error e => rw [hm] at h; simp at h
  | ok m =>
    rw [hm] at h
    simp only at h
    rw [Option.bind_eq_some_iff] at h
    obtain ⟨x, h2, h⟩ := h
    rw [Option.bind_eq_some_iff] at h
    obtain ⟨y, h3, h⟩ := h
    rw [Option.map_eq_some_iff] at h
    obtain ⟨W, h4, h5⟩ := h
    exact ⟨s, m, x.1, x.2, h1, h2, y.1, y.2, W, h3, h4, of_decide_eq_true h5⟩

end Verif.Mir.Uv
