import Verif.Mir.PipeSelect
import Verif.Mir.PipeDemo

/-!
# Property C80 : an example
-/
namespace Verif.Mir.UvSel

open Verif.Mir.Uv hiding demoEnv readAll
open Verif.Mir.Hio (Byte)
open Verif.Mir.Mask (Mask)
open Verif.Miriad

/-- baselines are their numbers, and 1 is the value that `select` sees when `src` is "AB" -/
def copyEnv : SelEnv :=
  ⟨fun n => n, [srcName], fun val _ => if val srcName = some [65, 66, 0] then 1 else 0⟩

def copyAnt (b : Block) : Nat × Nat := if b.vis.bl = Codes.mkbl 0 1 then (0, 1) else (0, 2)

theorem copy_selectable : ∃ W, Archive Uv.demoEnv demoOps demoQuant (fun _ => 0) .real demoSrc W 2 ∧ PlainVars W ∧
    Holds (content W.w.out) W.w.offset W.w.out ∧ (∃ m, FlagFile W m) ∧ Selectable copyEnv demoOps demoSrc W copyAnt := by
  obtain ⟨s, h0, h1, h2, h3, h4⟩ := demo_archive'
  have hd : (writeAll .real demoSrc).all (fun s =>
      s.evs.all (fun e => match e with | .put nm _ _ => decide (nm ≠ nmPol) | _ => true) &&
      decide (nmPol ∉ (table s.w).map (·.1)) && (valueAfter (upTo 1 s.evs) srcName).isSome) = true := by decide +kernel
  rw [h0] at hd
  simp only [Option.all_some, Bool.and_eq_true, List.all_eq_true, decide_eq_true_eq] at hd
  obtain ⟨⟨d1, d2⟩, d3⟩ := hd
  refine ⟨s, h1, h2, h3, h4, ?_, ?_, ?_, ?_⟩
  · intro a b hab
    have : a = b := by simpa [demoOps] using hab
    rw [this]
  · intro b hb
    simp only [demoSrc, List.mem_cons, List.not_mem_nil, or_false] at hb
    rcases hb with rfl | rfl <;> exact ⟨rfl, by decide, by decide⟩
  · intro ty d hp
    have := d1 _ hp
    simp [nmPol] at this
  · intro nm hnm
    simp only [copyEnv, List.mem_cons, List.not_mem_nil, or_false] at hnm
    rcases hnm with rfl | rfl
    · exact Or.inl d2
    · refine Or.inr fun he => ?_
      rw [he] at d3
      simp at d3

/-- antennas 0 and 2: the second record -/
def copyCalls : List Call := [.other (.antennae 1 3 true)]

/-- the theorem applies: the copy has the second record only, as it is the only one wanted -/
example : ∃ (W W' : VisW) (S : VisR) (sel : Sel), selectAll (opened S).sel copyCalls = some sel ∧
    pipeSel Uv.demoEnv copyEnv (content W.w.out) W.w.offset 2 echo [] [] ⟨S, sel⟩ 3 = some W' ∧
    wanted copyEnv W copyAnt (specClauses (copyCalls.map Call.sel)) demoSrc = demoSrc.zipIdx.drop 1 ∧
    ∀ {f' : Nat → Byte} {size' : Nat} {r0 : Reader} {m' : Mask}, Holds f' size' W'.w.out → AtStart W' r0 → FlagFile W' m' →
      ∃ R out, uvreadN f' size' 2 1 ⟨r0, 0, m'⟩ = some (R, [out]) ∧ out.data = .plain (List.replicate 16 1) := by
  obtain ⟨W, h1, h2, h3, ⟨m, h4⟩, h5⟩ := copy_selectable
  obtain ⟨S, sel, W', g1, g2, g3, g4⟩ := c80_whole h1 (by decide) h2 rfl demo_laws demo_quant demo_bl (fun _ _ => rfl) h3 h4 h5
    copyCalls (by
      intro c hc
      rw [copyCalls, List.mem_singleton] at hc
      subst hc
      show (0 : Int) ≤ 1 ∧ (1 : Int) ≤ 2048 ∧ (0 : Int) ≤ 3 ∧ (3 : Int) ≤ 2048
      omega)
  have hw : wanted copyEnv W copyAnt (specClauses (copyCalls.map Call.sel)) demoSrc = demoSrc.zipIdx.drop 1 := by
    have key : ∀ b k, Want copyEnv W copyAnt (specClauses (copyCalls.map Call.sel)) b k ↔
        ∀ t, groupKeeps (recAt copyEnv W (copyAnt b) k)
          ([⟨0, true, namesBaseline 1 3⟩].filter (fun x : Cond => decide (x.ty = t))) = true := by
      intro b k
      simp [Want, SpecSelected, copyCalls, specClauses, Call.sel, specStep, addCond, SpecClause.Keeps]
    classical
    unfold wanted wantedFrom
    rw [List.drop_zero]
    have e : demoSrc.zipIdx = [(demoSrc[0], 0), (demoSrc[1], 1)] := rfl
    rw [e, List.filter_cons_of_neg, List.filter_cons_of_pos]
    · rfl
    · rw [decide_eq_true_iff, key]
      intro t
      by_cases ht : (0 : Nat) = t
      · subst ht; rfl
      · simp [ht, groupKeeps]
    · rw [decide_eq_true_iff, key]
      intro h
      exact absurd (h 0) (by simp [groupKeeps, namesBaseline, recAt, copyAnt, demoSrc])
  refine ⟨W, W', S, sel, g2, g3 3 (by decide), hw, ?_⟩
  intro f' size' r0 m' a b c
  obtain ⟨R, outs, out, q1, q2, q3, _⟩ := (g4 a b c).2 0 _ 1 (by rw [hw]; rfl)
  rw [List.eq_nil_of_length_eq_zero q2] at q1
  exact ⟨R, out, q1, q3.data⟩

/-- write, open, select, copy -/
def copySel (cs : List Call) (over : List (Name × PyVal)) (bs : List Block) : Option VisW :=
  (writeAll .real bs).bind fun s =>
    match Mask.run (Mask.mkopen (fun _ => 0) (fun _ => 0) 1) (s.flagOps ++ [.reopen (fun _ => 0)]) with
    | .error _ => none
    | .ok m => (openUv Uv.demoEnv (content s.w.out) s.w.offset (table s.w) s.w.offset m).bind fun x =>
        (selectAll (opened x.1).sel cs).bind fun sel =>
          pipeSel Uv.demoEnv copyEnv (content s.w.out) s.w.offset x.2 echo over [] ⟨x.1, sel⟩ (bs.length + 1)

/-- the second record has its own value of `src` -/
example : (copySel copyCalls [] demoSrc).bind (fun s => Uv.readAll s 1) = some
    [⟨1, 2, some 8, 6, Codes.mkbl 0 2, .plain (List.replicate 16 1), [true, true]⟩] ∧
    (copySel copyCalls [] demoSrc).bind (fun s => Uv.readAll s 2) = none ∧
    (copySel copyCalls [] demoSrc).bind (fun s => valuesOf s srcName .byte 1) = some [[67, 0]] ∧
    (copySel copyCalls [(srcName, .str [88])] demoSrc).bind (fun s => valuesOf s srcName .byte 1) = some [[88, 0]] := by
  decide +kernel

end Verif.Mir.UvSel
