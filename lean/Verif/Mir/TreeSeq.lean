import Verif.Mir.TreeProps
import Verif.Mir.HioSeq

/-!
# Sessions with elements of different sizes, on the items of a data set
-/
namespace Verif.Mir.Hio

theorem finish_byByte {t : Tree} {n : Name} {it : Item} {c : Bool} {F : Flat} {ops : List Op} (hI : Inv 1 it F)
    (hat : At it 0) (w : WSeq 0 F ops) : finish t n it c ops = finish t n it c (ops.map byByte) := by
  unfold finish
  rw [(run_byByte _ it _ 0 hI hat w).1]

theorem noReopen_byByte {F : Flat} {ops : List Op} (w : WSeq 0 F ops) : (ops.map byByte).all noReopen = true := by
  rw [List.all_eq_true]
  intro x hx
  rw [List.mem_map] at hx
  obtain ⟨y, hy, rfl⟩ := hx
  obtain ⟨_, _, _, _, rfl⟩ := wseq_noReopen _ _ _ w y hy
  rfl

/-- an item written from the beginning -/
theorem session_write_wseq {t : Tree} {D : Dataset} (h : Rel t D) (n : Name) (g : Nat → Byte) (ops : List Op)
    (hn : nameOk n = true) (w : WSeq 0 (Flat.none false) ops) (hpos : 0 < (ops.foldl Flat.step (Flat.none false)).size) :
    StepOk t (session t .write n g ops) (D.set n (some (ops.foldl Flat.step (Flat.none false)))) := by
  have hnh : n ≠ hist := by
    intro hh
    rw [hh] at hn
    exact absurd hn (by decide)
  have hfresh : Inv 1 (fresh t n g) (Flat.none false) ∧ At (fresh t n g) 0 := by
    unfold fresh
    rw [if_neg hnh]
    exact ⟨none_inv_false _ rfl rfl rfl rfl rfl (Nat.zero_le _) rfl, rfl, Or.inl rfl⟩
  have heq : session t .write n g ops = session t .write n g (ops.map byByte) := by
    unfold session
    cases hf : find t.items n with
    | none =>
      simp only
      rw [finish_byByte hfresh.1 hfresh.2 w]
    | some e =>
      obtain ⟨he, hen⟩ := find_some hf
      obtain ⟨hnm', hm0, F, hD, hFb, hFs, hMI⟩ := h.items.ent e he
      have hsz0 : e.item.size ≠ 0 := by rw [hMI.size]; omega
      simp only [if_pos hsz0]
      refine finish_byByte (F := Flat.none false) ?_ ⟨?_, Or.inl rfl⟩ w
      · exact none_inv_false _ hMI.fd hMI.nc hMI.off rfl rfl hMI.b64 hm0
      · show e.item.off % 8 = 0
        rw [hMI.off]
  obtain ⟨-, r2, r3⟩ := run_byByte _ _ _ 0 hfresh.1 hfresh.2 w
  have := session_rel h 1 .write n g (ops.map byByte) ⟨⟨8, rfl⟩, Or.inl hn, noReopen_byByte w,
    by rw [decide_eq_false hnh]; exact r2, Or.inr (by rw [decide_eq_false hnh, r3]; exact hpos)⟩
  rw [heq]
  have hs : D.step (.session 1 .write n g (ops.map byByte)) = D.set n (some (ops.foldl Flat.step (Flat.none false))) := by
    show D.set n (some ((ops.map byByte).foldl Flat.step (Flat.none (decide (n = hist))))) = _
    rw [decide_eq_false hnh, r3]
  rw [hs] at this
  exact this

/-- an item that is appended to -/
theorem session_append_wseq {t : Tree} {D : Dataset} (h : Rel t D) (n : Name) (g : Nat → Byte) (ops : List Op)
    (hn : nameOk n = true) (F : Flat) (hD : D n = some F) (w : WSeq 0 F ops) :
    StepOk t (session t .append n g ops) (D.set n (some (ops.foldl Flat.step F))) := by
  have hnh : n ≠ hist := by
    intro hh
    rw [hh] at hn
    exact absurd hn (by decide)
  obtain ⟨hle, hlt⟩ := h.small n F hD
  have hkey : session t .append n g ops = session t .append n g (ops.map byByte) ∧
      ∃ it, Inv 1 it F ∧ At it 0 := by
    unfold session
    cases hf : find t.items n with
    | none =>
      simp only
      have hFb := not_small_of_absent h.items n (find_none hf) F hD
      obtain ⟨f, hff, hfs, hfk⟩ := h.big n F hD hFb
      have hfile : fileOf t n = f := by
        unfold fileOf; rw [hff]; rfl
      have hI : Inv 1 (openFile (decide (n = hist)) (fileOf t n).1 g (fileOf t n).2) F := by
        refine ⟨hle, ?_⟩
        rw [hFb, if_pos rfl, hfile]
        refine openFile_inv _ _ _ _ (Nat.one_dvd _) _ hfs.symm (fun p b hp => ⟨?_, hfk p b hp⟩)
        rw [hfs]; exact hlt p b hp
      have hat : At (openFile (decide (n = hist)) (fileOf t n).1 g (fileOf t n).2) 0 := ⟨rfl, Or.inl rfl⟩
      exact ⟨by rw [finish_byByte hI hat w], _, hI, hat⟩
    | some e =>
      simp only
      obtain ⟨he, hen⟩ := find_some hf
      obtain ⟨hnm', hm0, F', hD', hFb, hFs, hMI⟩ := h.items.ent e he
      rw [hen, hD] at hD'
      cases hD'
      have hsz0 : e.item.size ≠ 0 := by rw [hMI.size]; omega
      have hI : Inv 1 e.item F := ⟨hle, by rw [hFb, if_neg (by decide)]; exact hMI⟩
      have hat : At e.item 0 := ⟨by rw [hMI.off], Or.inl rfl⟩
      rw [if_neg (fun hc => hsz0 hc.1), if_neg (fun hc => hsz0 hc.1)]
      exact ⟨finish_byByte hI hat w, _, hI, hat⟩
  obtain ⟨heq, it0, hI0, hat0⟩ := hkey
  obtain ⟨-, r2, r3⟩ := run_byByte _ it0 _ 0 hI0 hat0 w
  have hgd : (D n).getD (Flat.none true) = F := by rw [hD]; rfl
  have := session_rel h 1 .append n g (ops.map byByte) ⟨⟨8, rfl⟩, Or.inl hn, noReopen_byByte w,
    Nat.one_dvd _, by rw [hgd]; exact r2⟩
  rw [heq]
  have hs : D.step (.session 1 .append n g (ops.map byByte)) = D.set n (some (ops.foldl Flat.step F)) := by
    show D.set n (some ((ops.map byByte).foldl Flat.step ((D n).getD (Flat.none true)))) = _
    rw [hgd, r3]
  rw [hs] at this
  exact this

/-- an item that is in a file has nothing in its buffer when it is opened -/
theorem openRead_clean {t : Tree} {D : Dataset} (h : Rel t D) {n : Name} {F : Flat} (hD : D n = some F) {g : Nat → Byte}
    {it : Item} (e : openRead t n g = .ok it) (hb : F.big = true) : it.len = 0 ∧ it.modified = false := by
  unfold openRead at e
  cases hf : find t.items n with
  | none =>
    rw [hf] at e
    simp only at e
    split at e
    · cases e
    · unfold openOld at e
      split at e
      · cases e
      · cases e; exact ⟨rfl, rfl⟩
  | some x =>
    obtain ⟨he, hen⟩ := find_some hf
    obtain ⟨_, _, F', hD', hFb, _⟩ := h.items.ent x he
    rw [hen, hD] at hD'
    cases hD'
    rw [hb] at hFb
    cases hFb

end Verif.Mir.Hio
