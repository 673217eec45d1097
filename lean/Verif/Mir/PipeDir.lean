import Verif.Mir.UvDirC82
import Verif.Mir.PipeWhole
import Verif.Mir.PipeItems
import Verif.Mir.PipeDemo

/-!
# Property C87 : copying a data set, from directory to directory

C51 is about copying on streams of bytes, and separately about copying the items of a header; C82 about what is in the
directory of a data set.  Here `UV(filename)`, `init_from_uv` and `pipe` (miriad.py 72-286) are carried out on the items
of two directories: the records are read from the item `visdata` of the one through the buffers of `hio.c`, and what is
left behind in the other is what `uvclose_c` makes of it.  The flag files are those of C43 and C48.
-/
namespace Verif.Mir.Uv

open Verif.Mir.Hio (Byte Item Flat Op Tree Dataset Rel session reopenTree openRead newTree)
open Verif.Mir.Mask (Mask)
open Verif.Mir.Head (rdhd HOp Conv Asg Val Kind itype itemtable copyItems pipeHist hrun)

/-! ## The model -/

/-- `UV.__init__(filename)`, miriad.py 72-86, of a directory and its flag file (see `openUv`) -/
def hopenUv (E : Env) (g : Nat → Byte) (t : Tree) (m : Mask) : Option (Item × VisR × Nat) :=
  match openOld t g with
  | none => none
  | some (it, r0) =>
    match huvread g MAXCHAN it ⟨r0, 0, m⟩ with
    | (it', .ok S _) => (nchanOf E (rewind S.r)).map fun n => (it', rewindVis S, n)
    | _ => none

/-- the loop of `UV.pipe`, miriad.py 276-286, with the item `visdata` of the source (see `pipeLoop`) -/
def hpipeLoop (E : Env) (g : Nat → Byte) (nsize : Nat) (mf : MFunc) : Nat → Nat → Item → VisR → VisW → Option VisW
  | 0, _, _, _, _ => none
  | fuel + 1, k, it, S, s =>
    match huvread g nsize it S with
    | (_, .eof _) => some s
    | (_, .bad) => none
    | (it', .ok S1 out) =>
      match assignAll s (copyvr S1.r) with
      | none => none
      | some s1 =>
        match writeMaybe E s1 (mf k (E.show nsize out)) with
        | none => none
        | some s2 => hpipeLoop E g nsize mf fuel (k + 1) it' S1 s2

/-- What a script does: `uvi = UV(infile)`, `uvo = UV(outfile, status='new')`, `uvo.init_from_uv(uvi, override, exclude)`,
`uvo.pipe(uvi, mfunc, append2hist)`, miriad.py 247-286.  The dictionary `override` is given in two parts: the variables and
the items.  `none` for any exception; otherwise the items of the new data set and its stream, which are still in memory. -/
def copyRun (E : Env) (c : Conv) (g : Nat → Byte) (src : Tree) (m : Mask) (mf : MFunc) (over : List (Name × PyVal))
    (iover : List (Hio.Name × Val)) (excl : List Name) (app : List Nat) (fuel : Nat) : Option (Tree × VisW) :=
  (hopenUv E g src m).bind fun x =>
    (openVis E.mode).bind fun s0 =>
      ((copyItems c src iover (excl.map nameBytes) g itemtable newTree).toOption).bind fun t =>
        (initFrom E x.2.1.r over excl x.2.1.r.vars).bind fun i =>
          (assignAll s0 i.1).bind fun s1 =>
            ((pipeHist c t g app).toOption).bind fun t1 =>
              (hpipeLoop E g x.2.2 mf fuel 0 x.1 { x.2.1 with r := track x.2.1.r i.2 } s1).map fun W => (t1, W)

/-- `del(uvo)`: `uvclose_c`, uvio.c 838-945, and the next program opens the directory.  `obs` is what `uvflush_c` writes
into `obstype` (911-916; see `closeObs` for when).  (It is written before the other items here, in the code after
`vartable`.) -/
def closeCopy (c : Conv) (g : Nat → Byte) (obs : Option (List Byte)) (x : Tree × VisW) : Option Tree :=
  (match obs with
    | none => some x.1
    | some s => (Head.hstep c x.1 (.puta Head.obstype g s)).toOption).bind fun t =>
  closeDir ⟨t, false, x.2.w, 0, x.2.flagOff, 0⟩ g

/-! ## Reading from the directory is reading the bytes -/

theorem sound_track {r : Reader} (h : Sound r) (ks : List Name) : Sound (track r ks) := by
  refine ⟨?_, h.aligned⟩
  intro v hv
  obtain ⟨w, hw, rfl⟩ := List.mem_map.1 hv
  have := h.whole w hw
  by_cases hk : w.name ∈ ks
  · rw [if_pos hk]; exact this
  · rw [if_neg hk]; exact this

theorem hpipeLoop_eq (E : Env) (g : Nat → Byte) {F : Flat} {f : Nat → Byte} (nsize : Nat) (mf : MFunc) : ∀ (fuel k : Nat)
    (it : Item) (S : VisR) (s : VisW), Loaded it F f → Sound S.r →
    hpipeLoop E g nsize mf fuel k it S s = pipeLoop E f F.size nsize mf fuel k S s
  | 0, _, _, _, _, _, _ => rfl
  | fuel + 1, k, it, S, s, hl, hs => by
    obtain ⟨it', e, hl', hs'⟩ := huvread_eq g nsize hl hs
    rw [hpipeLoop, pipeLoop, e]
    cases hu : uvread f F.size nsize S with
    | eof S' => rfl
    | bad => rfl
    | ok S1 out =>
      rw [hu] at hs'
      simp only
      cases assignAll s (copyvr S1.r) with
      | none => rfl
      | some s1 =>
        simp only
        cases writeMaybe E s1 (mf k (E.show nsize out)) with
        | none => rfl
        | some s2 => exact hpipeLoop_eq E g nsize mf fuel (k + 1) it' S1 s2 hl' hs'

theorem hopenUv_eq {E : Env} {g : Nat → Byte} {t : Tree} {it : Item} {tbl : List (Name × Ty)} {n : Nat} {F : Flat}
    {f : Nat → Byte} (ho : openOld t g = some (it, openReader tbl n)) (hl : Loaded it F f) (m : Mask) {S : VisR} {nsize : Nat}
    (h : openUv E f F.size tbl n m = some (S, nsize)) :
    ∃ it', hopenUv E g t m = some (it', S, nsize) ∧ Loaded it' F f ∧ Sound S.r := by
  obtain ⟨it', e, hl', hs'⟩ := huvread_eq g (nsize := MAXCHAN) (s := ⟨openReader tbl n, 0, m⟩) hl (sound_open _ _)
  unfold openUv at h
  unfold hopenUv
  rw [ho]
  simp only
  rw [e]
  cases hu : uvread f F.size MAXCHAN ⟨openReader tbl n, 0, m⟩ with
  | eof S' => rw [hu] at h; cases h
  | bad => rw [hu] at h; cases h
  | ok S1 out =>
    rw [hu] at h hs'
    simp only at h ⊢
    rw [Option.map_eq_some_iff] at h
    obtain ⟨k, hk, hh⟩ := h
    rw [Prod.mk.injEq] at hh
    obtain ⟨rfl, rfl⟩ := hh
    refine ⟨it', by rw [hk]; rfl, hl', sound_rewind hs'⟩

/-! ## A data set of one session -/

theorem blocks_acts {o q junk mode} (hl : FpLaws o) (hq : QuantOk q) (hmode : mode = .real ∨ mode = .int2)
    {bs : List Block} : ∀ {cold : Bool} {bs0 : List Block} {s s2 : VisW}, Soon o q mode cold bs0 s → (∀ b ∈ bs, BlockOk b) →
      (cold = true → ∀ b, bs.head? = some b → Fresh o b) → writeBlocks o q junk mode s bs = some s2 →
      writeActs o q junk s (bs.map .block) = some s2 := by
  induction bs with
  | nil => intro cold bs0 s s2 _ _ _ h; exact h
  | cons b bs ih =>
    intro cold bs0 s s2 hs hb hf h
    simp only [writeBlocks] at h
    cases h1 : writeBlock o q junk mode s b with
    | none => rw [h1] at h; cases h
    | some s1 =>
      rw [h1] at h
      have hsb := soon_block hl hq hmode hs (hb b List.mem_cons_self) (fun hc => hf hc b rfl) h1
      simp only [List.map_cons, writeActs, writeAct, corrTy_head hs.head, Option.bind_some, h1]
      exact ih hsb (fun b h => hb b (List.mem_cons_of_mem _ h)) (by simp) h

theorem allBlocks_map (bs : List Block) : allBlocks (bs.map .block) = bs := by
  induction bs with
  | nil => rfl
  | cons b bs ih => rw [List.map_cons, allBlocks, ih]

theorem freshActs_map (o : FpOps) : ∀ bs : List Block, FreshActs o false (bs.map .block)
  | [] => trivial
  | b :: bs => ⟨by simp, freshActs_map o bs⟩

theorem written_sessions {o q junk mode} {bs : List Block} {s : VisW} (hw : Written o q junk mode bs s) :
    Sessions o q junk mode (bs.map .block) s := by
  obtain ⟨s0, s1, tail, h0, h1, h2, h3⟩ := hw.ran
  refine ⟨hw.laws, hw.quant, hw.corr, ⟨s0, s1, tail, h0, ?_, h2, h3⟩, ?_, ?_, hw.vars⟩
  · exact blocks_acts hw.laws hw.quant hw.corr (soon_open h0) hw.blocks (fun _ => hw.fresh) h1
  · intro a ha
    obtain ⟨b, hb, rfl⟩ := List.mem_map.1 ha
    exact hw.blocks b hb
  · cases bs with
    | nil => trivial
    | cons b bs => exact ⟨fun _ => hw.fresh b rfl, freshActs_map o bs⟩

/-! ## Items that hold text -/

/-- the bytes that `_rdhd` shows of an item of text: all but NUL -/
def shownText (T : List Byte) : List Nat := (T.filter (· ≠ 0)).map (·.toNat)

theorem text_shown : ∀ T : List Byte, (∀ b ∈ T, b.toNat < 128) → Head.text (T.map ([·])) = .ok (shownText T)
  | [], _ => rfl
  | b :: T, h => by
    have ih := text_shown T (fun b hb => h b (List.mem_cons_of_mem _ hb))
    have hb := h b List.mem_cons_self
    show (if b.toNat = 0 then Head.text (T.map ([·])) else if 128 ≤ b.toNat then .error .unicode
      else (Head.text (T.map ([·]))).map (b.toNat :: ·)) = _
    rw [ih]
    by_cases h0 : b = 0
    · subst h0; rfl
    · have h1 : b.toNat ≠ 0 := by
        intro h; apply h0; exact UInt8.toNat_inj.1 h
      rw [if_neg h1, if_neg (by omega)]
      simp [shownText, h0, Except.map]

theorem rdhd_text {t : Tree} {D : Dataset} (h : Rel t D) (hl : t.items.length < 1023) (c : Conv) {n : Hio.Name}
    (hk : itype n = some .text) {F : Flat} (hD : D n = some F) {T : List Byte} (hT : Head.HoldsText F T)
    (hsz : T.length ≤ 2 ^ 31) (hb : ∀ b ∈ T, b.toNat < 128) (g : Nat → Byte) :
    (∃ it, Head.openItem t n g = .ok it) ∧ rdhd c t n g = .ok (.str (shownText T)) := by
  obtain ⟨it, e, hi, hf⟩ := Head.openItem_some h hl n F hD g
  refine ⟨⟨it, e⟩, ?_⟩
  have hlen : ∀ x ∈ T.map (fun b => [b]), x.length = 1 := by
    intro x hx
    obtain ⟨b, _, rfl⟩ := List.mem_map.1 hx
    rfl
  have hasc : Head.Asc 0 (Head.chunksFrom 1 0 (T.map fun b => [b])) := by
    refine Head.chunksFrom_asc (by decide) _ 0 0 (by decide) ?_ (by omega) (by omega) (Or.inr rfl) (fun _ => rfl) ?_
    · intro x hx
      refine ⟨hlen x hx, ?_⟩
      intro h0
      have := hlen x hx
      rw [h0] at this
      simp at this
    · rw [List.length_map]; omega
  have hplan := Head.readPlan_right (F := F) g (fun k => (1, k)) (Head.chunksFrom 1 0 (T.map fun b => [b])) 0 (it.size + 1) it 0 hi
    (Head.fresh_rat hf) hasc ?_ ?_ ?_ ?_
  · unfold rdhd
    rw [hk]
    simp only
    rw [e]
    show (Head.text (Head.readPlan (it.size + 1) it g (fun k => (1, k)) 0)).map Val.str = _
    rw [hplan, Head.chunksFrom_map, text_shown T hb]
    rfl
  · intro x hx
    obtain ⟨i, hi⟩ := List.mem_iff_getElem?.1 hx
    have h1 := Head.chunksFrom_get 1 _ 0 i x hi
    obtain ⟨h2, h3⟩ := Head.chunksFrom_mem 1 _ 0 x hx
    rw [Prod.mk.injEq] at h1
    have h4 : (T.map fun b => [b])[i]? = some x.2.2 := by
      have := congrArg (fun l => l[i]?) (Head.chunksFrom_map 1 (T.map fun b => [b]) 0)
      simp only [List.getElem?_map] at this
      rw [hi] at this
      rw [List.getElem?_map]
      exact this.symm
    rw [List.getElem?_map, Option.map_eq_some_iff] at h4
    obtain ⟨b, hb1, hb2⟩ := h4
    have h5 : x.2.1 = i := by have := h1.2; omega
    have hi2 := (List.getElem?_eq_some_iff.1 hb1).1
    refine ⟨⟨?_, ?_⟩, by rw [← hb2, h2]; rfl⟩
    · rw [h5, ← hb2, hT.size]; exact hi2
    · intro k b' hk'
      rw [← hb2] at hk'
      cases k with
      | zero =>
        rw [List.getElem?_cons_zero, Option.some.injEq] at hk'
        rw [h5, ← hk']
        exact hT.known i b hb1
      | succ k => simp at hk'
  · intro i x hx
    have := Head.chunksFrom_get 1 _ 0 i x hx
    rw [this]
    simp
  · rw [Head.chunksFrom_length, List.length_map, hT.size]
    simp
  · rw [Head.chunksFrom_length, List.length_map, Head.inv_size hi, hT.size]
    omega

theorem chars_text (n : Hio.Name) (s : List Byte) (hs : s ≠ []) (hl : 4 + s.length ≤ 2 ^ 31) :
    Head.HoldsText (Head.flatOf n [(1, 0, Head.Ty.char.tag), (1, 4, s)]) (Head.Ty.char.tag ++ s) := by
  have ht : Head.Ty.char.tag.length = 4 := rfl
  have hasc : Head.Asc 0 [(1, 0, Head.Ty.char.tag), (1, 4, s)] := by
    refine ⟨by decide, by decide, by decide, by decide, by omega, by omega, Or.inr rfl, by rw [ht]; omega, fun _ => rfl, ?_⟩
    refine ⟨by decide, by decide, hs, Nat.one_dvd _, by rw [ht]; omega, by rw [ht]; omega, Or.inr (by rw [ht]), hl, ?_, trivial⟩
    rw [ht]; omega
  obtain ⟨h1, h2⟩ := Head.flat_holds n _ hasc
  refine ⟨?_, ?_⟩
  · rw [h1, List.length_append, ht]; rfl
  · intro p b hp
    by_cases hlt : p < 4
    · have := (h2 _ List.mem_cons_self).2 p b (by rw [← hp, List.getElem?_append_left (by rw [ht]; exact hlt)])
      rw [Nat.zero_add] at this
      exact this
    · have := (h2 _ (List.mem_cons_of_mem _ List.mem_cons_self)).2 (p - 4) b
        (by rw [← hp, List.getElem?_append_right (by rw [ht]; omega), ht])
      have e : 4 + (p - 4) = p := by omega
      rw [← e]
      exact this

theorem shownText_ok {T : List Byte} (h : ∀ b ∈ T, b.toNat < 128) :
    (shownText T).length ≤ T.length ∧ ∀ ch ∈ shownText T, 0 < ch ∧ ch < 128 := by
  refine ⟨?_, ?_⟩
  · unfold shownText
    rw [List.length_map]
    exact List.length_filter_le _ _
  · intro ch hch
    obtain ⟨b, hb, rfl⟩ := List.mem_map.1 hch
    obtain ⟨h1, h2⟩ := List.mem_filter.1 hb
    refine ⟨?_, h b h1⟩
    have : b ≠ 0 := by simpa using h2
    have h3 : b.toNat ≠ 0 := fun h => this (UInt8.toNat_inj.1 h)
    omega

/-- an item of text can be copied -/
theorem copyable_text {t : Tree} {D : Dataset} (h : Rel t D) (hl : t.items.length < 1023) (c : Conv) {n : Hio.Name}
    (hk : itype n = some .text) {F : Flat} (hD : D n = some F) {T : List Byte} (hT : Head.HoldsText F T)
    (hsz : T.length ≤ 2 ^ 31) (hb : ∀ b ∈ T, b.toNat < 128) (hne : ∃ b ∈ T, b ≠ 0) : Head.Copyable c t n .text := by
  refine Or.inr ⟨.str (shownText T), fun g => rdhd_text h hl c hk hD hT hsz hb g, ?_, rfl⟩
  obtain ⟨h1, h2⟩ := shownText_ok hb
  obtain ⟨b, hb1, hb2⟩ := hne
  refine ⟨Or.inr ?_, by omega, h2⟩
  intro h0
  have : b.toNat ∈ shownText T := List.mem_map_of_mem (List.mem_filter.2 ⟨hb1, by simpa using hb2⟩)
  rw [h0] at this
  cases this

/-- an item that does not exist, or was assigned from Python -/
theorem copyable_item {t : Tree} {D : Dataset} (h : Rel t D) (hl : t.items.length < 1023) (c : Conv)
    (hw : ∀ x < 2 ^ 32, c.round (c.widen x) = x) {n : Hio.Name} {k : Kind} (hk : itype n = some k) {v : Val}
    (hv : Head.ValOk n k v) (hD : D n = some (Head.flatOf n (Head.chunksOf c n (.py v)))) : Head.Copyable c t n k := by
  obtain ⟨s1, s2⟩ := Head.shown_ok c hw n k v hv
  refine Or.inr ⟨Head.shown c k v, fun g => ⟨?_, ?_⟩, s1, s2⟩
  · obtain ⟨it, e, _⟩ := Head.openItem_some h hl n _ hD g
    exact ⟨it, e⟩
  · rcases Head.rdhd_rel h c n g v k hk hv hD with ⟨_, h'⟩ | h'
    · omega
    · exact h'

theorem nl_small : (Head.NL : Byte).toNat < 128 := by decide

theorem line_small (p : Name × Ty) (h : Visible p.1) : ∀ b ∈ tableLine p, b.toNat < 128 := by
  intro b hb
  rcases List.mem_append.1 hb with hb | hb
  · have h1 : ∀ ty : Ty, ∀ b ∈ [ty.letter, (32 : Byte)], b.toNat < 128 := by
      intro ty
      cases ty <;> decide
    exact h1 p.2 b hb
  · obtain ⟨ch, hc, rfl⟩ := List.mem_map.1 hb
    have := h.2 ch hc
    rw [UInt8.toNat_ofNat']
    omega

theorem copyable_table {names : List Hio.Name} {t : Tree} {w : Writer} {fl : Nat} {D : Dataset} (h : Closed names t w fl D)
    (hv : w.vars ≠ []) (c : Conv) : Head.Copyable c t itVartable .text := by
  obtain ⟨l1, l2⟩ := text_length (table w) h.tabled.plain
  have hfew := h.tabled.few
  refine copyable_text h.good.rel h.good.items c (by decide) h.tbl (Head.text_flat _ _ (by omega)) (by omega) ?_ ?_
  · intro b hb
    obtain ⟨l, hl, hb⟩ := List.mem_flatMap.1 hb
    obtain ⟨p, hp, rfl⟩ := List.mem_map.1 hl
    rcases List.mem_append.1 hb with hb | hb
    · exact line_small p (h.tabled.plain p hp).2 b hb
    · rw [List.mem_singleton.1 hb]; exact nl_small
  · cases hw : w.vars with
    | nil => exact absurd hw hv
    | cons v vs =>
      refine ⟨Head.NL, ?_, by decide⟩
      refine List.mem_flatMap.2 ⟨tableLine (v.name, v.ty), List.mem_map.2 ⟨(v.name, v.ty), ?_, rfl⟩, by simp⟩
      unfold table
      rw [hw]
      exact List.mem_cons_self

/-! ## The items of the copy -/

/-- the names that the items of a copy can have -/
def copyNames (names : List Hio.Name) : List Hio.Name := names.filter fun n => n ∈ itemtable.map (·.1) ++ reserved

theorem mem_copyNames {names : List Hio.Name} {n : Hio.Name} :
    n ∈ copyNames names ↔ n ∈ names ∧ n ∈ itemtable.map (·.1) ++ reserved := by
  unfold copyNames
  rw [List.mem_filter]
  simp

/-- what `uvflush_c` assigns -/
def obsOps (g : Nat → Byte) : Option (List Byte) → List HOp
  | none => []
  | some s => [.puta Head.obstype g s]

/-- all the assignments to items -/
def copyOps (c : Conv) (src : Tree) (iover : List (Hio.Name × Val)) (excl : List Hio.Name) (g : Nat → Byte)
    (new : List Nat) (obs : Option (List Byte)) : List HOp :=
  Head.planOf c src iover excl g itemtable ++ ([.set Hio.hist g (.str new)] ++ obsOps g obs)

theorem target_named {c : Conv} {names : List Hio.Name} {src : Tree} {D : Dataset} (h : InDir names src D)
    {iover : List (Hio.Name × Val)} {excl : List Hio.Name} {g : Nat → Byte} {n : Hio.Name} {v : Val}
    (ht : Head.target c src iover excl g n = some v) : n ∈ names := by
  cases hD : D n with
  | some F => exact h.named n F hD
  | none =>
    exfalso
    have := Head.openItem_none h.rel h.items n hD g
    unfold Head.target at ht
    rw [this] at ht
    cases ht

theorem hrun_split {c : Conv} {a b : List HOp} {t t2 : Tree} (h : hrun c t (a ++ b) = .ok t2) :
    ∃ t1, hrun c t a = .ok t1 ∧ hrun c t1 b = .ok t2 := by
  rw [Head.hrun_append] at h
  cases hr : hrun c t a with
  | error e => rw [hr] at h; cases h
  | ok t1 => rw [hr] at h; exact ⟨t1, rfl, h⟩

theorem plan_ops {c : Conv} {names : List Hio.Name} {src : Tree} {D : Dataset} (h : InDir names src D)
    {iover : List (Hio.Name × Val)} {excl : List Hio.Name} {g : Nat → Byte} :
    ∀ o ∈ Head.planOf c src iover excl g itemtable, ∀ n a, Head.assigns n o = some a → n ∈ copyNames names := by
  intro o ho n a ha
  obtain ⟨p, hp, hpo⟩ := List.mem_flatMap.1 ho
  cases ht : Head.target c src iover excl g p.1 with
  | none => rw [ht] at hpo; simp at hpo
  | some v =>
    rw [ht] at hpo
    rw [List.mem_singleton] at hpo
    subst hpo
    unfold Head.assigns at ha
    simp only at ha
    by_cases hn : p.1 = n
    · rw [← hn]
      exact mem_copyNames.2 ⟨target_named h ht, List.mem_append_left _ (List.mem_map_of_mem hp)⟩
    · rw [if_neg hn] at ha; simp at ha

theorem copy_tree (c : Conv) {names : List Hio.Name} {src : Tree} {D : Dataset} (hsrc : InDir names src D)
    (h : ∀ p ∈ itemtable, Head.Copyable c src p.1 p.2) (iover : List (Hio.Name × Val))
    (hover : ∀ p ∈ itemtable, ∀ q, iover.find? (fun q => q.1 = p.1) = some q → Head.ValOk p.1 p.2 q.2) (excl : List Hio.Name)
    (g : Nat → Byte) (old app : List Nat) (hold : ∀ g, rdhd c src Hio.hist g = .ok (.str old)) (hx : Hio.hist ∉ excl)
    (ho : iover.find? (fun q => q.1 = Hio.hist) = none) (happ : ∀ ch ∈ app, 0 < ch ∧ ch < 128)
    (hlen : (old ++ app).length ≤ 2 ^ 31) (obs : Option (List Byte)) (hon : Head.obstype ∈ names)
    (hobs : ∀ s, obs = some s → s ≠ [] ∧ 4 + s.length ≤ 2 ^ 31) :
    ∃ t t1 t2 D2, copyItems c src iover excl g itemtable newTree = .ok t ∧ pipeHist c t g app = .ok t1 ∧
      hrun c t1 (obsOps g obs) = .ok t2 ∧ InDir (copyNames names) t2 D2 ∧
      ∀ n, D2 n = (Head.lastOf (copyOps c src iover excl g (old ++ app) obs) n).map fun a => Head.flatOf n (Head.chunksOf c n a) := by
  have hp := Head.plan_ok c src iover excl g h hover
  have hmemh : (Hio.hist, Kind.text) ∈ itemtable := by decide
  have htar : Head.target c src iover excl g Hio.hist = some (.str old) := by
    unfold Head.target
    have := hold g
    rcases h _ hmemh with h1 | ⟨v, h1, _⟩
    · exfalso
      unfold rdhd at this
      rw [show itype Hio.hist = some .text from by decide] at this
      have h1 : Head.openItem src Hio.hist g = .error .io := h1 g
      simp only at this
      rw [h1] at this
      cases this
    · have h1 : (∃ it, Head.openItem src Hio.hist g = .ok it) ∧ rdhd c src Hio.hist g = .ok v := h1 g
      obtain ⟨⟨it, e⟩, _⟩ := h1
      rw [e]
      simp only
      rw [if_neg hx, ho, this]
  have hoo : Head.ValOk Hio.hist .text (.str old) := by
    rcases h _ hmemh with h1 | ⟨v, h1, h2, _⟩
    · exfalso
      have := hold g
      unfold rdhd at this
      rw [show itype Hio.hist = some .text from by decide] at this
      have h1 : Head.openItem src Hio.hist g = .error .io := h1 g
      simp only at this
      rw [h1] at this
      cases this
    · have h1 : (∃ it, Head.openItem src Hio.hist g = .ok it) ∧ rdhd c src Hio.hist g = .ok v := h1 g
      have := h1.2
      rw [hold g, Except.ok.injEq] at this
      rw [this]
      exact h2
  have hnew : Head.ValOk Hio.hist .text (.str (old ++ app)) := by
    refine ⟨Or.inl rfl, hlen, ?_⟩
    intro ch hch
    rcases List.mem_append.1 hch with hch | hch
    · exact hoo.2.2 ch hch
    · exact happ ch hch
  have hhn : Hio.hist ∈ copyNames names :=
    mem_copyNames.2 ⟨target_named hsrc htar, by decide⟩
  have hall : ∀ o ∈ copyOps c src iover excl g (old ++ app) obs, Head.HOk o := by
    intro o ho
    rcases List.mem_append.1 ho with ho | ho
    · exact (hp o ho).1
    · rcases List.mem_append.1 ho with ho | ho
      · rw [List.mem_singleton.1 ho]
        exact ⟨.text, by decide, hnew⟩
      · cases hb : obs with
        | none => rw [hb] at ho; cases ho
        | some s =>
          rw [hb] at ho
          rw [List.mem_singleton.1 ho]
          exact ⟨by decide, hobs s hb⟩
  have hnames : ∀ o ∈ copyOps c src iover excl g (old ++ app) obs, ∀ n a, Head.assigns n o = some a → n ∈ copyNames names := by
    intro o ho n a ha
    rcases List.mem_append.1 ho with ho | ho
    · exact plan_ops hsrc o ho n a ha
    · rcases List.mem_append.1 ho with ho | ho
      · rw [List.mem_singleton.1 ho] at ha
        unfold Head.assigns at ha
        simp only at ha
        by_cases hn : Hio.hist = n
        · rw [← hn]; exact hhn
        · rw [if_neg hn] at ha; cases ha
      · cases hb : obs with
        | none => rw [hb] at ho; cases ho
        | some s =>
          rw [hb] at ho
          rw [List.mem_singleton.1 ho] at ha
          unfold Head.assigns at ha
          simp only at ha
          by_cases hn : Head.obstype = n
          · rw [← hn]; exact mem_copyNames.2 ⟨hon, by decide⟩
          · rw [if_neg hn] at ha; cases ha
  have hfew : (copyNames names).length < 1023 := Nat.lt_of_le_of_lt (List.length_filter_le _ _) hsrc.few
  obtain ⟨t2, D2, e1, e2, e3, e4, e5⟩ := Head.hrun_rel c (copyNames names) hfew _ newTree (fun _ => none) Hio.new_rel
    (by intro n F h; cases h) hall hnames
  obtain ⟨t, f1, f2⟩ := hrun_split e1
  obtain ⟨t1, f2, f3⟩ := hrun_split f2
  have hD2 : ∀ n, D2 n = (Head.lastOf (copyOps c src iover excl g (old ++ app) obs) n).map
      fun a => Head.flatOf n (Head.chunksOf c n a) := by
    intro n
    rw [e4 n, Option.or_none]
  refine ⟨t, t1, t2, D2, by rw [Head.copy_plan c src iover excl g _ h]; exact f1, ?_, f3, ⟨e2, ?_, hfew⟩, hD2⟩
  · obtain ⟨t', D', k1, k2, k3, k4, k5⟩ := Head.hrun_rel c (copyNames names) hfew (Head.planOf c src iover excl g itemtable)
      newTree (fun _ => none) Hio.new_rel (by intro n F h; cases h) (fun o ho => (hp o ho).1) (plan_ops hsrc)
    rw [f1, Except.ok.injEq] at k1
    subst k1
    have hDh : D' Hio.hist = some (Head.flatOf Hio.hist (Head.chunksOf c Hio.hist (.py (.str old)))) := by
      rw [k4, Option.or_none, Head.plan_last, if_pos (by decide), htar]
      rfl
    have hr : rdhd c t Hio.hist g = .ok (.str old) := by
      rcases Head.rdhd_rel k2 c Hio.hist g (.str old) .text (by decide) hoo hDh with ⟨_, h'⟩ | h'
      · omega
      · exact h'
    unfold pipeHist
    rw [hr]
    exact Head.hrun_one f2
  · intro n F hn
    rw [hD2 n, Option.map_eq_some_iff] at hn
    obtain ⟨a, ha, _⟩ := hn
    unfold Head.lastOf at ha
    obtain ⟨o, ho, hoa⟩ := List.exists_of_findSome?_eq_some ha
    exact hnames o (List.mem_reverse.1 ho) n a hoa

/-! ## The stream of the copy -/

theorem blocks_noreopen {o q junk mode} {bs : List Block} : ∀ {s s2 : VisW}, writeBlocks o q junk mode s bs = some s2 →
    Ev.reopen ∉ s.evs → Ev.reopen ∉ s2.evs := by
  induction bs with
  | nil =>
    intro s s2 h hs
    simp only [writeBlocks, Option.some.injEq] at h
    rw [← h]; exact hs
  | cons b bs ih =>
    intro s s2 h hs
    simp only [writeBlocks] at h
    rw [Option.bind_eq_some_iff] at h
    obtain ⟨s1, h1, h⟩ := h
    obtain ⟨s', e1, e2, e3, e4, e5, e6, e7, e8, e9, e10, e11⟩ := writeBlock_some h1
    obtain ⟨l, l1, l2⟩ := callEvs_shape o q junk mode s' b.vis
    obtain ⟨a1, _⟩ := assignAll_some e1
    have hev : s1.evs = s'.evs ++ callEvs o q junk mode s' b.vis := by rw [e11, e5]
    refine ih h ?_
    rw [hev, a1]
    intro hm
    rcases List.mem_append.1 hm with hm | hm
    · rcases List.mem_append.1 hm with hm | hm
      · exact hs hm
      · exact reopen_notMem _ hm
    · exact l2 hm

theorem written_noreopen {o q junk mode} {bs : List Block} {s : VisW} (hw : Written o q junk mode bs s) :
    Ev.reopen ∉ s.evs := by
  obtain ⟨s0, s1, tail, h0, h1, h2, h3⟩ := hw.ran
  have hs0 : Ev.reopen ∉ s0.evs := by
    rw [openVis_some, Option.some.injEq] at h0
    rw [← h0]
    simp
  have := blocks_noreopen h1 hs0
  obtain ⟨a1, _⟩ := assignAll_some h2
  rw [a1]
  intro hm
  rcases List.mem_append.1 hm with hm | hm
  · exact this hm
  · exact reopen_notMem _ hm

theorem dirRun_evs (c : Conv) (g : Nat → Byte) (es : List Ev) : ∀ (d : Dir), Ev.reopen ∉ es →
    dirRun c g d (es.map .ev) = (wrun d.w es).map fun w => { d with w := w } := by
  induction es with
  | nil => intro d _; rfl
  | cons e es ih =>
    intro d h
    rw [List.map_cons, dirRun, dirStep_ev c g d (by rintro rfl; exact h List.mem_cons_self), wrun]
    cases wstep d.w e with
    | none => rfl
    | some w => exact ih _ (fun hm => h (List.mem_cons_of_mem _ hm))

theorem filled_none (es : List Ev) : ∀ (w : Writer), Ev.reopen ∉ es → Filled w es := by
  induction es with
  | nil => intro w _; trivial
  | cons e es ih =>
    intro w h
    exact ⟨fun he => absurd (he ▸ List.mem_cons_self) h, fun w' _ => ih w' (fun hm => h (List.mem_cons_of_mem _ hm))⟩

theorem copy_dinv {o q junk mode} {bs : List Block} {W : VisW} (hw : Written o q junk mode bs W) (hne : bs ≠ [])
    (hb : W.w.offset ≤ 2 ^ 31) {names : List Hio.Name} (hap : Apart names (table W.w)) (hres : ∀ n ∈ reserved, n ∈ names)
    {t : Tree} {D : Dataset} (ht : InDir names t D) :
    DInv names ⟨t, false, W.w, 0, W.flagOff, 0⟩ W.w W.flagOff D ∧ 0 < W.w.offset ∧ W.w.vars ≠ [] := by
  have hno := written_noreopen hw
  have hhist : HistOk W.evs := by
    obtain ⟨_, _, _, _, _, _, _, _, h⟩ := written_upTo hw 0 (List.length_pos_iff.2 hne)
    exact h
  have hok : DirOk names (W.evs.map .ev) := by
    refine ⟨by rw [evsOf_map]; exact hhist, ?_, ?_, hres, ht.few⟩ <;> rw [itemsOf_map] <;> simp
  have hs := written_sessions hw
  have hne' : allBlocks (bs.map .block) ≠ [] := by rw [allBlocks_map]; exact hne
  have hg := hs.going
  have hpos := hs.offset_pos hne'
  have hv : W.w.vars ≠ [] := by
    obtain ⟨s0, s1, tail, h0, h1, h2, h3⟩ := hw.ran
    obtain ⟨_, hsoon⟩ := soon_blocks hw.laws hw.quant hw.corr (soon_open h0) hw.blocks (fun _ => hw.fresh) h1
    obtain ⟨_, _, _, _, hrun⟩ := assignAll_some h2
    have := head_prefix (wrun_table hrun) hsoon.head
    intro hv
    unfold table at this
    rw [hv] at this
    cases this
  obtain ⟨d, D', e1, e2, _⟩ := dirRun_ok (Head.noConv) (fun _ => 0) (newDir_inv ht.few) (by rw [evsOf_map]; exact hg.run) hok hap hb
    (by rw [flagsOf_map]; decide) (by
      rw [evsOf_map]
      exact filled_none _ _ hno)
  rw [dirRun_evs _ _ _ _ hno] at e1
  have hrun : wrun newDir.w W.evs = some W.w := hg.run
  rw [hrun] at e1
  simp only [Option.map_some, Option.some.injEq] at e1
  subst e1
  obtain ⟨pre, o', F0, o0, ts, s1, s2, s3, s4, s5, s6, s7, s8, s9⟩ := e2.stream
  refine ⟨⟨ht, e2.tabled, hap, rfl, rfl, ⟨pre, o', F0, o0, ts, s1, s2, s3, s4, s5, s6, s7, ?_, s9⟩, ?_, fun _ => rfl, Nat.zero_le _⟩, hpos, hv⟩
  · intro h; cases h
  · intro h; cases h

/-! ## Both together -/

/-- a data set in a directory: the program `h` that wrote it, whose records are `bs` and whose items are those of
`itemsOf h`.  Items are assigned from Python, `obstype` also by `uvflush_c`. -/
structure Origin (E : Env) (o : FpOps) (q : Quant) (junk : Nat → Nat) (bs : List Block) (W : VisW) (n : Nat)
    (names : List Hio.Name) (h : List DEv) (old : List Nat) : Prop where
  arch : Archive E o q junk .real bs W n
  nonempty : bs ≠ []
  ok : DirOk names h
  evs : evsOf h = W.evs
  flags : flagsOf h = W.flagOff
  apart : Apart names (table W.w)
  size : W.w.offset ≤ 2 ^ 31
  count : W.flagOff < 2 ^ 63
  items : ∀ p ∈ itemtable, Head.lastOf (itemsOf h) p.1 = none ∨ (∃ v, Head.lastOf (itemsOf h) p.1 = some (.py v)) ∨
    (p.1 = Head.obstype ∧ ∃ s, Head.lastOf (itemsOf h) p.1 = some (.chars s) ∧ ∀ b ∈ s, 0 < b.toNat ∧ b.toNat < 128)
  history : Head.lastOf (itemsOf h) Hio.hist = some (.py (.str old))
  obs : Head.obstype ∈ names

/-- the variables can be copied: what is overridden is given a value of the type of the variable, the others are set before
the end of the first record to something plain; those that `uvwrite_c` writes itself are neither overridden nor excluded -/
structure VarsOk (E : Env) (W : VisW) (over : List (Name × PyVal)) (excl : List Name) : Prop where
  plain : ∀ x ∈ table W.w, x.1 ≠ nmCorr → x.1 ∉ excl → over.find? (fun p => p.1 = x.1) = none →
    ∃ d, valueAfter (upTo 1 W.evs) x.1 = some d ∧ Plain x.2 d
  given : ∀ x ∈ table W.w, ∀ p, over.find? (fun p => p.1 = x.1) = some p → ∃ d, encode E.fo (tyChar x.2) p.2 = some (x.2, d) ∧
    EvOk (.put x.1 x.2 d)
  own : ∀ x ∈ std, x.1 ≠ nmTscale → x.1 ∉ excl ∧ over.find? (fun p => p.1 = x.1) = none

/-- the items can be copied: see `c51_history` -/
structure ItemsOk (iover : List (Hio.Name × Val)) (excl : List Name) (old app : List Nat) : Prop where
  given : ∀ p ∈ itemtable, ∀ q, iover.find? (fun q => q.1 = p.1) = some q → Head.ValOk p.1 p.2 q.2
  kept : Hio.hist ∉ excl.map nameBytes
  free : iover.find? (fun q => q.1 = Hio.hist) = none
  ascii : ∀ ch ∈ app, 0 < ch ∧ ch < 128
  len : (old ++ app).length ≤ 2 ^ 31

/-- what `uvflush_c` writes is text -/
def ObsOk (obs : Option (List Byte)) : Prop :=
  ∀ s, obs = some s → s ≠ [] ∧ 4 + s.length ≤ 2 ^ 31 ∧ ∀ b ∈ s, 0 < b.toNat ∧ b.toNat < 128

theorem lastOf_ok {ops : List HOp} (h : ∀ o ∈ ops, Head.HOk o) {n : Hio.Name} {a : Asg} (hl : Head.lastOf ops n = some a) :
    Head.AsgOk n a := by
  unfold Head.lastOf at hl
  obtain ⟨o, ho, hoa⟩ := List.exists_of_findSome?_eq_some hl
  exact (Head.hstep_rel Hio.new_rel Head.noConv o (h o (List.mem_reverse.1 ho))).2 n a hoa

/-- every item of such a data set can be copied -/
theorem origin_copyable (c : Conv) (hw : ∀ x < 2 ^ 32, c.round (c.widen x) = x) {E o q junk bs W n names h old}
    (O : Origin E o q junk bs W n names h old) {t : Tree} {D : Dataset} (hc : Closed names t W.w (flagsOf h) D)
    (hv : W.w.vars ≠ [])
    (hD : ∀ n, n ∉ reserved → D n = (Head.lastOf (itemsOf h) n).map fun a => Head.flatOf n (Head.chunksOf c n a)) :
    (∀ p ∈ itemtable, Head.Copyable c t p.1 p.2) ∧ ∀ g, rdhd c t Hio.hist g = .ok (.str old) := by
  have hall := O.ok.items
  have hok := O.ok
  have hres : ∀ p ∈ itemtable, p.1 = itVartable ∨ p.1 ∉ reserved := by decide
  refine ⟨?_, ?_⟩
  · intro p hp
    have hk := Head.itype_names p hp
    rcases hres p hp with hr | hr
    · rw [hr]
      have : p.2 = .text := by
        have h1 : itype itVartable = some .text := by decide
        rw [hr, h1, Option.some.injEq] at hk
        exact hk.symm
      rw [this]
      exact copyable_table hc hv c
    · rcases O.items p hp with h0 | ⟨v, h0⟩ | ⟨hn, s, h0, h1⟩
      · refine Or.inl fun g => Head.openItem_none hc.good.rel hc.good.items _ ?_ g
        rw [hD _ hr, h0]; rfl
      · obtain ⟨k, e1, e2⟩ := lastOf_ok hall h0
        rw [hk, Option.some.injEq] at e1
        subst e1
        exact copyable_item hc.good.rel hc.good.items c hw hk e2 (by rw [hD _ hr, h0]; rfl)
      · have hs : s ≠ [] ∧ 4 + s.length ≤ 2 ^ 31 := lastOf_ok hall h0
        have hk2 : p.2 = .text := by
          have h1 : itype Head.obstype = some .text := by decide
          rw [hn, h1, Option.some.injEq] at hk
          exact hk.symm
        have hk3 : itype p.1 = some .text := by rw [hk, hk2]
        rw [hk2]
        refine copyable_text hc.good.rel hc.good.items c hk3 (by rw [hD _ hr, h0]; rfl) (chars_text p.1 s hs.1 hs.2) ?_ ?_ ?_
        · rw [List.length_append]; exact hs.2
        · intro b hb
          rcases List.mem_append.1 hb with hb | hb
          · have key : ∀ b ∈ Head.Ty.char.tag, b.toNat < 128 := by decide
            exact key b hb
          · exact (h1 b hb).2
        · exact ⟨1, List.mem_append_left _ (by decide), by decide⟩
  · intro g
    have hv2 : Head.ValOk Hio.hist .text (.str old) := by
      obtain ⟨k, e1, e2⟩ := lastOf_ok hall O.history
      have h1 : itype Hio.hist = some .text := by decide
      rw [h1, Option.some.injEq] at e1
      subst e1
      exact e2
    rcases Head.rdhd_rel hc.good.rel c Hio.hist g (.str old) .text (by decide) hv2
      (by rw [hD _ (by decide), O.history]; rfl) with ⟨_, h'⟩ | h'
    · have := hc.good.items; omega
    · exact h'

/-- see `init_archive` -/
theorem init_origin {E : Env} {o : FpOps} {q : Quant} {junk : Nat → Nat} {mode : Ty} {bs : List Block} {W : VisW} {n : Nat}
    (ha : Archive E o q junk mode bs W n) (hne : bs ≠ []) {over : List (Name × PyVal)} {excl : List Name}
    (hv : VarsOk E W over excl) {f : Nat → Byte}
    {size : Nat} (hf : Holds f size W.w.out) {m : Mask} (hm : FlagFile W m) :
    ∃ S us ks, openUv E f size (table W.w) W.w.offset m = some (S, n) ∧ initFrom E S.r over excl S.r.vars = some (us, ks) ∧
      (∀ u ∈ us, EvOk u.ev) ∧ rtable S.r.vars = table W.w := by
  obtain ⟨S, h1, h2, h3⟩ := archive_opens ha hne hf hm
  have ht : ∀ v ∈ S.r.vars, (v.name, v.ty) ∈ table W.w := by
    intro v hv'
    rw [← h2]; exact List.mem_map.2 ⟨v, hv', rfl⟩
  obtain ⟨us, ks, g1, g2⟩ := init_total (E := E) (r := S.r) (over := over) (excl := excl) (vs := S.r.vars)
    (fun v hv' p hp => hv.given _ (ht v hv') p hp) (by
      intro v hv' hc hx ho
      obtain ⟨d, d1, d2⟩ := hv.plain _ (ht v hv') hc hx ho
      obtain ⟨t1, t2, upd, t3⟩ := h3 _ _ d (ht v hv') d1
      have hlen : d.length < 2 ^ 20 := by
        have hp := d2.1
        have hmod := t2
        unfold BUFSIZE at hp
        revert hp hmod
        show d.length / v.ty.mem * v.ty.ext ≤ _ → d.length % v.ty.mem = 0 → _
        cases v.ty <;> simp only [Ty.ext, Ty.mem] <;> omega
      have hr : rdvr E.fo E.junk S.r v.name (tyChar v.ty) = decode E.fo E.junk (tyChar v.ty) d := by
        unfold rdvr
        rw [tyOf_tyChar]
        simp only [t1, t3]
        rw [if_neg (by have := d2.1; simp only at this; omega), Option.bind_some]
      rw [hr]
      exact again_ok E.fo E.junk v.name v.ty d d2 hlen)
  exact ⟨S, us, ks, h1, g1, g2, h2⟩

theorem copy_apart {names : List Hio.Name} {tbl : List (Name × Ty)} (hap : Apart names tbl) {vars : List RVar}
    (hr : rtable vars = tbl) {mode : Ty} (few short) {w : Writer} (ht : Typed (schemeOf mode vars few short) w) :
    Apart (copyNames names) (table w) := by
  intro p hp
  obtain ⟨v, hv, rfl⟩ := List.mem_map.1 hp
  have h1 := (ht.vars v hv).1
  rcases List.mem_append.1 h1 with h1 | h1
  · obtain ⟨u, hu, hun⟩ := List.mem_map.1 h1
    have hmem : (u.name, u.ty) ∈ tbl := by rw [← hr]; exact List.mem_map.2 ⟨u, hu, rfl⟩
    obtain ⟨a, b, c⟩ := hap _ hmem
    show Visible v.name ∧ nameBytes v.name ∉ _ ∧ nameBytes v.name ∉ _
    rw [← hun]
    exact ⟨a, fun hc => b (mem_copyNames.1 hc).1, c⟩
  · have key : ∀ x ∈ [nmCorr, nmCoord, nmTime, nmBl, nmNchan, nmTscale], (x ≠ [] ∧ ∀ c ∈ x, 33 ≤ c.toNat ∧ c.toNat ≤ 126) ∧
        nameBytes x ∉ itemtable.map (·.1) ++ reserved ∧ nameBytes x ∉ otherFiles := by
      decide
    obtain ⟨a, b, c⟩ := key v.name h1
    exact ⟨a, fun hc => b (mem_copyNames.1 hc).2, c⟩

/-- the copy, before it is closed; the function may depend on what the records are -/
theorem copy_dir_of (c : Conv) (hw : ∀ x < 2 ^ 32, c.round (c.widen x) = x) {E : Env} {o q junk bs W n names h old}
    (O : Origin E o q junk bs W n names h old) (hmode : E.mode = .real) (hl : FpLaws E.o)
    (hq : QuantOk E.q) (hbl : BlLaws E.bl o) (hun : ∀ t ints, (E.unscale t ints).length = ints.length)
    {m : Mask} (hm : FlagFile W m) {over : List (Name × PyVal)} {excl : List Name} (hv : VarsOk E W over excl)
    {iover : List (Hio.Name × Val)} {app : List Nat} (hi : ItemsOk iover excl old app) {obs : Option (List Byte)}
    (hobs : ObsOk obs) {mf : List (VisR × Out) → MFunc} (hp : ∀ l, Polite (mf l)) (g0 g : Nat → Byte) :
    ∃ src D f size S us ks l t1 t2 D2 W' bs', directory c g0 h = some src ∧ Closed names src W.w (flagsOf h) D ∧
      (∀ p ∈ itemtable, Head.Copyable c src p.1 p.2) ∧
      Holds f size W.w.out ∧ openUv E f size (table W.w) W.w.offset m = some (S, n) ∧
      Source E f size n over excl us ks S l ∧ (l.length = bs.length ∧
        ∀ (j : Nat) (Sj : VisR) (out : Out) (b : Block), l[j]? = some (Sj, out) → bs[j]? = some b →
          Matches o q .real out b.vis ∧ ∀ nm ty d, (nm, ty) ∈ table W.w → valueAfter (upTo (j + 1) W.evs) nm = some d →
            getvr Sj.r nm ty = some d) ∧
      (∀ fuel, bs.length < fuel → copyRun E c g src m (mf l) over iover excl app fuel = some (t1, W') ∧
        pipeFrom E f size n (mf l) over excl S fuel = some W') ∧
      Written E.o E.q E.junk E.mode bs' W' ∧ bs'.map (·.vis) = (kept E n (mf l) 0 l).map (fun x => E.vis x.2) ∧
      Apart (copyNames names) (table W'.w) ∧ rtable S.r.vars = table W.w ∧
      hrun c t1 (obsOps g obs) = .ok t2 ∧ InDir (copyNames names) t2 D2 ∧
      (∀ k, D2 k = (Head.lastOf (copyOps c src iover (excl.map nameBytes) g (old ++ app) obs) k).map
        fun a => Head.flatOf k (Head.chunksOf c k a)) ∧
      ∃ it F, hopenUv E g src m = some (it, S, n) ∧ Loaded it F f ∧ F.size = size ∧ Sound S.r := by
  have hs := written_sessions O.arch.wr
  have hne' : allBlocks (bs.map .block) ≠ [] := by rw [allBlocks_map]; exact O.nonempty
  have hprog := hs.program hne' O.size O.ok O.evs O.flags O.count O.apart
  obtain ⟨src, D, d1, d2, d3⟩ := hprog.closed c g0
  obtain ⟨k1, k2⟩ := origin_copyable c hw O d2 hprog.holds.2 d3
  obtain ⟨it, F, f, o1, o2, o3⟩ := old_ok d2 O.size g
  obtain ⟨S, us, ks, i1, i2, i3, i4⟩ := init_origin O.arch O.nonempty hv o3 hm
  obtain ⟨_, l, l1, l2, l3⟩ := archive_source O.arch hbl hun o3 hm i1 i2 i3 hv.own
  obtain ⟨W', bs', s0, w1, w2, w3, w4, w5, w6, w7, w8⟩ := pipe_written hl hq (Or.inl hmode) l1.toListed (hp l)
  obtain ⟨it', u1, u2, u3⟩ := hopenUv_eq o1 o2 m i1
  obtain ⟨t, t1, t2, D2, q1, q2, q3, q4, q5⟩ := copy_tree c d2.good k1 iover hi.given (excl.map nameBytes) g old app k2 hi.kept
    hi.free hi.ascii hi.len obs O.obs (fun s h => ⟨(hobs s h).1, (hobs s h).2.1⟩)
  refine ⟨src, D, f, F.size, S, us, ks, l, t1, t2, D2, W', bs', d1, d2, k1, o3, i1, l1, ⟨l2, l3⟩, ?_, w4, w5, ?_, i4, q3, q4, q5, it', F, u1, u2, rfl, u3⟩
  · intro fuel hfuel
    have hpf := pipe_from l1 w1 w3 (fuel := fuel) (by rw [l2]; exact hfuel)
    refine ⟨?_, hpf⟩
    unfold pipeFrom at hpf
    rw [w1, i2] at hpf
    simp only at hpf
    unfold copyRun
    rw [u1, w1, q1]
    simp only [Option.bind_some, Except.toOption]
    rw [i2]
    simp only [Option.bind_some]
    cases ha : assignAll s0 us with
    | none => rw [ha] at hpf; cases hpf
    | some s1 =>
      rw [ha] at hpf
      simp only [Option.bind_some] at hpf ⊢
      rw [q2]
      simp only [Option.bind_some]
      rw [hpipeLoop_eq E g n (mf l) fuel 0 it' _ s1 u2 (sound_track u3 ks), hpf]
      rfl
  · exact copy_apart O.apart i4 _ _ w8

/-- the copy, before it is closed -/
theorem copy_dir (c : Conv) (hw : ∀ x < 2 ^ 32, c.round (c.widen x) = x) {E : Env} {o q junk bs W n names h old}
    (O : Origin E o q junk bs W n names h old) (hmode : E.mode = .real) (hl : FpLaws E.o)
    (hq : QuantOk E.q) (hbl : BlLaws E.bl o) (hun : ∀ t ints, (E.unscale t ints).length = ints.length)
    {m : Mask} (hm : FlagFile W m) {over : List (Name × PyVal)} {excl : List Name} (hv : VarsOk E W over excl)
    {iover : List (Hio.Name × Val)} {app : List Nat} (hi : ItemsOk iover excl old app) {obs : Option (List Byte)}
    (hobs : ObsOk obs) {mf : MFunc} (hp : Polite mf) (g0 g : Nat → Byte) :
    ∃ src D f size S us ks l t1 t2 D2 W' bs', directory c g0 h = some src ∧ Closed names src W.w (flagsOf h) D ∧
      (∀ p ∈ itemtable, Head.Copyable c src p.1 p.2) ∧
      Holds f size W.w.out ∧ openUv E f size (table W.w) W.w.offset m = some (S, n) ∧
      Source E f size n over excl us ks S l ∧ (l.length = bs.length ∧
        ∀ (j : Nat) (Sj : VisR) (out : Out) (b : Block), l[j]? = some (Sj, out) → bs[j]? = some b →
          Matches o q .real out b.vis ∧ ∀ nm ty d, (nm, ty) ∈ table W.w → valueAfter (upTo (j + 1) W.evs) nm = some d →
            getvr Sj.r nm ty = some d) ∧
      (∀ fuel, bs.length < fuel → copyRun E c g src m mf over iover excl app fuel = some (t1, W') ∧
        pipeFrom E f size n mf over excl S fuel = some W') ∧
      Written E.o E.q E.junk E.mode bs' W' ∧ bs'.map (·.vis) = (kept E n mf 0 l).map (fun x => E.vis x.2) ∧
      Apart (copyNames names) (table W'.w) ∧ rtable S.r.vars = table W.w ∧
      hrun c t1 (obsOps g obs) = .ok t2 ∧ InDir (copyNames names) t2 D2 ∧
      ∀ k, D2 k = (Head.lastOf (copyOps c src iover (excl.map nameBytes) g (old ++ app) obs) k).map
        fun a => Head.flatOf k (Head.chunksOf c k a) := by
  obtain ⟨src, D, f, size, S, us, ks, l, t1, t2, D2, W', bs', e1, e2, e3, e4, e5, e6, e7, e8, e9, e10, e11, e12, e13, e14, e15, _⟩ :=
    copy_dir_of c hw O hmode hl hq hbl hun hm hv hi hobs (mf := fun _ => mf) (fun _ => hp) g0 g
  exact ⟨src, D, f, size, S, us, ks, l, t1, t2, D2, W', bs', e1, e2, e3, e4, e5, e6, e7, e8, e9, e10, e11, e12, e13, e14, e15⟩

/-- the copy, closed -/
theorem copy_closed (c : Conv) {g : Nat → Byte} {obs : Option (List Byte)} {names : List Hio.Name} {t1 t2 : Tree} {D2 : Dataset}
    {o q junk mode} {bs : List Block} {W : VisW} (hw : Written o q junk mode bs W) (hne : bs ≠ []) (hb : W.w.offset ≤ 2 ^ 31)
    (hap : Apart names (table W.w)) (hres : ∀ n ∈ reserved, n ∈ names) (h1 : hrun c t1 (obsOps g obs) = .ok t2)
    (h2 : InDir names t2 D2) :
    ∃ t D, closeCopy c g obs (t1, W) = some t ∧ Closed names t W.w W.flagOff D ∧ ∀ n, n ∉ reserved → D n = D2 n := by
  obtain ⟨i1, i2, i3⟩ := copy_dinv hw hne hb hap hres h2
  obtain ⟨t, D, e1, e2, e3⟩ := close_ok i1 hres g i2 hb i3
  refine ⟨t, D, ?_, e2, e3⟩
  unfold closeCopy
  cases obs with
  | none =>
    have h1 : (Except.ok t1 : Except Head.HErr Tree) = .ok t2 := h1
    rw [Except.ok.injEq] at h1
    subst h1
    exact e1
  | some s =>
    have := Head.hrun_one h1
    simp only
    rw [this]
    exact e1

theorem last_copy (c : Conv) (src : Tree) (iover : List (Hio.Name × Val)) (excl : List Hio.Name) (g : Nat → Byte)
    (new : List Nat) (obs : Option (List Byte)) (n : Hio.Name) :
    Head.lastOf (copyOps c src iover excl g new obs) n =
      ((if n = Head.obstype then obs.map Asg.chars else none).or (if n = Hio.hist then some (.py (.str new)) else none)).or
        (if n ∈ itemtable.map (·.1) then (Head.target c src iover excl g n).map Asg.py else none) := by
  have h1 : Head.lastOf (obsOps g obs) n = if n = Head.obstype then obs.map Asg.chars else none := by
    cases obs with
    | none => simp [obsOps, Head.lastOf]
    | some s =>
      by_cases hn : n = Head.obstype
      · subst hn; simp [obsOps, Head.lastOf, Head.assigns]
      · rw [if_neg hn]
        simp [obsOps, Head.lastOf, Head.assigns, Ne.symm hn]
  have h2 : Head.lastOf [HOp.set Hio.hist g (.str new)] n = if n = Hio.hist then some (.py (.str new)) else none := by
    by_cases hn : n = Hio.hist
    · subst hn; simp [Head.lastOf, Head.assigns]
    · rw [if_neg hn]
      simp [Head.lastOf, Head.assigns, Ne.symm hn]
  unfold copyOps
  rw [Head.lastOf_append, Head.lastOf_append, h1, h2, Head.plan_last]

/-- the items of the copy that nothing else is assigned to -/
theorem read_copied (c : Conv) {src cpy : Tree} (h : ∀ p ∈ itemtable, Head.Copyable c src p.1 p.2)
    {iover : List (Hio.Name × Val)} {excl : List Hio.Name} {g : Nat → Byte}
    (hover : ∀ p ∈ itemtable, ∀ q, iover.find? (fun q => q.1 = p.1) = some q → Head.ValOk p.1 p.2 q.2)
    {D : Dataset} (hr : Rel cpy D) (hl : cpy.items.length < 1023) {n : Hio.Name} {k : Kind} (hk : itype n = some k)
    (hD : D n = ((Head.target c src iover excl g n).map Asg.py).map fun a => Head.flatOf n (Head.chunksOf c n a)) (g' : Nat → Byte) :
    (n ∈ excl → rdhd c cpy n g' = .error .io) ∧
    (n ∉ excl → iover.find? (fun q => q.1 = n) = none → rdhd c cpy n g' = rdhd c src n g') ∧
    (n ∉ excl → ∀ q, iover.find? (fun q => q.1 = n) = some q → rdhd c cpy n g' =
      if (Head.openItem src n g).toOption.isSome then .ok (Head.shown c k q.2) else .error .io) := by
  have hmem := Head.itype_mem hk
  have f2 : Head.target c src iover excl g n = none → rdhd c cpy n g' = .error .io := by
    intro ht
    rw [ht] at hD
    have := Head.openItem_none hr hl n hD g'
    unfold rdhd
    rw [hk]
    simp only [this]
  have f1 : ∀ v, Head.ValOk n k v → Head.target c src iover excl g n = some v → rdhd c cpy n g' = .ok (Head.shown c k v) := by
    intro v hv ht
    rw [ht] at hD
    rcases Head.rdhd_rel hr c n g' v k hk hv hD with ⟨_, h'⟩ | h'
    · omega
    · exact h'
  refine ⟨fun hx => f2 ?_, fun hx ho => ?_, fun hx q hq => ?_⟩
  · unfold Head.target
    cases Head.openItem src n g with
    | error e => rfl
    | ok it => simp only; rw [if_pos hx]
  · rcases h _ hmem with h1 | ⟨v, h1, h2, h3⟩
    · have h1 : ∀ g, Head.openItem src n g = .error .io := h1
      rw [f2 (by unfold Head.target; rw [h1 g])]
      unfold rdhd
      rw [hk]
      simp only [h1 g']
    · have h1 : ∀ g, (∃ it, Head.openItem src n g = .ok it) ∧ rdhd c src n g = .ok v := h1
      have h3 : Head.shown c k v = v := h3
      have ht : Head.target c src iover excl g n = some v := by
        unfold Head.target
        obtain ⟨⟨it, a1⟩, a2⟩ := h1 g
        rw [a1]
        simp only
        rw [if_neg hx, ho, a2]
      rw [f1 v h2 ht, h3, (h1 g').2]
  · rcases h _ hmem with h1 | ⟨v, h1, h2, h3⟩
    · have h1 : ∀ g, Head.openItem src n g = .error .io := h1
      rw [f2 (by unfold Head.target; rw [h1 g]), h1 g]
      rfl
    · have h1 : ∀ g, (∃ it, Head.openItem src n g = .ok it) ∧ rdhd c src n g = .ok v := h1
      obtain ⟨⟨it, a1⟩, a2⟩ := h1 g
      have ht : Head.target c src iover excl g n = some q.2 := by
        unfold Head.target
        rw [a1]
        simp only
        rw [if_neg hx, hq]
      rw [f1 q.2 (hover _ hmem q hq) ht, a1]
      rfl

/-- what the header items of a copy should be: the history with the text appended to it, `obstype` as `uvflush_c` says, the
others as in the source or overridden or excluded; what is not in `itemtable` is not copied -/
structure SameItems (c : Conv) (src cpy : Tree) (g : Nat → Byte) (iover : List (Hio.Name × Val)) (excl : List Name)
    (old app : List Nat) (obs : Option (List Byte)) : Prop where
  history : ∀ g', rdhd c cpy Hio.hist g' = .ok (.str (old ++ app))
  obstype : ∀ s g', obs = some s → rdhd c cpy Head.obstype g' = .ok (.str (1 :: s.map (·.toNat)))
  others : ∀ (n : Hio.Name) (k : Kind) (g' : Nat → Byte), itype n = some k → n ≠ Hio.hist → n ≠ itVartable →
    (n = Head.obstype → obs = none) →
    (n ∈ excl.map nameBytes → rdhd c cpy n g' = .error .io) ∧
    (n ∉ excl.map nameBytes → iover.find? (fun q => q.1 = n) = none → rdhd c cpy n g' = rdhd c src n g') ∧
    (n ∉ excl.map nameBytes → ∀ q, iover.find? (fun q => q.1 = n) = some q → rdhd c cpy n g' =
      if (Head.openItem src n g).toOption.isSome then .ok (Head.shown c k q.2) else .error .io)
  unknown : ∀ (n : Hio.Name) (g' : Nat → Byte), itype n = none → n ∉ reserved → Head.openItem cpy n g' = .error .io

theorem same_items (c : Conv) {src cpy : Tree} (h : ∀ p ∈ itemtable, Head.Copyable c src p.1 p.2)
    {iover : List (Hio.Name × Val)} {excl : List Name} {g : Nat → Byte} {old app : List Nat}
    (hold : Head.ValOk Hio.hist .text (.str (old ++ app)))
    (hi : ItemsOk iover excl old app) {obs : Option (List Byte)} (hobs : ObsOk obs) {D : Dataset}
    (hr : Rel cpy D) (hl : cpy.items.length < 1023)
    (hD : ∀ n, n ∉ reserved → D n = (Head.lastOf (copyOps c src iover (excl.map nameBytes) g (old ++ app) obs) n).map
      fun a => Head.flatOf n (Head.chunksOf c n a)) : SameItems c src cpy g iover excl old app obs := by
  refine ⟨fun g' => ?_, ?_, ?_, ?_⟩
  · have hd := hD Hio.hist (by decide)
    rw [last_copy, if_neg (by decide), if_pos rfl] at hd
    rcases Head.rdhd_rel hr c Hio.hist g' (.str (old ++ app)) .text (by decide) hold hd with ⟨_, h'⟩ | h'
    · omega
    · exact h'
  · intro s g' hs
    have hd := hD Head.obstype (by decide)
    rw [last_copy, if_pos rfl, hs] at hd
    obtain ⟨s1, s2, s3⟩ := hobs s hs
    have := (rdhd_text hr hl c (n := Head.obstype) (by decide) hd (chars_text _ s s1 s2) (by rw [List.length_append]; exact s2) (by
      intro b hb
      rcases List.mem_append.1 hb with hb | hb
      · have key : ∀ b ∈ Head.Ty.char.tag, b.toNat < 128 := by decide
        exact key b hb
      · exact (s3 b hb).2) g').2
    rw [this]
    have e : shownText (Head.Ty.char.tag ++ s) = 1 :: s.map (·.toNat) := by
      have hf : s.filter (· ≠ 0) = s := by
        rw [List.filter_eq_self]
        intro b hb
        have := (s3 b hb).1
        have : b ≠ 0 := by rintro rfl; simp at this
        simpa using this
      unfold shownText
      rw [List.filter_append, hf, List.map_append]
      rfl
    rw [e]
  · intro n k g' hk h1 h2 h3
    have hmem := Head.itype_mem hk
    have hres : ∀ p ∈ itemtable, p.1 = itVartable ∨ p.1 ∉ reserved := by decide
    have hr2 : n ∉ reserved := (hres _ hmem).resolve_left h2
    have hd := hD n hr2
    rw [last_copy, if_neg h1, if_pos (List.mem_map.2 ⟨_, hmem, rfl⟩)] at hd
    have he : (if n = Head.obstype then obs.map Asg.chars else none) = none := by
      by_cases hn : n = Head.obstype
      · rw [if_pos hn, h3 hn]; rfl
      · rw [if_neg hn]
    rw [he] at hd
    exact read_copied c h hi.given hr hl hk hd g'
  · intro n g' hn hr2
    refine Head.openItem_none hr hl n ?_ g'
    have hno : n ∉ itemtable.map (·.1) := by
      intro hm
      obtain ⟨p, hp, rfl⟩ := List.mem_map.1 hm
      rw [Head.itype_names p hp] at hn
      cases hn
    rw [hD n hr2, last_copy, if_neg hno, if_neg (by rintro rfl; exact hno (by decide)),
      if_neg (by rintro rfl; exact hno (by decide))]
    rfl

theorem origin_history {E o q junk bs W n names h old} (O : Origin E o q junk bs W n names h old)
    {iover : List (Hio.Name × Val)} {excl : List Name} {app : List Nat} (hi : ItemsOk iover excl old app) :
    Head.ValOk Hio.hist .text (.str (old ++ app)) := by
  obtain ⟨k, e1, e2⟩ := lastOf_ok O.ok.items O.history
  have h1 : itype Hio.hist = some .text := by decide
  rw [h1, Option.some.injEq] at e1
  subst e1
  refine ⟨Or.inl rfl, hi.len, ?_⟩
  intro ch hch
  rcases List.mem_append.1 hch with hch | hch
  · exact e2.2.2 ch hch
  · exact hi.ascii ch hch

/-! ## C87 -/

/-- **C87.**  `UV(infile)`, `init_from_uv` and `pipe` with a function that keeps every record: the directory that is left
behind has, for a program that opens it, the records of the source in the same order and none else, with each record the
variables of the source as they were with that record (overridden ones with the value given, excluded ones not at all), and
the header items of the source (likewise), the history being followed by the text appended. -/
theorem c87_whole (c : Conv) (hw : ∀ x < 2 ^ 32, c.round (c.widen x) = x) {E : Env} {o q junk bs W n names h old}
    (O : Origin E o q junk bs W n names h old) (hmode : E.mode = .real) (hl : FpLaws E.o)
    (hq : QuantOk E.q) (hbl : BlLaws E.bl o) (hun : ∀ t ints, (E.unscale t ints).length = ints.length)
    {m : Mask} (hm : FlagFile W m) {over : List (Name × PyVal)} {excl : List Name} (hv : VarsOk E W over excl)
    {iover : List (Hio.Name × Val)} {app : List Nat} (hi : ItemsOk iover excl old app) {obs : Option (List Byte)}
    (hobs : ObsOk obs) (g0 g : Nat → Byte) :
    ∃ src t1 W', directory c g0 h = some src ∧
      (∀ fuel, bs.length < fuel → copyRun E c g src m echo over iover excl app fuel = some (t1, W')) ∧
      (W'.w.offset ≤ 2 ^ 31 → ∃ cpy, closeCopy c g obs (t1, W') = some cpy ∧
        SameItems c src cpy g iover excl old app obs ∧
        ∀ (g' : Nat → Byte) (m' : Mask), FlagFile W' m' → ∃ it r0, openOld cpy g' = some (it, r0) ∧
          (∃ it1 it2 R outs R', huvreadN g' n bs.length it ⟨r0, 0, m'⟩ = some (it1, R, outs) ∧
            huvread g' n it1 R = (it2, .eof R')) ∧
          (∀ (j : Nat) (b : Block), bs[j]? = some b → ∃ it1 R outs out,
            huvreadN g' n (j + 1) it ⟨r0, 0, m'⟩ = some (it1, R, outs ++ [out]) ∧ outs.length = j ∧
            Matches o q .real out b.vis ∧
            (∀ nm ty d, (nm, ty) ∈ table W.w → Copied .real over excl nm → valueAfter (upTo (j + 1) W.evs) nm = some d →
              getvr R.r nm ty = some d) ∧
            ∀ nm ty, (nm, ty) ∈ table W.w → nm ∉ excl → nm ≠ nmCorr → (∀ x ∈ std, x.1 ≠ nm) →
              ∀ p, over.find? (fun p => p.1 = nm) = some p →
                ∃ d, encode E.fo (tyChar ty) p.2 = some (ty, d) ∧ (d ≠ [] → getvr R.r nm ty = some d)) ∧
          ∀ nm ∈ excl, (∀ x ∈ std, x.1 ≠ nm) → nm ≠ nmCorr → ∀ v ∈ r0.vars, v.name ≠ nm) := by
  obtain ⟨src, D, f, size, S, us, ks, l, t1, t2, D2, W', bs', e1, e2, e3, e4, e5, e6, ⟨e7, e7'⟩, e8, e9, e10, e11, e12, e13, e14, e15⟩ :=
    copy_dir c hw O hmode hl hq hbl hun hm hv hi hobs polite_echo g0 g
  refine ⟨src, t1, W', e1, fun fuel hf => (e8 fuel hf).1, fun hb => ?_⟩
  have hne : bs' ≠ [] := by
    have h1 := congrArg List.length e10
    rw [List.length_map, List.length_map, kept_echo, List.length_map, e7] at h1
    intro h0
    rw [h0] at h1
    exact O.nonempty (List.length_eq_zero_iff.1 h1.symm)
  have hres : ∀ k ∈ reserved, k ∈ copyNames names := fun k hk =>
    mem_copyNames.2 ⟨O.ok.own k hk, List.mem_append_right _ hk⟩
  obtain ⟨cpy, D', c1, c2, c3⟩ := copy_closed c e9 hne hb e11 hres e13 e14
  refine ⟨cpy, c1, same_items c e3 (origin_history O hi) hi hobs c2.good.rel c2.good.items
    (fun k hk => by rw [c3 k hk]; exact e15 k), ?_⟩
  intro g' m' hm'
  obtain ⟨it, F, f', o1, o2, o3⟩ := old_ok c2 hb g'
  have hfuel := (e8 (bs.length + 1) (Nat.lt_succ_self _)).2
  obtain ⟨W1, a1, a2⟩ := c51_lossless O.arch hmode hl hq hbl hun e4 hm e5 e6.init e6.initOk hv.own
  have hW1 : W1 = W' := by
    have := a1 (bs.length + 1) (Nat.lt_succ_self _)
    rw [hfuel, Option.some.injEq] at this
    exact this.symm
  subst hW1
  obtain ⟨W2, b1, b2⟩ := c51_override hl hq (Or.inl hmode) e6 polite_echo
  have hW2 : W2 = W1 := by
    have := b1 (bs.length + 1) (by rw [e7]; exact Nat.lt_succ_self _)
    rw [hfuel, Option.some.injEq] at this
    exact this.symm
  subst hW2
  obtain ⟨p1, p2⟩ := a2 o3 (open_atStart W2) hm'
  refine ⟨it, _, o1, ?_, ?_, ?_⟩
  · obtain ⟨R, outs, R', r1, r2⟩ := p1
    obtain ⟨it1, q1, q2, q3⟩ := huvreadN_eq g' n _ it _ _ o2 (sound_open _ _) r1
    obtain ⟨it2, q4, _⟩ := huvread_eq g' n q2 q3
    exact ⟨it1, it2, R, outs, R', q1, by rw [q4, r2]⟩
  · intro j b hj
    obtain ⟨R, outs, out, r1, r2, r3, r4⟩ := p2 j b hj
    obtain ⟨it1, q1, q2, q3⟩ := huvreadN_eq g' n _ it _ _ o2 (sound_open _ _) r1
    refine ⟨it1, R, outs, out, q1, r2, r3, r4, ?_⟩
    intro nm ty ht hx hc hstd p hp
    have hjl : j < (kept E n echo 0 l).length := by
      rw [kept_echo, List.length_map, e7]; exact (List.getElem?_eq_some_iff.1 hj).1
    obtain ⟨R2, outs2, r5, r6⟩ := b2 o3 (open_atStart W2) hm' j hjl
    rw [r1, Option.some.injEq, Prod.mk.injEq] at r5
    have ht2 : (nm, ty) ∈ rtable S.r.vars := by rw [e12]; exact ht
    obtain ⟨v, hv1, hv2⟩ := List.mem_map.1 ht2
    rw [Prod.mk.injEq] at hv2
    obtain ⟨rfl, rfl⟩ := hv2
    obtain ⟨d, d1, d2⟩ := r6 v hv1 hx hc hstd p hp
    exact ⟨d, d1, fun hd => by rw [r5.1]; exact d2 hd⟩
  · intro nm hx hstd hc v hv1 hv2
    have := c51_exclude hfuel e6.plain hx hstd hc
    unfold openReader at hv1
    obtain ⟨p, hp, rfl⟩ := List.mem_map.1 hv1
    exact this p hp hv2

/-- **C87**, with a function: each record of the source is given to `mfunc` with its number, and the records of the copy are
those it returns, in the same order; the variables that are copied are, with each, those of the source with the record it
was made of; the header items as in `c87_whole`. -/
theorem c87_mfunc (c : Conv) (hw : ∀ x < 2 ^ 32, c.round (c.widen x) = x) {E : Env} {o q junk bs W n names h old}
    (O : Origin E o q junk bs W n names h old) (hmode : E.mode = .real) (hl : FpLaws E.o)
    (hq : QuantOk E.q) (hbl : BlLaws E.bl o) (hun : ∀ t ints, (E.unscale t ints).length = ints.length)
    {m : Mask} (hm : FlagFile W m) {over : List (Name × PyVal)} {excl : List Name} (hv : VarsOk E W over excl)
    {iover : List (Hio.Name × Val)} {app : List Nat} (hi : ItemsOk iover excl old app) {obs : Option (List Byte)}
    (hobs : ObsOk obs) {mf : MFunc} (hp : Polite mf) (g0 g : Nat → Byte) :
    ∃ src t1 W' l, directory c g0 h = some src ∧ l.length = bs.length ∧
      (∀ (j : Nat) (Sj : VisR) (out : Out) (b : Block), l[j]? = some (Sj, out) → bs[j]? = some b →
        Matches o q .real out b.vis ∧ ∀ nm ty d, (nm, ty) ∈ table W.w → valueAfter (upTo (j + 1) W.evs) nm = some d →
          getvr Sj.r nm ty = some d) ∧
      (∀ fuel, bs.length < fuel → copyRun E c g src m mf over iover excl app fuel = some (t1, W')) ∧
      (kept E n mf 0 l ≠ [] → W'.w.offset ≤ 2 ^ 31 → ∃ cpy, closeCopy c g obs (t1, W') = some cpy ∧
        SameItems c src cpy g iover excl old app obs ∧
        ∀ (g' : Nat → Byte) (m' : Mask), FlagFile W' m' → ∃ it r0, openOld cpy g' = some (it, r0) ∧
          (∃ it1 it2 R outs R', huvreadN g' n (kept E n mf 0 l).length it ⟨r0, 0, m'⟩ = some (it1, R, outs) ∧
            huvread g' n it1 R = (it2, .eof R')) ∧
          ∀ (j : Nat) (Sj : VisR) (p : PyRec), (kept E n mf 0 l)[j]? = some (Sj, p) → ∃ it1 R outs,
            huvreadN g' n (j + 1) it ⟨r0, 0, m'⟩ = some (it1, R, outs ++ [recOf E p]) ∧ outs.length = j ∧
            ∀ v ∈ Sj.r.vars, Copied .real over excl v.name → getvr R.r v.name v.ty = getvr Sj.r v.name v.ty) := by
  obtain ⟨src, D, f, size, S, us, ks, l, t1, t2, D2, W', bs', e1, e2, e3, e4, e5, e6, ⟨e7, e7'⟩, e8, e9, e10, e11, e12, e13, e14, e15⟩ :=
    copy_dir c hw O hmode hl hq hbl hun hm hv hi hobs hp g0 g
  refine ⟨src, t1, W', l, e1, e7, e7', fun fuel hf => (e8 fuel hf).1, fun hk hb => ?_⟩
  have hne : bs' ≠ [] := by
    have h1 := congrArg List.length e10
    rw [List.length_map, List.length_map] at h1
    intro h0
    rw [h0] at h1
    exact hk (List.length_eq_zero_iff.1 h1.symm)
  have hres : ∀ k ∈ reserved, k ∈ copyNames names := fun k hk =>
    mem_copyNames.2 ⟨O.ok.own k hk, List.mem_append_right _ hk⟩
  obtain ⟨cpy, D', c1, c2, c3⟩ := copy_closed c e9 hne hb e11 hres e13 e14
  refine ⟨cpy, c1, same_items c e3 (origin_history O hi) hi hobs c2.good.rel c2.good.items
    (fun k hk => by rw [c3 k hk]; exact e15 k), ?_⟩
  intro g' m' hm'
  obtain ⟨it, F, f', o1, o2, o3⟩ := old_ok c2 hb g'
  have hfuel := (e8 (bs.length + 1) (Nat.lt_succ_self _)).2
  obtain ⟨W1, a1, a2⟩ := c51_copy hl hq (Or.inl hmode) e6 hp
  have hW1 : W1 = W' := by
    have := a1 (bs.length + 1) (by rw [e7]; exact Nat.lt_succ_self _)
    rw [hfuel, Option.some.injEq] at this
    exact this.symm
  subst hW1
  obtain ⟨p1, p2⟩ := a2 o3 (open_atStart W1) hm'
  refine ⟨it, _, o1, ?_, ?_⟩
  · obtain ⟨R, outs, R', r1, r2⟩ := p1
    obtain ⟨it1, q1, q2, q3⟩ := huvreadN_eq g' n _ it _ _ o2 (sound_open _ _) r1
    obtain ⟨it2, q4, _⟩ := huvread_eq g' n q2 q3
    exact ⟨it1, it2, R, outs, R', q1, by rw [q4, r2]⟩
  · intro j Sj p hj
    obtain ⟨R, outs, r1, r2, r3⟩ := p2 j Sj p hj
    obtain ⟨it1, q1, q2, q3⟩ := huvreadN_eq g' n _ it _ _ o2 (sound_open _ _) r1
    exact ⟨it1, R, outs, q1, r2, by rw [hmode] at r3; exact r3⟩

/-! ## An example -/

def crossText : List Byte := [99, 114, 111, 115, 115]

/-- a history, an integration time, spectral windows, the type of the observation -/
def demoItems : List HOp :=
  [.set Hio.hist (fun _ => 0) (.str [104, 105, 10]), .set Head.interval (fun _ => 0) (.one (.float 5)),
    .set Head.freqs (fun _ => 0) (.many [.int 1, .int 16, .float 7, .float 8]), .puta Head.obstype (fun _ => 0) crossText]

def demoItemNames : List Hio.Name := [Hio.hist, Head.interval, Head.freqs, Head.obstype] ++ reserved

theorem evsOf_append (a b : List DEv) : evsOf (a ++ b) = evsOf a ++ evsOf b := by
  induction a with
  | nil => rfl
  | cons x a ih => cases x <;> simp [evsOf, ih]

theorem flagsOf_append (a b : List DEv) : flagsOf (a ++ b) = flagsOf a + flagsOf b := by
  induction a with
  | nil => simp [flagsOf]
  | cons x a ih => cases x <;> simp [flagsOf, ih, Nat.add_assoc]

theorem itemsOf_append (a b : List DEv) : itemsOf (a ++ b) = itemsOf a ++ itemsOf b := by
  induction a with
  | nil => rfl
  | cons x a ih => cases x <;> simp [itemsOf, ih]

theorem demo_origin_of {bs : List Block} {W : VisW} {n : Nat} (ha : Archive demoEnv demoOps demoQuant (fun _ => 0) .real bs W n)
    (hpos : 0 < bs.length) (f1 : W.w.offset ≤ 2 ^ 31) (f2 : W.flagOff < 2 ^ 63)
    (f3 : ((table W.w).all fun p => decide ((p.1 ≠ [] ∧ ∀ c ∈ p.1, 33 ≤ c.toNat ∧ c.toNat ≤ 126) ∧ nameBytes p.1 ∉ demoItemNames ∧
        nameBytes p.1 ∉ otherFiles)) = true) :
    Origin demoEnv demoOps demoQuant (fun _ => 0) bs W n demoItemNames
      (demoItems.map .item ++ (W.evs.map .ev ++ [.flags W.flagOff])) [104, 105, 10] := by
  have hitems : itemsOf (demoItems.map .item ++ (W.evs.map .ev ++ [.flags W.flagOff])) = demoItems := by
    rw [itemsOf_append, itemsOf_append, itemsOf_map]
    rfl
  have hevs : evsOf (demoItems.map .item ++ (W.evs.map .ev ++ [.flags W.flagOff])) = W.evs := by
    rw [evsOf_append, evsOf_append, evsOf_map]
    simp [demoItems, evsOf]
  refine ⟨ha, List.length_pos_iff.1 hpos, ?_, hevs, ?_, ?_, f1, f2, ?_, ?_, by decide⟩
  · refine ⟨?_, ?_, ?_, by decide, by decide⟩
    · rw [hevs]
      obtain ⟨_, _, _, _, _, _, _, _, h⟩ := written_upTo ha.wr 0 hpos
      exact h
    · rw [hitems]
      intro o ho
      simp only [demoItems, List.mem_cons, List.not_mem_nil, or_false] at ho
      rcases ho with rfl | rfl | rfl | rfl
      · exact ⟨.text, by decide, Or.inl rfl, by decide, by decide⟩
      · exact ⟨.num .dble, by decide, by show (5 : Nat) < 2 ^ 64; decide⟩
      · refine ⟨.special, by decide, ⟨by decide, by decide⟩, by decide, ?_⟩
        intro i x hx
        match i, hx with
        | 0, hx => cases hx; exact ⟨by decide, by decide⟩
        | 1, hx => cases hx; show (7 : Nat) < 2 ^ 64; decide
        | 2, hx => cases hx; show (8 : Nat) < 2 ^ 64; decide
        | i + 3, hx => simp at hx
      · exact ⟨by decide, by decide, by decide⟩
    · rw [hitems]
      intro o ho n a hn
      simp only [demoItems, List.mem_cons, List.not_mem_nil, or_false] at ho
      rcases ho with rfl | rfl | rfl | rfl <;>
        (simp only [Head.assigns, Option.ite_none_right_eq_some] at hn; rw [← hn.1]; exact ⟨by decide, by decide⟩)
  · rw [flagsOf_append, flagsOf_append, flagsOf_map]
    simp [demoItems, flagsOf]
  · intro p hp
    have := List.all_eq_true.1 f3 p hp
    exact of_decide_eq_true this
  · rw [hitems]
    have key : ∀ p ∈ itemtable, p.1 ≠ Hio.hist → p.1 ≠ Head.interval → p.1 ≠ Head.freqs → p.1 ≠ Head.obstype →
        Head.lastOf demoItems p.1 = none := by
      intro p _ h1 h2 h3 h4
      simp [Head.lastOf, demoItems, Head.assigns, Ne.symm h1, Ne.symm h2, Ne.symm h3, Ne.symm h4]
    intro p hp
    by_cases h1 : p.1 = Hio.hist
    · exact Or.inr (Or.inl ⟨_, by rw [h1]; rfl⟩)
    by_cases h2 : p.1 = Head.interval
    · exact Or.inr (Or.inl ⟨_, by rw [h2]; rfl⟩)
    by_cases h3 : p.1 = Head.freqs
    · exact Or.inr (Or.inl ⟨_, by rw [h3]; rfl⟩)
    by_cases h4 : p.1 = Head.obstype
    · exact Or.inr (Or.inr ⟨h4, crossText, by rw [h4]; rfl, by decide⟩)
    · exact Or.inl (key p hp h1 h2 h3 h4)
  · rw [hitems]; rfl

theorem demo_origin : ∃ W m, Origin demoEnv demoOps demoQuant (fun _ => 0) demoSrc W 2 demoItemNames
      (demoItems.map .item ++ (W.evs.map .ev ++ [.flags W.flagOff])) [104, 105, 10] ∧
    VarsOk demoEnv W [(srcName, .str [88])] [raName] ∧ FlagFile W m ∧ writeAll .real demoSrc = some W := by
  obtain ⟨W, h0, ha, hpl, _, m, hm⟩ := demo_archive'
  have hfacts : (writeAll .real demoSrc).any (fun W => decide (W.w.offset ≤ 2 ^ 31) && decide (W.flagOff < 2 ^ 63) &&
      ((table W.w).all fun p => decide ((p.1 ≠ [] ∧ ∀ c ∈ p.1, 33 ≤ c.toNat ∧ c.toNat ≤ 126) ∧ nameBytes p.1 ∉ demoItemNames ∧
        nameBytes p.1 ∉ otherFiles)) && ((table W.w).all fun p => decide (p.1 = srcName → p.2 = .byte))) = true := by
    decide +kernel
  rw [h0] at hfacts
  simp only [Option.any_some, Bool.and_eq_true, decide_eq_true_eq] at hfacts
  obtain ⟨⟨⟨f1, f2⟩, f3⟩, f5⟩ := hfacts
  refine ⟨W, m, demo_origin_of ha (by decide) f1 f2 f3, ?_, hm, h0⟩
  · refine ⟨fun x hx hc _ _ => hpl x hx hc, ?_, ?_⟩
    · intro x hx p hp
      have hn : x.1 = srcName := by
        by_contra hne
        have : ¬ srcName = x.1 := fun h => hne h.symm
        simp [this] at hp
      have hty := of_decide_eq_true (List.all_eq_true.1 f5 x hx) hn
      rw [hn] at hp
      have hp2 : p = (srcName, .str [88]) := by simpa using hp.symm
      rw [hp2, hty, hn]
      exact ⟨[88, 0], rfl, by decide, by decide, by simp⟩
    · intro x hx _
      refine ⟨?_, ?_⟩ <;> revert x <;> decide

theorem demo_items_ok : ItemsOk [(Head.interval, .one (.float 6))] [raName] [104, 105, 10] [97, 98] := by
  refine ⟨?_, by decide, by decide, by decide, by decide⟩
  intro p hp q hq
  have hn : p.1 = Head.interval := by
    by_contra hne
    have : ¬ Head.interval = p.1 := fun h => hne h.symm
    simp [this] at hq
  have hk := Head.itype_names p hp
  have h1 : itype Head.interval = some (.num .dble) := by decide
  rw [hn, h1, Option.some.injEq] at hk
  rw [hn] at hq
  have hq2 : q = (Head.interval, .one (.float 6)) := by simpa using hq.symm
  rw [hq2, ← hk]
  show (6 : Nat) < 2 ^ 64
  decide

/-- the copy with `src` and `interval` overridden, without `ra`, `ab` appended to the history -/
def demoCopy : Option (Tree × VisW) :=
  (writeAll .real demoSrc).bind fun W =>
    (directory Head.lowConv (fun _ => 0) (demoItems.map .item ++ (W.evs.map .ev ++ [.flags W.flagOff]))).bind fun src =>
      (Mask.run (Mask.mkopen (fun _ => 0) (fun _ => 0) 1) (W.flagOps ++ [.reopen (fun _ => 0)])).toOption.bind fun m =>
        copyRun demoEnv Head.lowConv (fun _ => 0) src m echo [(srcName, .str [88])] [(Head.interval, .one (.float 6))]
          [raName] [97, 98] 3

example : (demoCopy.map fun x => (x.2.w.offset, (table x.2.w).map (·.1))) =
    some (296, [nmCorr, srcName, nmCoord, nmTime, nmBl, nmNchan]) := by
  decide +kernel

example : ∃ W m src t1 W', directory Head.lowConv (fun _ => 0)
      (demoItems.map .item ++ (W.evs.map .ev ++ [.flags W.flagOff])) = some src ∧ writeAll .real demoSrc = some W ∧ FlagFile W m ∧
    (∀ fuel, 2 < fuel → copyRun demoEnv Head.lowConv (fun _ => 0) src m echo [(srcName, .str [88])]
      [(Head.interval, .one (.float 6))] [raName] [97, 98] fuel = some (t1, W')) ∧
    (W'.w.offset ≤ 2 ^ 31 → ∃ cpy, closeCopy Head.lowConv (fun _ => 0) (some crossText) (t1, W') = some cpy ∧
      rdhd Head.lowConv cpy Hio.hist (fun _ => 0) = .ok (.str [104, 105, 10, 97, 98])) := by
  obtain ⟨W, m, O, hv, hm, h0⟩ := demo_origin
  obtain ⟨src, t1, W', e1, e2, e3⟩ := c87_whole Head.lowConv Head.srcOps_ok.2.2.2 O rfl demo_laws demo_quant demo_bl
    (fun _ _ => rfl) hm hv demo_items_ok (obs := some crossText) (by
      intro s hs
      rw [← Option.some.inj hs]
      decide) (fun _ => 0) (fun _ => 0)
  refine ⟨W, m, src, t1, W', e1, h0, hm, fun fuel hf => e2 fuel hf, fun hb => ?_⟩
  obtain ⟨cpy, c1, c2, _⟩ := e3 hb
  exact ⟨cpy, c1, c2.history _⟩

end Verif.Mir.Uv
