import Mathlib.Data.List.Perm.Subperm
import Verif.Mir.TreeProps
import Verif.Mir.HioSeq
import Verif.Mir.Header

/-!
# Header items keep their type and value (C53, C54)
-/
namespace Verif.Mir.Head

open Verif.Mir.Hio
open Verif.Mir.Uv (FloatOps word be32 be64 ofBe32 signed32)

/-! ## The specification -/

/-- what an item was assigned: from Python, by `wrhdX_c`, by `wrhda_c` -/
inductive Asg
  | py (v : Val)
  | num (x : Num)
  | chars (s : List Byte)

/-- the assignment of an operation to item `n` -/
def assigns (n : Name) : HOp → Option Asg
  | .set m _ v => if m = n then some (.py v) else none
  | .put m _ x => if m = n then some (.num x) else none
  | .puta m _ s => if m = n then some (.chars s) else none
  | .flush _ => none
  | .reopen _ => none

/-- the last assignment to item `n` -/
def lastOf (ops : List HOp) (n : Name) : Option Asg := ops.reverse.findSome? (assigns n)

/-- a number of the type of an item -/
def ElemOk : Ty → Elem → Prop
  | .int, .int n => -2 ^ 31 ≤ n ∧ n < 2 ^ 31
  | .dble, .float x => x < 2 ^ 64
  | .cplx, .complex _ _ => True
  | _, _ => False

/-- a value of the type of an item: ASCII text without NUL (not empty, except for `history`), one number or several; for
`freqs` an integer followed by (integer, double, double) any number of times (possibly incomplete) -/
def ValOk (n : Name) : Kind → Val → Prop
  | .text, .str cs => (n = hist ∨ cs ≠ []) ∧ cs.length ≤ 2 ^ 31 ∧ ∀ ch ∈ cs, 0 < ch ∧ ch < 128
  | .num ty, .one e => ElemOk ty e
  | .num ty, .many l => (∀ e ∈ l, ElemOk ty e) ∧ 8 + 8 * l.length ≤ 2 ^ 31
  | .special, .many (e :: rest) => ElemOk .int e ∧ 8 + 8 * rest.length ≤ 2 ^ 31 ∧
      ∀ i x, rest[i]? = some x → ElemOk (if i % 3 = 0 then .int else .dble) x
  | _, _ => False

/-- the numbers of `headio.c` have the size of their type -/
def NumOk : Num → Prop
  | .int n => -2 ^ 31 ≤ n ∧ n < 2 ^ 31
  | .int8 n => -2 ^ 63 ≤ n ∧ n < 2 ^ 63
  | .real x => x < 2 ^ 32
  | .dble x => x < 2 ^ 64
  | .cplx re im => re < 2 ^ 32 ∧ im < 2 ^ 32

/-- the operations considered -/
def HOk : HOp → Prop
  | .set n _ v => ∃ k, itype n = some k ∧ ValOk n k v
  | .put n _ x => nameOk n = true ∧ NumOk x
  | .puta n _ s => nameOk n = true ∧ s ≠ [] ∧ 4 + s.length ≤ 2 ^ 31
  | .flush _ => True
  | .reopen _ => True

/-- a number as it is read back: complex numbers are kept in single precision -/
def shownE (c : Conv) : Elem → Elem
  | .complex re im => .complex (c.widen (c.round re)) (c.widen (c.round im))
  | e => e

/-- a value as it is read back: a list of one number becomes a number -/
def shown (c : Conv) : Kind → Val → Val
  | .num _, .one e => .one (shownE c e)
  | .num _, .many [e] => .one (shownE c e)
  | .num _, .many l => .many (l.map (shownE c))
  | _, v => v

/-! ## Writes one behind the other -/

/-- size of the elements, offset, bytes -/
abbrev Chunk := Nat × Nat × List Byte

def opsOf (g : Nat → Byte) (cs : List Chunk) : List Op := cs.map fun c => .write g c.1 c.2.1 c.2.2

/-- each starts at the next multiple of eight or where the previous one ended -/
def Asc : Nat → List Chunk → Prop
  | _, [] => True
  | pos, (s, o, bs) :: cs => s ∣ 8 ∧ s ∣ o ∧ bs ≠ [] ∧ s ∣ bs.length ∧ pos ≤ o ∧ o < pos + 8 ∧ (8 ∣ o ∨ o = pos) ∧
      o + bs.length ≤ 2 ^ 31 ∧ (pos = 0 → o = 0) ∧ Asc (o + bs.length) cs

def endOf : Nat → List Chunk → Nat
  | pos, [] => pos
  | _, (_, o, bs) :: cs => endOf (o + bs.length) cs

/-- the bytes are there -/
def Holds (F : Flat) (c : Chunk) : Prop :=
  c.2.1 + c.2.2.length ≤ F.size ∧ ∀ (k : Nat) (b : Byte), c.2.2[k]? = some b → F.known (c.2.1 + k) = some b

theorem asc_le : ∀ (cs : List Chunk) (pos : Nat), Asc pos cs → pos ≤ endOf pos cs
  | [], _, _ => Nat.le_refl _
  | (s, o, bs) :: cs, pos, h => by
    obtain ⟨_, _, _, _, h1, _, _, _, _, h2⟩ := h
    have := asc_le cs _ h2
    show pos ≤ endOf (o + bs.length) cs
    omega

theorem asc_fold (g : Nat → Byte) : ∀ (cs : List Chunk) (pos : Nat) (F : Flat), F.size = pos →
    (F.big = false → pos ≤ 64) → Asc pos cs →
    WSeq pos F (opsOf g cs) ∧ ((opsOf g cs).foldl Flat.step F).size = endOf pos cs ∧
      (∀ p, p < pos → ((opsOf g cs).foldl Flat.step F).known p = F.known p) ∧
      ∀ c ∈ cs, Holds ((opsOf g cs).foldl Flat.step F) c
  | [], _, _, hs, _, _ => ⟨trivial, hs, fun _ _ => rfl, fun c hc => by cases hc⟩
  | (s, o, bs) :: cs, pos, F, hs, hb, h => by
    have h' := h
    obtain ⟨h1, h2, h3, h4, h5, h6, h7, h8, h9, h10⟩ := h
    have hl : 0 < bs.length := List.length_pos_iff.mpr h3
    have hmax : max F.size (o + bs.length) = o + bs.length := by omega
    have hsz : (F.step (.write g s o bs)).size = o + bs.length := hmax
    have hbig : (F.step (.write g s o bs)).big = (F.big || decide (64 < o + bs.length)) := rfl
    obtain ⟨r1, r2, r3, r4⟩ := asc_fold g cs (o + bs.length) (F.step (.write g s o bs)) hsz (by
      intro hf
      rw [hbig, Bool.or_eq_false_iff] at hf
      have := of_decide_eq_false hf.2
      omega) h10
    have hle := asc_le cs _ h10
    refine ⟨⟨h1, h2, h4, h7, ⟨Nat.dvd_refl 1, Nat.one_dvd _, Nat.one_dvd _, h3, h8, ?_⟩, r1⟩, r2, ?_, ?_⟩
    · cases hF : F.big with
      | true => exact Or.inl rfl
      | false =>
        have := hb hF
        by_cases h0 : pos = 0
        · have := h9 h0
          right; left
          show o ≤ F.size
          omega
        · right; right
          show 0 < F.size ∧ o < 16384
          omega
    · intro p hp
      show ((opsOf g cs).foldl Flat.step (F.step (.write g s o bs))).known p = F.known p
      rw [r3 p (by omega)]
      show (if o ≤ p ∧ p < o + bs.length then bs[p - o]? else F.known p) = _
      rw [if_neg (by omega)]
    · intro c hc
      rcases List.mem_cons.mp hc with rfl | hc
      · refine ⟨?_, ?_⟩
        · show o + bs.length ≤ ((opsOf g cs).foldl Flat.step (F.step (.write g s o bs))).size
          rw [r2]; exact hle
        · intro k b hk
          have hkl : k < bs.length := by
            have := List.getElem?_eq_some_iff.mp hk
            exact this.1
          show ((opsOf g cs).foldl Flat.step (F.step (.write g s o bs))).known (o + k) = some b
          rw [r3 _ (by omega)]
          show (if o ≤ o + k ∧ o + k < o + bs.length then bs[o + k - o]? else F.known (o + k)) = _
          rw [if_pos (by omega), Nat.add_sub_cancel_left]
          exact hk
      · exact r4 c hc

/-- the flat file of an item -/
def flatOf (n : Name) (cs : List Chunk) : Flat :=
  (opsOf (fun _ => 0) cs).foldl Flat.step (Flat.none (decide (n = hist)))

theorem fold_g (g g' : Nat → Byte) : ∀ (cs : List Chunk) (F : Flat),
    (opsOf g cs).foldl Flat.step F = (opsOf g' cs).foldl Flat.step F
  | [], _ => rfl
  | (s, o, bs) :: cs, F => fold_g g g' cs (F.step (.write g s o bs))

/-- a session that writes these chunks -/
theorem session_chunks {t : Tree} {D : Dataset} (h : Rel t D) (n : Name) (g : Nat → Byte) (cs : List Chunk)
    (hn : nameOk n = true ∨ n = hist) (ha : Asc 0 cs) (hne : n = hist ∨ cs ≠ []) :
    StepOk t (session t .write n g (opsOf g cs)) (D.set n (some (flatOf n cs))) := by
  obtain ⟨w, wsz, _, _⟩ := asc_fold g cs 0 (Flat.none (decide (n = hist))) rfl (fun _ => Nat.zero_le _) ha
  have hrun : ∀ it, Inv 1 it (Flat.none (decide (n = hist))) → At it 0 →
      run it (opsOf g cs) = run it ((opsOf g cs).map byByte) := fun it hI hat => (run_byByte _ it _ 0 hI hat w).1
  have hfin : ∀ t' it c, Inv 1 it (Flat.none (decide (n = hist))) → At it 0 →
      finish t' n it c (opsOf g cs) = finish t' n it c ((opsOf g cs).map byByte) := by
    intro t' it c hI hat
    unfold finish
    rw [hrun it hI hat]
  have hfresh : Inv 1 (fresh t n g) (Flat.none (decide (n = hist))) ∧ At (fresh t n g) 0 := by
    unfold fresh
    by_cases hh : n = hist
    · rw [if_pos hh, decide_eq_true hh]
      exact ⟨⟨Nat.zero_le _, openFile_inv _ _ _ _ (Nat.dvd_zero 1) _ rfl (fun p b hp => by cases hp)⟩, rfl, Or.inl rfl⟩
    · rw [if_neg hh, decide_eq_false hh]
      exact ⟨none_inv_false _ rfl rfl rfl rfl rfl (Nat.zero_le _) rfl, rfl, Or.inl rfl⟩
  have heq : session t .write n g (opsOf g cs) = session t .write n g ((opsOf g cs).map byByte) := by
    unfold session
    cases hf : find t.items n with
    | none =>
      simp only
      rw [hfin _ _ _ hfresh.1 hfresh.2]
    | some e =>
      obtain ⟨he, hen⟩ := find_some hf
      obtain ⟨hnm', hm0, F, hD, hFb, hFs, hMI⟩ := h.items.ent e he
      have hnh : n ≠ hist := by
        intro hh
        rw [hen, hh] at hnm'
        exact absurd hnm' (by decide)
      have hsz0 : e.item.size ≠ 0 := by rw [hMI.size]; omega
      simp only [if_pos hsz0]
      refine hfin _ _ _ ?_ ⟨?_, Or.inl rfl⟩
      · rw [decide_eq_false hnh]
        exact none_inv_false _ hMI.fd hMI.nc hMI.off rfl rfl hMI.b64 hm0
      · show e.item.off % 8 = 0
        rw [hMI.off]
  obtain ⟨it0, hI0, hat0⟩ : ∃ it, Inv 1 it (Flat.none (decide (n = hist))) ∧ At it 0 := ⟨_, hfresh.1, hfresh.2⟩
  obtain ⟨-, r2, r3⟩ := run_byByte _ it0 _ 0 hI0 hat0 w
  have hnr : ((opsOf g cs).map byByte).all noReopen = true := by
    rw [List.all_eq_true]
    intro x hx
    rw [List.mem_map] at hx
    obtain ⟨y, hy, rfl⟩ := hx
    obtain ⟨_, _, _, _, rfl⟩ := wseq_noReopen _ _ _ w y hy
    rfl
  have hpos : n = hist ∨ 0 < (((opsOf g cs).map byByte).foldl Flat.step (Flat.none (decide (n = hist)))).size := by
    refine hne.imp_right (fun hne => ?_)
    rw [r3, wsz]
    cases cs with
    | nil => exact absurd rfl hne
    | cons c cs =>
      obtain ⟨s, o, bs⟩ := c
      obtain ⟨_, _, h3, _, _, _, _, _, _, h10⟩ := ha
      have := asc_le cs _ h10
      have hl : 0 < bs.length := List.length_pos_iff.mpr h3
      show 0 < endOf (o + bs.length) cs
      omega
  have := session_rel h 1 .write n g ((opsOf g cs).map byByte) ⟨⟨8, rfl⟩, hn, hnr, r2, hpos⟩
  rw [heq]
  show StepOk t _ (D.set n (some (flatOf n cs)))
  have hflat : flatOf n cs = ((opsOf g cs).map byByte).foldl Flat.step (Flat.none (decide (n = hist))) := by
    rw [r3]; exact fold_g _ _ _ _
  rw [hflat]
  exact this

/-! ## Reads -/

theorem read_chunk {it : Item} {F : Flat} (h : Inv 1 it F) {pos : Nat} (hat : RAt it pos) (g : Nat → Byte) {s o : Nat}
    {bs : List Byte} (hs : s ∣ 8) (ho : s ∣ o) (hbs : s ∣ bs.length) (hne : bs ≠ []) (hal : 8 ∣ o ∨ o = pos)
    (hh : Holds F (s, o, bs)) :
    ∃ it1, hread it g s o bs.length = .ok (it1, bs.map some) ∧ Inv 1 it1 F ∧ RAt it1 (o + bs.length) := by
  have hl : 0 < bs.length := List.length_pos_iff.mpr hne
  obtain ⟨w1, w2⟩ := hread_whole hs it F h pos hat g o bs.length ho hbs hl hal hh.1
  obtain ⟨it1, xs, e1, l1, r1, i1⟩ := hread_inv (by decide) it F h g 1 o bs.length
    ⟨Nat.dvd_refl 1, Nat.one_dvd _, Nat.one_dvd _, hh.1⟩
  have : xs = bs := right_eq l1 r1 (fun k b hk => hh.2 k b hk)
  subst this
  exact ⟨it1, w1.trans e1, i1, w2 it1 _ e1⟩

theorem inv_size {S : Nat} {x : Item} {F : Flat} (hx : Inv S x F) : x.size = F.size := by
  have := hx.2
  split at this
  · exact this.size
  · exact this.size

theorem fresh_rat {it : Item} (hf : Fresh it) : RAt it 0 := by
  obtain ⟨h1, h2⟩ := hf
  refine ⟨⟨by omega, Or.inl rfl⟩, ?_⟩
  rcases h2 with h2 | h2
  · exact Or.inl h2
  · right; right; omega

theorem readPlan_right {F : Flat} (g : Nat → Byte) (plan : Nat → Nat × Nat) : ∀ (cs : List Chunk) (k fuel : Nat)
    (it : Item) (pos : Nat), Inv 1 it F → RAt it pos → Asc pos cs → (∀ c ∈ cs, Holds F c ∧ c.2.2.length = c.1) →
    (∀ i c, cs[i]? = some c → plan (k + i) = (c.1, c.2.1)) →
    F.size < (plan (k + cs.length)).2 + (plan (k + cs.length)).1 → cs.length < fuel →
    readPlan fuel it g plan k = cs.map (·.2.2)
  | _, _, 0, _, _, _, _, _, _, _, _, hf => absurd hf (Nat.not_lt_zero _)
  | [], k, fuel + 1, it, pos, h, _, _, _, _, hend, _ => by
    have hsz := inv_size h
    rw [readPlan]
    have : hread it g (plan k).1 (plan k).2 (plan k).1 = .error .eof := by
      unfold hread
      rw [if_pos (by rw [hsz]; exact hend)]
    rw [this]
    rfl
  | (s, o, bs) :: cs, k, fuel + 1, it, pos, h, hat, ha, hc, hp, hend, hf => by
    obtain ⟨h1, h2, h3, h4, h5, h6, h7, h8, h9, h10⟩ := ha
    obtain ⟨hh, hl⟩ := hc _ List.mem_cons_self
    obtain ⟨it1, e1, i1, at1⟩ := read_chunk h hat g h1 h2 h4 h3 h7 hh
    have hpk : plan k = (s, o) := hp 0 (s, o, bs) rfl
    change bs.length = s at hl
    rw [readPlan, hpk]
    simp only
    rw [← hl]
    rw [← hl] at e1
    rw [e1]
    simp only
    rw [bytes_map]
    have hlen : ((s, o, bs) :: cs).length = cs.length + 1 := rfl
    have := readPlan_right g plan cs (k + 1) fuel it1 _ i1 at1 h10 (fun c hcm => hc c (List.mem_cons_of_mem _ hcm))
      (fun i c hi => by
        have := hp (i + 1) c hi
        rw [← this, Nat.add_assoc, Nat.add_comm 1 i])
      (by
        rw [hlen, Nat.add_comm cs.length 1, ← Nat.add_assoc] at hend
        exact hend) (by omega)
    rw [this]
    rfl

/-! ## Contents -/

/-- elements one behind the other -/
def chunksFrom (s : Nat) : Nat → List (List Byte) → List Chunk
  | _, [] => []
  | o, bs :: rest => (s, o, bs) :: chunksFrom s (o + s) rest

def typedChunks (ty : Ty) (bss : List (List Byte)) : List Chunk := (1, 0, ty.tag) :: chunksFrom ty.size ty.start bss

def valBytes (c : Conv) (ty : Ty) (e : Elem) : List Byte := (elemBytes c ty e).getD []

def freqChunks (c : Conv) : Nat → List Elem → List Chunk
  | _, [] => []
  | i, e :: rest =>
    (if i % 3 = 0 then 4 else 8, 8 + 8 * i, valBytes c (if i % 3 = 0 then .int else .dble) e) :: freqChunks c (i + 1) rest

/-- what is in an item -/
def chunksOf (c : Conv) (n : Name) : Asg → List Chunk
  | .num x => typedChunks x.ty [x.bytes]
  | .chars s => [(1, 0, Ty.char.tag), (1, 4, s)]
  | .py v =>
    match itype n, v with
    | some .text, .str cs => chunksFrom 1 0 (cs.map fun ch => [charByte ch])
    | some (.num ty), .one e => typedChunks ty [valBytes c ty e]
    | some (.num ty), .many l => typedChunks ty (l.map (valBytes c ty))
    | some .special, .many (e :: rest) => (4, 0, valBytes c .int e) :: freqChunks c 0 rest
    | _, _ => []

def AsgOk (n : Name) : Asg → Prop
  | .py v => ∃ k, itype n = some k ∧ ValOk n k v
  | .num x => NumOk x
  | .chars s => s ≠ [] ∧ 4 + s.length ≤ 2 ^ 31

theorem writesFrom_chunks (g : Nat → Byte) (s : Nat) : ∀ (o : Nat) (bss : List (List Byte)),
    writesFrom g s o bss = opsOf g (chunksFrom s o bss)
  | _, [] => rfl
  | o, bs :: rest => by rw [writesFrom, writesFrom_chunks g s (o + s) rest]; rfl

theorem typed_chunks (g : Nat → Byte) (ty : Ty) (bss : List (List Byte)) :
    typed g ty bss = opsOf g (typedChunks ty bss) := by
  unfold typed
  rw [writesFrom_chunks]
  rfl

theorem chunksFrom_asc {s : Nat} (hs : s ∣ 8) : ∀ (bss : List (List Byte)) (pos o : Nat), s ∣ o →
    (∀ bs ∈ bss, bs.length = s ∧ bs ≠ []) → pos ≤ o → o < pos + 8 → (8 ∣ o ∨ o = pos) → (pos = 0 → o = 0) →
    o + s * bss.length ≤ 2 ^ 31 → Asc pos (chunksFrom s o bss)
  | [], _, _, _, _, _, _, _, _, _ => trivial
  | bs :: rest, pos, o, ho, hb, h1, h2, h3, h4, h5 => by
    obtain ⟨hl, hne⟩ := hb bs List.mem_cons_self
    have hm : s * (bs :: rest).length = s * rest.length + s := by rw [List.length_cons, Nat.mul_succ]
    have hpos : 0 < s := by rw [← hl]; exact List.length_pos_iff.mpr hne
    refine ⟨hs, ho, hne, by rw [hl]; exact Nat.dvd_refl s, h1, h2, h3, by omega, h4, ?_⟩
    rw [hl]
    exact chunksFrom_asc hs rest (o + s) (o + s) (Nat.dvd_add ho (Nat.dvd_refl s))
      (fun x hx => hb x (List.mem_cons_of_mem _ hx)) (Nat.le_refl _) (by omega) (Or.inr rfl) (by omega) (by omega)

theorem chunksFrom_end (s : Nat) : ∀ (bss : List (List Byte)) (o : Nat), (∀ bs ∈ bss, bs.length = s) →
    endOf o (chunksFrom s o bss) = o + s * bss.length
  | [], _, _ => rfl
  | bs :: rest, o, hb => by
    show endOf (o + bs.length) (chunksFrom s (o + s) rest) = _
    rw [hb bs List.mem_cons_self, chunksFrom_end s rest (o + s) (fun x hx => hb x (List.mem_cons_of_mem _ hx)),
      List.length_cons, Nat.mul_succ]
    omega

theorem chunksFrom_get (s : Nat) : ∀ (bss : List (List Byte)) (o i : Nat) (c : Chunk),
    (chunksFrom s o bss)[i]? = some c → (c.1, c.2.1) = (s, o + s * i)
  | [], _, _, _, h => by cases h
  | bs :: rest, o, 0, c, h => by
    change some (s, o, bs) = some c at h
    rw [Option.some.injEq] at h
    subst h
    rfl
  | bs :: rest, o, i + 1, c, h => by
    have := chunksFrom_get s rest (o + s) i c h
    rw [this, Nat.mul_succ]
    congr 1
    omega

theorem chunksFrom_mem (s : Nat) : ∀ (bss : List (List Byte)) (o : Nat) (c : Chunk), c ∈ chunksFrom s o bss →
    c.1 = s ∧ c.2.2 ∈ bss
  | [], _, _, h => by cases h
  | bs :: rest, o, c, h => by
    rcases List.mem_cons.mp h with rfl | h
    · exact ⟨rfl, List.mem_cons_self⟩
    · obtain ⟨h1, h2⟩ := chunksFrom_mem s rest (o + s) c h
      exact ⟨h1, List.mem_cons_of_mem _ h2⟩

theorem chunksFrom_map (s : Nat) : ∀ (bss : List (List Byte)) (o : Nat), (chunksFrom s o bss).map (·.2.2) = bss
  | [], _ => rfl
  | bs :: rest, o => by
    show bs :: (chunksFrom s (o + s) rest).map (·.2.2) = _
    rw [chunksFrom_map]

theorem chunksFrom_length (s : Nat) : ∀ (bss : List (List Byte)) (o : Nat), (chunksFrom s o bss).length = bss.length
  | [], _ => rfl
  | bs :: rest, o => by
    show (chunksFrom s (o + s) rest).length + 1 = _
    rw [chunksFrom_length]; rfl

theorem ty_size (ty : Ty) : ty.size ∣ 8 ∧ ty.size ∣ ty.start ∧ ty.tag.length = 4 ∧ 4 ≤ ty.start ∧ ty.start < 12 ∧
    (8 ∣ ty.start ∨ ty.start = 4) ∧ 0 < ty.size ∧ ty.size ≤ 8 := by
  cases ty <;> decide

theorem typedChunks_asc (ty : Ty) (bss : List (List Byte)) (hb : ∀ bs ∈ bss, bs.length = ty.size)
    (hl : ty.start + ty.size * bss.length ≤ 2 ^ 31) : Asc 0 (typedChunks ty bss) := by
  obtain ⟨h1, h2, h3, h4, h5, h6, h7, _⟩ := ty_size ty
  refine ⟨by decide, by decide, ?_, by rw [h3]; decide, Nat.le_refl _, by decide, Or.inl (by decide), by rw [h3]; decide,
    fun _ => rfl, ?_⟩
  · cases ty <;> decide
  · rw [h3]
    refine chunksFrom_asc h1 bss 4 _ h2 (fun bs hbs => ⟨hb bs hbs, ?_⟩) h4 h5 h6 (by omega) hl
    intro hn
    have := hb bs hbs
    rw [hn] at this
    change 0 = ty.size at this
    omega

theorem elem_length (c : Conv) (ty : Ty) (e : Elem) (h : ElemOk ty e) : (valBytes c ty e).length = ty.size ∧
    elemBytes c ty e = some (valBytes c ty e) := by
  unfold valBytes
  cases ty <;> cases e <;> try exact h.elim
  · rename_i n
    have h' : -2 ^ 63 ≤ n ∧ n < 2 ^ 63 := by
      obtain ⟨h1, h2⟩ : -2 ^ 31 ≤ n ∧ n < 2 ^ 31 := h
      omega
    have e : elemBytes c .int (.int n) = some (word n) := if_pos h'
    rw [e]
    exact ⟨rfl, rfl⟩
  · exact ⟨rfl, rfl⟩
  · exact ⟨rfl, rfl⟩

theorem word_back (n : Int) (h : -2 ^ 31 ≤ n ∧ n < 2 ^ 31) : signed32 (ofBe32 (word n)) = n := by
  unfold word
  rw [Uv.ofBe32_be32 _ (by omega)]
  exact Uv.signed32_word n h.1 h.2

theorem be64_back (x : Nat) (h : x < 2 ^ 64) : ofBe64 (be64 x) = x := by
  unfold ofBe64 be64
  have h4 : ∀ m, (be32 m).length = 4 := fun _ => rfl
  rw [List.take_append_of_le_length (Nat.le_of_eq (h4 _).symm), List.take_of_length_le (Nat.le_of_eq (h4 _)),
    List.drop_append_of_le_length (Nat.le_of_eq (h4 _).symm), List.drop_eq_nil_of_le (Nat.le_of_eq (h4 _)), List.nil_append,
    Uv.ofBe32_be32 _ (by omega), Uv.ofBe32_be32 _ (by omega)]
  omega

theorem be32_pair (a b : Nat) (ha : a < 2 ^ 32) (hb : b < 2 ^ 32) :
    ofBe32 ((be32 a ++ be32 b).take 4) = a ∧ ofBe32 ((be32 a ++ be32 b).drop 4) = b := by
  have h4 : ∀ m, (be32 m).length = 4 := fun _ => rfl
  rw [List.take_append_of_le_length (Nat.le_of_eq (h4 _).symm), List.take_of_length_le (Nat.le_of_eq (h4 _)),
    List.drop_append_of_le_length (Nat.le_of_eq (h4 _).symm), List.drop_eq_nil_of_le (Nat.le_of_eq (h4 _)), List.nil_append,
    Uv.ofBe32_be32 _ ha, Uv.ofBe32_be32 _ hb]
  exact ⟨rfl, rfl⟩

theorem elem_back (c : Conv) (ty : Ty) (e : Elem) (h : ElemOk ty e) : elemOf c ty (valBytes c ty e) = shownE c e := by
  have hb := (elem_length c ty e h).2
  cases ty <;> cases e <;> try exact h.elim
  · rename_i n
    have h' : -2 ^ 63 ≤ n ∧ n < 2 ^ 63 := by
      obtain ⟨h1, h2⟩ : -2 ^ 31 ≤ n ∧ n < 2 ^ 31 := h
      omega
    have e : elemBytes c .int (.int n) = some (word n) := if_pos h'
    unfold valBytes
    rw [e]
    show Elem.int (signed32 (ofBe32 (word n))) = .int n
    rw [word_back n h]
  · rename_i x
    show Elem.float (ofBe64 (be64 x)) = .float x
    rw [be64_back x h]
  · rename_i re im
    obtain ⟨h1, h2⟩ := be32_pair (c.round re) (c.round im) (c.round_lt _) (c.round_lt _)
    show Elem.complex (c.widen (ofBe32 ((be32 (c.round re) ++ be32 (c.round im)).take 4)))
      (c.widen (ofBe32 ((be32 (c.round re) ++ be32 (c.round im)).drop 4))) = _
    rw [h1, h2]
    rfl

theorem freq_ops (g : Nat → Byte) (c : Conv) : ∀ (l : List Elem) (i : Nat),
    (∀ j x, l[j]? = some x → ElemOk (if (i + j) % 3 = 0 then .int else .dble) x) →
    freqWrites g c i l = some (opsOf g (freqChunks c i l))
  | [], _, _ => rfl
  | e :: rest, i, h => by
    have h0 := (elem_length c _ e (h 0 e rfl)).2
    rw [Nat.add_zero] at h0
    rw [freqWrites, h0]
    simp only
    rw [freq_ops g c rest (i + 1) (fun j x hj => by
      have := h (j + 1) x hj
      rw [show i + 1 + j = i + (j + 1) by omega]
      exact this)]
    rfl

theorem freq_asc (c : Conv) : ∀ (l : List Elem) (i pos : Nat),
    (∀ j x, l[j]? = some x → ElemOk (if (i + j) % 3 = 0 then .int else .dble) x) →
    pos ≤ 8 + 8 * i → 8 + 8 * i < pos + 8 → 0 < pos → 8 + 8 * (i + l.length) ≤ 2 ^ 31 →
    Asc pos (freqChunks c i l)
  | [], _, _, _, _, _, _, _ => trivial
  | e :: rest, i, pos, h, h1, h2, h3, h4 => by
    have h0 := (elem_length c _ e (h 0 e rfl)).1
    rw [Nat.add_zero] at h0
    have hlen : (e :: rest).length = rest.length + 1 := rfl
    have hs : Ty.size (if i % 3 = 0 then .int else .dble) = if i % 3 = 0 then 4 else 8 := by split <;> rfl
    rw [hs] at h0
    have hne : valBytes c (if i % 3 = 0 then .int else .dble) e ≠ [] := by
      intro hn
      rw [hn] at h0
      split at h0 <;> exact absurd h0 (by decide)
    have h8 : 8 ∣ 8 + 8 * i := ⟨1 + i, by omega⟩
    have hd : (if i % 3 = 0 then 4 else 8) ∣ 8 := by split <;> decide
    refine ⟨hd, Nat.dvd_trans hd h8, hne, by rw [h0]; exact Nat.dvd_refl _, h1, h2, Or.inl h8, ?_, by omega, ?_⟩
    · rw [h0]; split <;> omega
    · rw [h0]
      refine freq_asc c rest (i + 1) _ (fun j x hj => ?_) (by split <;> omega) (by split <;> omega)
        (by split <;> omega) (by omega)
      rw [show i + 1 + j = i + (j + 1) by omega]
      exact h (j + 1) x hj

theorem freq_get (c : Conv) : ∀ (l : List Elem) (i j : Nat) (x : Chunk), (freqChunks c i l)[j]? = some x →
    (x.1, x.2.1) = (if (i + j) % 3 = 0 then 4 else 8, 8 + 8 * (i + j))
  | [], _, _, _, h => by cases h
  | e :: rest, i, 0, x, h => by
    change some _ = some x at h
    rw [Option.some.injEq] at h
    subst h
    rfl
  | e :: rest, i, j + 1, x, h => by
    have := freq_get c rest (i + 1) j x h
    rw [show i + 1 + j = i + (j + 1) by omega] at this
    exact this

theorem freq_len (c : Conv) : ∀ (l : List Elem) (i : Nat), (freqChunks c i l).length = l.length
  | [], _ => rfl
  | e :: rest, i => by
    show (freqChunks c (i + 1) rest).length + 1 = _
    rw [freq_len]; rfl

theorem freq_mem (c : Conv) : ∀ (l : List Elem) (i : Nat),
    (∀ j x, l[j]? = some x → ElemOk (if (i + j) % 3 = 0 then .int else .dble) x) →
    ∀ x ∈ freqChunks c i l, x.2.2.length = x.1
  | [], _, _, x, h => by cases h
  | e :: rest, i, h, x, hx => by
    rcases List.mem_cons.mp hx with rfl | hx
    · have h0 := (elem_length c _ e (h 0 e rfl)).1
      rw [Nat.add_zero] at h0
      rw [h0]
      show _ = if i % 3 = 0 then 4 else 8
      split <;> rfl
    · refine freq_mem c rest (i + 1) (fun j x hj => ?_) x hx
      rw [show i + 1 + j = i + (j + 1) by omega]
      exact h (j + 1) x hj

theorem freq_end (c : Conv) : ∀ (l : List Elem) (i pos : Nat),
    (∀ j x, l[j]? = some x → ElemOk (if (i + j) % 3 = 0 then .int else .dble) x) →
    pos ≤ 8 + 8 * i → endOf pos (freqChunks c i l) ≤ 8 + 8 * (i + l.length)
  | [], i, pos, _, h => by
    show pos ≤ 8 + 8 * (i + 0)
    omega
  | e :: rest, i, pos, h, hp => by
    have h0 := (elem_length c _ e (h 0 e rfl)).1
    rw [Nat.add_zero] at h0
    have hs : Ty.size (if i % 3 = 0 then .int else .dble) ≤ 8 := (ty_size _).2.2.2.2.2.2.2
    have := freq_end c rest (i + 1) (8 + 8 * i + (valBytes c (if i % 3 = 0 then .int else .dble) e).length)
      (fun j x hj => by
        rw [show i + 1 + j = i + (j + 1) by omega]
        exact h (j + 1) x hj) (by omega)
    rw [List.length_cons]
    show endOf (8 + 8 * i + (valBytes c (if i % 3 = 0 then .int else .dble) e).length) (freqChunks c (i + 1) rest) ≤ _
    omega

theorem freq_back (c : Conv) : ∀ (l : List Elem) (i : Nat),
    (∀ j x, l[j]? = some x → ElemOk (if (i + j) % 3 = 0 then .int else .dble) x) →
    (((freqChunks c i l).map (·.2.2)).zipIdx i).map (fun p => elemOf c (if p.2 % 3 = 0 then .int else .dble) p.1) = l
  | [], _, _ => rfl
  | e :: rest, i, h => by
    have h0 := h 0 e rfl
    rw [Nat.add_zero] at h0
    have hb := elem_back c _ e h0
    have he : shownE c e = e := by
      cases e with
      | complex re im => split at h0 <;> exact h0.elim
      | _ => rfl
    have ih := freq_back c rest (i + 1) (fun j x hj => by
      rw [show i + 1 + j = i + (j + 1) by omega]
      exact h (j + 1) x hj)
    show elemOf c (if i % 3 = 0 then .int else .dble) (valBytes c (if i % 3 = 0 then .int else .dble) e) ::
      (((freqChunks c (i + 1) rest).map (·.2.2)).zipIdx (i + 1)).map _ = _
    rw [hb, he, ih]

/-! ## Steps -/

theorem num_length (x : Num) : x.bytes.length = x.ty.size := by cases x <;> rfl

theorem asg_asc (c : Conv) (n : Name) (a : Asg) (h : AsgOk n a) :
    Asc 0 (chunksOf c n a) ∧ (n = hist ∨ chunksOf c n a ≠ []) := by
  cases a with
  | num x =>
    refine ⟨typedChunks_asc _ _ (fun bs hbs => ?_) ?_, Or.inr (fun hn => by cases hn)⟩
    · rw [List.mem_singleton.mp hbs]; exact num_length x
    · have := ty_size x.ty
      rw [List.length_singleton]; omega
  | chars s =>
    obtain ⟨h1, h2⟩ := h
    refine ⟨⟨by decide, by decide, by decide, by decide, by decide, by decide, by decide, by decide, by decide,
      by decide, by decide, h1, Nat.one_dvd _, by decide, by decide, by decide, h2, by decide, trivial⟩,
      Or.inr (fun hn => by cases hn)⟩
  | py v =>
    obtain ⟨k, hk, hv⟩ := h
    unfold chunksOf
    rw [hk]
    cases k with
    | text =>
      cases v with
      | str cs =>
        obtain ⟨h1, h2, h3⟩ := hv
        refine ⟨chunksFrom_asc (Nat.one_dvd 8) _ 0 0 (Nat.one_dvd 0) ?_ (Nat.le_refl 0) (by decide) (Or.inr rfl) (fun _ => rfl) ?_,
          h1.imp_right (fun h => ?_)⟩
        · intro bs hbs
          rw [List.mem_map] at hbs
          obtain ⟨ch, _, rfl⟩ := hbs
          exact ⟨rfl, by simp⟩
        · rw [List.length_map]; omega
        · cases cs with
          | nil => exact absurd rfl h
          | cons => intro hn; cases hn
      | one => exact hv.elim
      | many => exact hv.elim
    | num ty =>
      have hs := ty_size ty
      cases v with
      | str cs => exact hv.elim
      | one e =>
        refine ⟨typedChunks_asc _ _ (fun bs hbs => ?_) ?_, Or.inr (fun hn => by cases hn)⟩
        · rw [List.mem_singleton.mp hbs]; exact (elem_length c ty e hv).1
        · rw [List.length_singleton]; omega
      | many l =>
        obtain ⟨h1, h2⟩ := hv
        refine ⟨typedChunks_asc _ _ (fun bs hbs => ?_) ?_, Or.inr (fun hn => by cases hn)⟩
        · rw [List.mem_map] at hbs
          obtain ⟨e, he, rfl⟩ := hbs
          exact (elem_length c ty e (h1 e he)).1
        · rw [List.length_map]
          have : ty.size * l.length ≤ 8 * l.length := Nat.mul_le_mul_right _ (by omega)
          have : ty.start ≤ 8 := by cases ty <;> decide
          omega
    | special =>
      cases v with
      | str cs => exact hv.elim
      | one e => exact hv.elim
      | many l =>
        cases l with
        | nil => exact hv.elim
        | cons e rest =>
          obtain ⟨h1, h2, h3⟩ := hv
          have he := (elem_length c .int e h1).1
          refine ⟨⟨by decide, by decide, ?_, by rw [he]; decide, Nat.le_refl _, by decide, Or.inr rfl, by rw [he]; decide,
            fun _ => rfl, ?_⟩, Or.inr (fun hn => by cases hn)⟩
          · intro hn; rw [hn] at he; cases he
          · rw [he]
            refine freq_asc c rest 0 _ (fun j x hj => ?_) (by decide) (by decide) (by decide) (by omega)
            rw [Nat.zero_add]
            exact h3 j x hj

theorem mapM_elems (c : Conv) (ty : Ty) : ∀ (l : List Elem), (∀ e ∈ l, ElemOk ty e) →
    l.mapM (elemBytes c ty) = some (l.map (valBytes c ty))
  | [], _ => rfl
  | e :: rest, h => by
    rw [List.mapM_cons, (elem_length c ty e (h e List.mem_cons_self)).2,
      mapM_elems c ty rest (fun x hx => h x (List.mem_cons_of_mem _ hx))]
    rfl

theorem wrhd_ops (c : Conv) (g : Nat → Byte) (n : Name) (k : Kind) (v : Val) (hk : itype n = some k)
    (hv : ValOk n k v) : wrhdOps c g k v = .ok (opsOf g (chunksOf c n (.py v))) := by
  unfold chunksOf
  rw [hk]
  cases k with
  | text =>
    cases v with
    | str cs =>
      show Except.ok (writesFrom g 1 0 _) = _
      rw [writesFrom_chunks]
    | one => exact hv.elim
    | many => exact hv.elim
  | num ty =>
    cases v with
    | str cs => exact hv.elim
    | one e =>
      simp only [wrhdOps]
      rw [(elem_length c ty e hv).2]
      simp only
      rw [typed_chunks]
    | many l =>
      simp only [wrhdOps]
      rw [mapM_elems c ty l hv.1]
      simp only
      rw [typed_chunks]
  | special =>
    cases v with
    | str cs => exact hv.elim
    | one e => exact hv.elim
    | many l =>
      cases l with
      | nil => exact hv.elim
      | cons e rest =>
        obtain ⟨h1, h2, h3⟩ := hv
        simp only [wrhdOps]
        rw [(elem_length c .int e h1).2]
        simp only
        rw [freq_ops g c rest 0 (fun j x hj => by rw [Nat.zero_add]; exact h3 j x hj)]
        rfl

theorem itype_name (n : Name) (k : Kind) (h : itype n = some k) : nameOk n = true ∨ n = hist := by
  unfold itype at h
  rw [Option.map_eq_some_iff] at h
  obtain ⟨p, hp, _⟩ := h
  have hm := List.mem_of_find?_eq_some hp
  have hn : p.1 = n := by
    have := List.find?_some hp
    simpa using this
  rw [← hn]
  have : ∀ p ∈ itemtable, nameOk p.1 = true ∨ p.1 = hist := by decide
  exact this p hm

/-- the result of a step -/
def HStepOk (t : Tree) (r : Except HErr Tree) (D' : Dataset) : Prop :=
  (r = .error .fatal ∧ 1023 ≤ t.items.length) ∨
    ∃ t', r = .ok t' ∧ Rel t' D' ∧ t'.items.length ≤ t.items.length + 1

theorem step_ofT {t : Tree} {r : Except TErr Tree} {D' : Dataset} (h : StepOk t r D') : HStepOk t (ofT r) D' := by
  rcases h with ⟨h1, h2⟩ | ⟨t', h1, h2, h3⟩
  · subst h1
    exact Or.inl ⟨rfl, h2⟩
  · subst h1
    exact Or.inr ⟨t', rfl, h2, h3⟩

theorem writeItem_ofT (t : Tree) (n : Name) (g : Nat → Byte) (ops : List Op) :
    writeItem t n g ops = ofT (session t .write n g ops) := by
  unfold writeItem ofT
  cases session t .write n g ops with
  | ok => rfl
  | error e => cases e <;> rfl

theorem write_rel {t : Tree} {D : Dataset} (h : Rel t D) (c : Conv) (n : Name) (g : Nat → Byte) (a : Asg)
    (hn : nameOk n = true ∨ n = hist) (ha : AsgOk n a) :
    HStepOk t (writeItem t n g (opsOf g (chunksOf c n a))) (D.set n (some (flatOf n (chunksOf c n a)))) := by
  rw [writeItem_ofT]
  obtain ⟨h1, h2⟩ := asg_asc c n a ha
  exact step_ofT (session_chunks h n g _ hn h1 h2)

/-- the data set after an assignment -/
def after (c : Conv) (D : Dataset) (o : HOp) : Dataset := fun n =>
  match assigns n o with
  | none => D n
  | some a => some (flatOf n (chunksOf c n a))

theorem hstep_rel {t : Tree} {D : Dataset} (h : Rel t D) (c : Conv) (o : HOp) (ho : HOk o) :
    HStepOk t (hstep c t o) (after c D o) ∧ ∀ n a, assigns n o = some a → AsgOk n a := by
  have hset : ∀ (n : Name) (a : Asg) (o : HOp), (∀ m, assigns m o = if n = m then some a else none) →
      after c D o = D.set n (some (flatOf n (chunksOf c n a))) := by
    intro n a o hm
    funext m
    unfold after Dataset.set
    rw [hm m]
    by_cases hnm : n = m
    · subst hnm
      rw [if_pos rfl, if_pos rfl]
    · rw [if_neg hnm, if_neg (fun h => hnm h.symm)]
  cases o with
  | set n g v =>
    obtain ⟨k, hk, hv⟩ := ho
    refine ⟨?_, ?_⟩
    · rw [hset n (.py v) _ (fun m => rfl)]
      show HStepOk t (wrhd c t n g v) _
      unfold wrhd
      rw [hk]
      simp only
      rw [wrhd_ops c g n k v hk hv]
      exact write_rel h c n g (.py v) (itype_name n k hk) ⟨k, hk, hv⟩
    · intro m a ha
      have ha' : (if n = m then some (Asg.py v) else none) = some a := ha
      split at ha'
      · rename_i hnm
        subst hnm
        cases ha'
        exact ⟨k, hk, hv⟩
      · cases ha'
  | put n g x =>
    refine ⟨?_, ?_⟩
    · rw [hset n (.num x) _ (fun m => rfl)]
      show HStepOk t (putNum t n g x) _
      unfold putNum
      rw [typed_chunks]
      exact write_rel h c n g (.num x) (Or.inl ho.1) ho.2
    · intro m a ha
      have ha' : (if n = m then some (Asg.num x) else none) = some a := ha
      split at ha'
      · cases ha'
        exact ho.2
      · cases ha'
  | puta n g s =>
    refine ⟨?_, ?_⟩
    · rw [hset n (.chars s) _ (fun m => rfl)]
      exact write_rel h c n g (.chars s) (Or.inl ho.1) ho.2
    · intro m a ha
      have ha' : (if n = m then some (Asg.chars s) else none) = some a := ha
      split at ha'
      · cases ha'
        exact ho.2
      · cases ha'
  | flush g => exact ⟨step_ofT (tstep_rel h (.flush g) trivial), fun m a ha => by cases ha⟩
  | reopen g => exact ⟨step_ofT (tstep_rel h (.reopen g) trivial), fun m a ha => by cases ha⟩

theorem lastOf_cons (o : HOp) (os : List HOp) (n : Name) :
    lastOf (o :: os) n = (lastOf os n).or (assigns n o) := by
  unfold lastOf
  rw [List.reverse_cons, List.findSome?_append]
  congr 1
  rw [List.findSome?_cons]
  cases assigns n o <;> rfl

/-- at most 1022 different items are assigned -/
def Few (ops : List HOp) : Prop :=
  ∃ names : List Name, names.length < 1023 ∧ ∀ o ∈ ops, ∀ n a, assigns n o = some a → n ∈ names

theorem items_few {t : Tree} {D : Dataset} (h : Rel t D) (names : List Name) (hD : ∀ n F, D n = some F → n ∈ names) :
    t.items.length ≤ names.length := by
  have hsub : t.items.map (·.name) ⊆ names := by
    intro n hn
    rw [List.mem_map] at hn
    obtain ⟨e, he, rfl⟩ := hn
    obtain ⟨_, _, F, hF, _⟩ := h.items.ent e he
    exact hD _ F hF
  have := (List.subperm_of_subset h.items.nodup hsub).length_le
  rw [List.length_map] at this
  exact this

theorem hrun_rel (c : Conv) (names : List Name) (hlen : names.length < 1023) : ∀ (ops : List HOp) (t : Tree) (D : Dataset),
    Rel t D → (∀ n F, D n = some F → n ∈ names) → (∀ o ∈ ops, HOk o) →
    (∀ o ∈ ops, ∀ n a, assigns n o = some a → n ∈ names) →
      ∃ t' D', hrun c t ops = .ok t' ∧ Rel t' D' ∧ t'.items.length < 1023 ∧
        (∀ n, D' n = ((lastOf ops n).map (fun a => flatOf n (chunksOf c n a))).or (D n)) ∧
        ∀ n a, lastOf ops n = some a → AsgOk n a
  | [], t, D, h, hD, _, _ => by
    have := items_few h names hD
    exact ⟨t, D, rfl, h, by omega, fun n => rfl, fun n a ha => by cases ha⟩
  | o :: os, t, D, h, hD, ho, hnm => by
    have hfew := items_few h names hD
    obtain ⟨hs, hasg⟩ := hstep_rel h c o (ho o List.mem_cons_self)
    rcases hs with ⟨e, hc⟩ | ⟨t1, e, h1, hl⟩
    · omega
    · rw [hrun, e]
      have hD1 : ∀ n F, after c D o n = some F → n ∈ names := by
        intro n F hF
        unfold after at hF
        cases ha : assigns n o with
        | none =>
          rw [ha] at hF
          exact hD n F hF
        | some a => exact hnm o List.mem_cons_self n a ha
      obtain ⟨t2, D2, e2, h2, hl2, hD2, ha⟩ := hrun_rel c names hlen os t1 _ h1 hD1
        (fun x hx => ho x (List.mem_cons_of_mem _ hx)) (fun x hx => hnm x (List.mem_cons_of_mem _ hx))
      refine ⟨t2, D2, e2, h2, hl2, fun n => ?_, fun n a hla => ?_⟩
      · rw [hD2 n, lastOf_cons]
        cases hlo : lastOf os n with
        | some a => rfl
        | none =>
          simp only [Option.map_none, Option.none_or]
          unfold after
          cases assigns n o <;> rfl
      · rw [lastOf_cons] at hla
        cases hlo : lastOf os n with
        | some a' =>
          rw [hlo] at hla
          exact ha n a (by rw [hlo]; exact hla)
        | none =>
          rw [hlo] at hla
          exact hasg n a hla

/-! ## Reading back -/

theorem flat_holds (n : Name) (cs : List Chunk) (ha : Asc 0 cs) :
    (flatOf n cs).size = endOf 0 cs ∧ ∀ x ∈ cs, Holds (flatOf n cs) x := by
  obtain ⟨-, h1, -, h2⟩ := asc_fold (fun _ => 0) cs 0 (Flat.none (decide (n = hist))) rfl (fun _ => Nat.zero_le _) ha
  exact ⟨h1, h2⟩

theorem text_back : ∀ (cs : List Nat), (∀ ch ∈ cs, 0 < ch ∧ ch < 128) →
    text (cs.map fun ch => [charByte ch]) = .ok cs
  | [], _ => rfl
  | ch :: rest, h => by
    obtain ⟨h1, h2⟩ := h ch List.mem_cons_self
    have hb : ((List.headD [charByte ch] 0).toNat) = ch := by
      show (charByte ch).toNat = ch
      unfold charByte
      rw [if_pos (by omega)]
      show ch % 256 = ch
      omega
    rw [List.map_cons, text]
    simp only [hb]
    rw [if_neg (by omega), if_neg (by omega), text_back rest (fun x hx => h x (List.mem_cons_of_mem _ hx))]
    rfl

theorem fuel_ok {it : Item} {F : Flat} (h : Inv 1 it F) (cs : List Chunk) (pos : Nat) (ha : Asc pos cs)
    (hend : endOf pos cs = F.size) : cs.length < it.size + 1 := by
  have : ∀ (cs : List Chunk) (pos : Nat), Asc pos cs → pos + cs.length ≤ endOf pos cs := by
    intro cs
    induction cs with
    | nil => intro pos _; exact Nat.le_refl _
    | cons x cs ih =>
      intro pos ha
      obtain ⟨s, o, bs⟩ := x
      obtain ⟨_, _, h3, _, h5, _, _, _, _, h10⟩ := ha
      have := ih _ h10
      have hl : 0 < bs.length := List.length_pos_iff.mpr h3
      show pos + (cs.length + 1) ≤ endOf (o + bs.length) cs
      omega
  have h1 := this cs pos ha
  have h2 := inv_size h
  omega

/-- an item of numbers -/
theorem readItem_num (c : Conv) (n : Name) (g : Nat → Byte) (ty : Ty) (bss : List (List Byte)) (it : Item)
    (ha : Asc 0 (typedChunks ty bss)) (hb : ∀ bs ∈ bss, bs.length = ty.size)
    (h : Inv 1 it (flatOf n (typedChunks ty bss))) (hf : Fresh it) :
    readItem c it g (.num ty) = .ok (collapse (bss.map (elemOf c ty))) := by
  obtain ⟨hsz, hh⟩ := flat_holds n _ ha
  have hrat := fresh_rat hf
  have hts := ty_size ty
  have ht4 : ty.tag.length = 4 := hts.2.2.1
  obtain ⟨it1, e1, i1, at1⟩ := read_chunk h hrat g (s := 1) (o := 0) (bs := ty.tag) (by decide) (by decide)
    (Nat.one_dvd _) (by cases ty <;> decide) (Or.inr rfl) (hh _ List.mem_cons_self)
  rw [ht4] at e1 at1
  unfold readItem
  rw [e1]
  simp only
  rw [bytes_map, if_pos rfl]
  have ha2 : Asc 4 (chunksFrom ty.size ty.start bss) := by
    obtain ⟨_, _, _, _, _, _, _, _, _, h10⟩ := ha
    rw [ht4] at h10
    exact h10
  have hsz2 : (flatOf n (typedChunks ty bss)).size = endOf 4 (chunksFrom ty.size ty.start bss) := by
    rw [hsz]
    show endOf (0 + ty.tag.length) _ = _
    rw [ht4]
  have hfu := fuel_ok h _ _ ha2 hsz2.symm
  have hend : (flatOf n (typedChunks ty bss)).size < ty.start + ty.size * (0 + bss.length) + ty.size := by
    rw [hsz2]
    cases bss with
    | nil =>
      show 4 < _
      have := hts.2.2.2.1
      have := hts.2.2.2.2.2.2.1
      omega
    | cons bs rest =>
      have : endOf 4 (chunksFrom ty.size ty.start (bs :: rest)) =
          endOf ty.start (chunksFrom ty.size ty.start (bs :: rest)) := rfl
      rw [this, chunksFrom_end ty.size _ _ hb, Nat.zero_add]
      have := hts.2.2.2.2.2.2.1
      omega
  rw [readPlan_right (F := flatOf n (typedChunks ty bss)) g _ (chunksFrom ty.size ty.start bss) 0 _ it1 4 i1 at1 ha2
    (fun x hx => ⟨hh x (List.mem_cons_of_mem _ hx), by
      obtain ⟨m1, m2⟩ := chunksFrom_mem _ _ _ _ hx
      rw [m1, hb _ m2]⟩)
    (fun i x hx => by
      rw [Nat.zero_add]
      exact (chunksFrom_get _ _ _ _ _ hx).symm)
    (by rw [chunksFrom_length]; exact hend) hfu, chunksFrom_map]

theorem rdhd_rel {t : Tree} {D : Dataset} (h : Rel t D) (c : Conv) (n : Name) (g : Nat → Byte) (v : Val) (k : Kind)
    (hk : itype n = some k) (hv : ValOk n k v) (hD : D n = some (flatOf n (chunksOf c n (.py v)))) :
    (rdhd c t n g = .error .fatal ∧ 1024 ≤ t.items.length) ∨ rdhd c t n g = .ok (shown c k v) := by
  obtain ⟨ha, -⟩ := asg_asc c n (.py v) ⟨k, hk, hv⟩
  unfold rdhd openItem
  rw [hk]
  simp only
  rcases openRead_some h n _ hD (Nat.one_dvd _) g with ⟨e, hc⟩ | ⟨it, e, hI, hf⟩
  · left
    rw [e]
    exact ⟨rfl, hc⟩
  · right
    rw [e]
    simp only
    obtain ⟨hsz, hh⟩ := flat_holds n _ ha
    have hrat := fresh_rat hf
    have hfu := fuel_ok hI _ _ ha hsz.symm
    unfold chunksOf at ha hI hsz hh hfu
    rw [hk] at ha hI hsz hh hfu
    cases k with
    | text =>
      cases v with
      | str cs =>
        obtain ⟨h1, h2, h3⟩ := hv
        simp only at ha hI hsz hh hfu
        unfold readItem
        have hl : ∀ bs ∈ cs.map (fun ch => [charByte ch]), bs.length = 1 := by
          intro bs hbs
          rw [List.mem_map] at hbs
          obtain ⟨_, _, rfl⟩ := hbs
          rfl
        rw [readPlan_right g _ _ 0 _ it 0 hI hrat ha
          (fun x hx => ⟨hh x hx, by
            obtain ⟨m1, m2⟩ := chunksFrom_mem _ _ _ _ hx
            rw [m1, hl _ m2]⟩)
          (fun i x hx => by
            have := chunksFrom_get _ _ _ _ _ hx
            rw [this]
            simp)
          (by
            rw [hsz, chunksFrom_end 1 _ _ hl, chunksFrom_length]
            simp) hfu, chunksFrom_map, text_back cs h3]
        rfl
      | one => exact hv.elim
      | many => exact hv.elim
    | num ty =>
      cases v with
      | str cs => exact hv.elim
      | one e =>
        simp only at ha hI
        rw [readItem_num c n g ty _ it ha (fun bs hbs => by
          rw [List.mem_singleton.mp hbs]; exact (elem_length c ty e hv).1) hI hf]
        show Except.ok (Val.one (elemOf c ty (valBytes c ty e))) = _
        rw [elem_back c ty e hv]
        rfl
      | many l =>
        simp only at ha hI
        rw [readItem_num c n g ty _ it ha (fun bs hbs => by
          rw [List.mem_map] at hbs
          obtain ⟨e, he, rfl⟩ := hbs
          exact (elem_length c ty e (hv.1 e he)).1) hI hf]
        have : (l.map (valBytes c ty)).map (elemOf c ty) = l.map (shownE c) := by
          rw [List.map_map]
          apply List.map_congr_left
          intro e he
          exact elem_back c ty e (hv.1 e he)
        rw [this]
        cases l with
        | nil => rfl
        | cons e rest => cases rest <;> rfl
    | special =>
      cases v with
      | str cs => exact hv.elim
      | one e => exact hv.elim
      | many l =>
        cases l with
        | nil => exact hv.elim
        | cons e rest =>
          obtain ⟨h1, h2, h3⟩ := hv
          simp only at ha hI hsz hh hfu
          have he := (elem_length c .int e h1).1
          have h3' : ∀ j x, rest[j]? = some x → ElemOk (if (0 + j) % 3 = 0 then .int else .dble) x := by
            intro j x hj
            rw [Nat.zero_add]
            exact h3 j x hj
          obtain ⟨it1, e1, i1, at1⟩ := read_chunk hI hrat g (s := 4) (o := 0) (bs := valBytes c .int e) (by decide)
            (by decide) (by rw [he]; decide) (by intro hn; rw [hn] at he; cases he) (Or.inr rfl)
            (hh _ List.mem_cons_self)
          have he' : (valBytes c .int e).length = 4 := he
          rw [he'] at e1 at1
          unfold readItem
          rw [e1]
          simp only
          rw [bytes_map]
          have ha2 : Asc 4 (freqChunks c 0 rest) := by
            obtain ⟨_, _, _, _, _, _, _, _, _, h10⟩ := ha
            rw [he'] at h10
            exact h10
          have hend := freq_end c rest 0 4 h3' (by decide)
          have hsz' : (flatOf n ((4, 0, valBytes c .int e) :: freqChunks c 0 rest)).size =
              endOf 4 (freqChunks c 0 rest) := by
            rw [hsz]
            show endOf (0 + (valBytes c .int e).length) _ = _
            rw [he']
          have hfirst : Elem.int (signed32 (ofBe32 (valBytes c .int e))) = e := by
            have := elem_back c .int e h1
            cases e with
            | int m => exact this
            | float x => exact h1.elim
            | complex re im => exact h1.elim
          rw [readPlan_right g _ (freqChunks c 0 rest) 0 _ it1 4 i1 at1 ha2
            (fun x hx => ⟨hh x (List.mem_cons_of_mem _ hx), freq_mem c rest 0 h3' x hx⟩)
            (fun i x hx => (freq_get c rest 0 i x hx).symm)
            (by
              rw [hsz', freq_len]
              have : 0 < (if (0 + rest.length) % 3 = 0 then 4 else 8) := by split <;> decide
              show _ < 8 + 8 * (0 + rest.length) + _
              omega)
            (by
              have : ((4, 0, valBytes c .int e) :: freqChunks c 0 rest).length = (freqChunks c 0 rest).length + 1 := rfl
              omega),
            freq_back c rest 0 h3', hfirst]
          rfl

end Verif.Mir.Head
