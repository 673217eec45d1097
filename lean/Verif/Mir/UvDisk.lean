import Verif.Mir.UvStreamProps
import Verif.Mir.HioSeq

/-!
# The UV stream on disk: the model for property C81

`Verif.Mir.UvStream` says which `hwrite_c` calls the writer makes, and reads from the bytes of a file.  Here the calls are
made on an item of `Verif.Mir.Hio` (`hio_c` with its buffer, the header file for small items), and `uv_scan` reads from
such an item.
-/
namespace Verif.Mir.Uv

open Verif.Mir.Hio (Byte Item Flat Op hread OpOk WSeq At RAt Inv FInv MInv)

/-! ## The model -/

/-- the `hwrite_c` calls, `g` is the memory of a new buffer -/
def toOps (g : Nat → Byte) (l : List Write) : List Op := l.map fun wr => .write g wr.size wr.offset wr.bytes

/-- one step of a program that writes, with the item `visdata`: the calls of `uvputvr_c` and `uvnext_c` (uvio.c 1679-1773,
1296-1300) on the open item; `hdaccess_c` and `haccess_c(.., "append")` of `uvclose_c` and `uvopen_c` (706-875) -/
def dstep (g : Nat → Byte) (it : Item) (w : Writer) (e : Ev) : Option (Item × Writer) :=
  match wstep w e with
  | none => none
  | some w' =>
    match (if e = .reopen then Hio.reopen it g else Hio.run it (toOps g (w'.out.drop w.out.length))) with
    | .error _ => none
    | .ok it' => some (it', w')

def drun (g : Nat → Byte) : Item → Writer → List Ev → Option (Item × Writer)
  | it, w, [] => some (it, w)
  | it, w, e :: es => (dstep g it w e).bind fun p => drun g p.1 p.2 es

/-- the bytes of a read in memory -/
def got (r : List (Option Byte)) : List Byte := r.map (·.getD 0)

/-- the length of a variable, uvio.c 1898-1905 -/
def hsize (g : Nat → Byte) (it : Item) (v : RVar) (off i : Nat) : Item × Rec :=
  match hread it g 4 (off + HDR) 4 with
  | .error _ => (it, .bad)
  | .ok (it', r) => (it', checkSize v i (ofBe32 (got r)))

/-- the value of a variable, uvio.c 1919-1923 -/
def hdata (g : Nat → Byte) (it : Item) (v : RVar) (off i : Nat) : Item × Rec :=
  match hread it g v.ty.ext (off + roundup HDR v.ty.ext) v.flength with
  | .error _ => (it, .bad)
  | .ok (it', r) => (it', .data i (got r))

/-- what follows a record header -/
def hbody (g : Nat → Byte) (it : Item) (vars : List RVar) (off : Nat) (i c : Byte) : Item × Rec :=
  if c = 2 then (it, .eor)
  else
    match recVar vars i with
    | none => (it, .bad)
    | some v => if c = 0 then hsize g it v off i.toNat else if c = 1 then hdata g it v off i.toNat else (it, .bad)

/-- the record at `off`, read from the item, uvio.c 1879-1941 -/
def hrec (g : Nat → Byte) (it : Item) (maxOffset : Nat) (vars : List RVar) (off : Nat) : Item × Rec :=
  if maxOffset ≤ off then (it, .eof)
  else
    match hread it g 1 off HDR with
    | .error .eof => (it, .eof)
    | .error _ => (it, .bad)
    | .ok (it', r) => hbody g it' vars off ((got r).getD 0 0) ((got r).getD 2 0)

/-- the loop of `uv_scan`, uvio.c 1878-1949, on the item -/
def hscanLoop (g : Nat → Byte) (r : Reader) (callno : Nat) : Nat → Item → Loop → Item × Scan
  | 0, it, _ => (it, .bad)
  | fuel + 1, it, l =>
    match hrec g it r.maxOffset l.vars l.off with
    | (it', .eof) => (it', .eof { r with vars := l.vars, callno := callno, copy := l.copy })
    | (it', .bad) => (it', .bad)
    | (it', .eor) => (it', .ok { r with vars := l.vars, callno := callno, copy := l.copy, offset := l.off + ALIGN })
    | (it', rec) =>
      match applyRec callno l rec with
      | none => (it', .bad)
      | some l' => hscanLoop g r callno fuel it' l'

def hscan (g : Nat → Byte) (it : Item) (r : Reader) : Item × Scan :=
  hscanLoop g r (r.callno + 1) (r.maxOffset - r.offset + 1) it ⟨r.vars, r.offset, r.copy⟩

def hnext (g : Nat → Byte) (it : Item) (r : Reader) : Item × Scan :=
  hscan g it { r with mark := r.callno + 1, copy := false }

def hreadN (g : Nat → Byte) : Nat → Item → Reader → Option (Item × Reader)
  | 0, it, r => some (it, r)
  | n + 1, it, r =>
    match hnext g it r with
    | (it', .ok r') => hreadN g n it' r'
    | _ => none

/-! ## The writer -/

/-- a token whose bytes are whole elements -/
def Tok.Whole : Tok → Prop
  | .data _ ty bytes => bytes ≠ [] ∧ ty.ext ∣ bytes.length
  | _ => True

theorem putVar_toks (w : Writer) (i : Nat) (v : WVar) {n : Nat} (hn : 0 < n) {d : List Byte} (hd : d.length = v.ty.mem * n) :
    ∃ ts : List Tok, (∀ t ∈ ts, t.Whole) ∧ (putVar w i v d n).1.out = w.out ++ layout w.offset ts ∧
      (putVar w i v d n).1.offset = finL w.offset ts := by
  have hl := toFile_length v.ty n d hd
  have hne : toFile v.ty d ≠ [] := by
    intro h
    rw [h] at hl
    have := Nat.mul_pos (ext_pos v.ty) hn
    simp only [List.length_nil] at hl
    omega
  have hw : Tok.Whole (.data i v.ty (toFile v.ty d)) := ⟨hne, by rw [hl]; exact Nat.dvd_mul_right _ _⟩
  by_cases h1 : v.length ≠ v.ty.ext * n
  · refine ⟨[.size i (v.ty.ext * n), .data i v.ty (toFile v.ty d)], ?_, ?_, ?_⟩
    · intro t ht
      simp only [List.mem_cons, List.not_mem_nil, or_false] at ht
      rcases ht with rfl | rfl
      · trivial
      · exact hw
    · simp only [putVar, h1, if_true, true_or, ne_eq, not_false_eq_true, putSize, putData, layout, Tok.writes, Tok.fin,
        List.append_assoc, List.append_nil, List.cons_append, List.nil_append]
    · simp only [putVar, h1, if_true, true_or, ne_eq, not_false_eq_true, putSize, putData, finL, List.foldl_cons,
        List.foldl_nil, Tok.fin, hl]
  · by_cases h2 : v.nocheck = true ∨ v.buf ≠ d
    · refine ⟨[.data i v.ty (toFile v.ty d)], ?_, ?_, ?_⟩
      · intro t ht
        simp only [List.mem_cons, List.not_mem_nil, or_false] at ht
        rw [ht]; exact hw
      · simp only [putVar, h1, if_false, false_or, h2, if_true, putData, layout, Tok.writes, List.append_nil]
      · have h1' : v.length = v.ty.ext * n := by simpa using h1
        simp only [putVar, h1, if_false, false_or, h2, if_true, putData, finL, List.foldl_cons, List.foldl_nil, Tok.fin]
        rw [hl, h1']
    · exact ⟨[], by simp, by simp only [putVar, h1, if_false, false_or, h2, layout, List.append_nil],
        by simp only [putVar, h1, if_false, false_or, h2, finL, List.foldl_nil]⟩

theorem mkvar_frame {w w1 : Writer} {name : Name} {ty : Ty} {i : Nat} (h : mkvar w name ty = some (w1, i)) :
    w1.out = w.out ∧ w1.offset = w.offset := by
  unfold mkvar at h
  split at h
  · cases h; exact ⟨rfl, rfl⟩
  · split at h
    · cases h
    · split at h
      · cases h
      · cases h; exact ⟨rfl, rfl⟩

/-- the calls of a step are records one behind the other -/
theorem wstep_toks {w w' : Writer} {e : Ev} (h : wstep w e = some w') (hok : EvOk e) (hre : e ≠ .reopen) :
    ∃ ts : List Tok, (∀ t ∈ ts, t.Whole) ∧ w'.out = w.out ++ layout w.offset ts ∧ w'.offset = finL w.offset ts := by
  cases e with
  | put name ty d =>
    simp only [wstep] at h
    by_cases hn : d.length / ty.mem = 0
    · unfold put at h
      simp only [if_pos hn] at h
      cases h
      exact ⟨[], by simp, by simp [layout], rfl⟩
    · obtain ⟨w1, i, v, h1, h2, h3, rfl⟩ := put_some h hn
      obtain ⟨f1, f2⟩ := mkvar_frame h1
      have hd : d.length = v.ty.mem * (d.length / ty.mem) := by
        rw [h3]
        have := hok.1
        have := Nat.div_add_mod d.length ty.mem
        omega
      obtain ⟨ts, t1, t2, t3⟩ := putVar_toks w1 i v (Nat.pos_of_ne_zero hn) hd
      rw [f1, f2] at t2
      rw [f2] at t3
      exact ⟨ts, t1, t2, t3⟩
  | noCheck name ty =>
    obtain ⟨w1, i, v, h1, h2, rfl⟩ := noCheck_some h
    obtain ⟨f1, f2⟩ := mkvar_frame h1
    exact ⟨[], by simp, by simp [layout, f1], f2⟩
  | next =>
    simp only [wstep, Option.some.injEq] at h
    subst h
    exact ⟨[.eor], by simp [Tok.Whole], by simp [next, layout, Tok.writes], rfl⟩
  | reopen => exact absurd rfl hre

/-- the flat file and the place the writer is at -/
structure Tied (w : Nat) (F : Flat) : Prop where
  aligned : w % 8 = 0
  le : F.size ≤ w
  near : w < F.size + 8
  big : F.big = decide (64 < F.size)
  lt : ∀ p b, F.known p = some b → p < F.size

theorem wseq_append {a b : List Op} : ∀ {pos : Nat} {F : Flat}, WSeq pos F a → (∀ p, WSeq p (a.foldl Flat.step F) b) →
    WSeq pos F (a ++ b) := by
  induction a with
  | nil => intro pos F _ h; exact h pos
  | cons x a ih =>
    intro pos F h hb
    cases x with
    | write g s o data =>
      obtain ⟨h1, h2, h3, h4, h5, h6⟩ := h
      exact ⟨h1, h2, h3, h4, h5, ih h6 hb⟩
    | read => exact h.elim
    | reopen => exact h.elim

/-- the flat file holds what was written -/
def Kept (F : Flat) (l : List Write) : Prop :=
  ∀ wr ∈ l, wr.offset + wr.bytes.length ≤ F.size ∧
    ∀ k, (h : k < wr.bytes.length) → F.known (wr.offset + k) = some wr.bytes[k]

/-- nothing is lost -/
def More (F F' : Flat) : Prop := F.size ≤ F'.size ∧ ∀ p b, F.known p = some b → F'.known p = some b

theorem More.trans {A B C : Flat} (h1 : More A B) (h2 : More B C) : More A C :=
  ⟨Nat.le_trans h1.1 h2.1, fun p b h => h2.2 p b (h1.2 p b h)⟩

theorem Kept.more {F F' : Flat} {l : List Write} (h : Kept F l) (hm : More F F') : Kept F' l := fun wr hw =>
  ⟨Nat.le_trans (h wr hw).1 hm.1, fun k hk => hm.2 _ _ ((h wr hw).2 k hk)⟩

theorem Kept.append {F : Flat} {a b : List Write} (ha : Kept F a) (hb : Kept F b) : Kept F (a ++ b) := by
  intro wr hw
  rcases List.mem_append.1 hw with h | h
  · exact ha wr h
  · exact hb wr h

/-- the state within a record: the end of the flat file -/
structure Ended (F : Flat) : Prop where
  big : F.big = decide (64 < F.size)
  lt : ∀ p b, F.known p = some b → p < F.size

theorem Tied.ended {w : Nat} {F : Flat} (h : Tied w F) : Ended F := ⟨h.big, h.lt⟩

/-- one write at the end or a little behind it -/
theorem ended_write {F : Flat} (h : Ended F) (g : Nat → Byte) (s o pos : Nat) (data : List Byte) (hne : data ≠ [])
    (ho : F.size ≤ o) (hn : o < F.size + 8) (h0 : F.size = 0 → o = 0) (hs : s ∣ 8) (hso : s ∣ o) (hsd : s ∣ data.length)
    (hal : 8 ∣ o ∨ o = pos) (hb : o + data.length ≤ 2 ^ 31) :
    WSeq pos F (toOps g [⟨s, o, data⟩]) ∧ Ended (F.step (.write g s o data)) ∧
      More F (F.step (.write g s o data)) ∧ Kept (F.step (.write g s o data)) [⟨s, o, data⟩] ∧
      (F.step (.write g s o data)).size = o + data.length := by
  have hpos : 0 < data.length := List.length_pos_iff.mpr hne
  have hsz : (F.step (.write g s o data)).size = o + data.length := by
    show max F.size (o + data.length) = _
    omega
  refine ⟨⟨hs, hso, hsd, hal, ⟨Nat.dvd_refl 1, Nat.one_dvd _, Nat.one_dvd _, hne, hb, ?_⟩, trivial⟩, ⟨?_, ?_⟩, ⟨?_, ?_⟩, ?_,
    hsz⟩
  · by_cases hc : 64 < F.size
    · left; rw [h.big, decide_eq_true hc]
    · right
      by_cases hz : F.size = 0
      · left; show o ≤ F.size; have := h0 hz; omega
      · right; show 0 < F.size ∧ o < 16384; omega
  · rw [hsz]
    show (F.big || decide (64 < o + data.length)) = _
    rw [h.big]
    by_cases hc : 64 < F.size
    · rw [decide_eq_true hc, decide_eq_true (by omega)]; rfl
    · rw [decide_eq_false hc, Bool.false_or]
  · intro p b hp
    rw [hsz]
    change (if o ≤ p ∧ p < o + data.length then data[p - o]? else F.known p) = some b at hp
    split at hp
    · omega
    · have := h.lt p b hp
      omega
  · rw [hsz]; omega
  · intro p b hp
    show (if o ≤ p ∧ p < o + data.length then data[p - o]? else F.known p) = some b
    have := h.lt p b hp
    rw [if_neg (by omega)]
    exact hp
  · intro wr hw
    simp only [List.mem_cons, List.not_mem_nil, or_false] at hw
    subst hw
    refine ⟨by rw [hsz]; exact Nat.le_refl _, fun k hk => ?_⟩
    show (if o ≤ o + k ∧ o + k < o + data.length then data[o + k - o]? else F.known (o + k)) = some data[k]
    have hk' : k < data.length := hk
    rw [if_pos (by omega), show o + k - o = k by omega, List.getElem?_eq_getElem hk']

theorem ext_cases (ty : Ty) : ty.ext = 1 ∨ ty.ext = 2 ∨ ty.ext = 4 ∨ ty.ext = 8 := by cases ty <;> simp [Ty.ext]

theorem hdr_ext (ty : Ty) : ty.ext ∣ 8 ∧ ty.ext ∣ roundup HDR ty.ext ∧
    (roundup HDR ty.ext = 4 ∨ roundup HDR ty.ext = 8) := by
  cases ty <;> decide

/-- the writes of one record -/
theorem tok_wseq {off : Nat} {F : Flat} (h : Tied off F) (g : Nat → Byte) (t : Tok) (ht : t.Whole)
    (hb : t.fin off ≤ 2 ^ 31) : (∀ pos, WSeq pos F (toOps g (t.writes off))) ∧
      Tied (t.fin off) ((toOps g (t.writes off)).foldl Flat.step F) ∧
      More F ((toOps g (t.writes off)).foldl Flat.step F) ∧
      Kept ((toOps g (t.writes off)).foldl Flat.step F) (t.writes off) := by
  have hle := h.le
  have hnear := h.near
  have hal := h.aligned
  have h8 : 8 ∣ off := Nat.dvd_of_mod_eq_zero hal
  have h0 : F.size = 0 → off = 0 := by omega
  have hdr : ∀ i c, (header i c).length = 4 := fun _ _ => rfl
  have hlt := t.lt_fin off
  cases t with
  | eor =>
    have hfin : Tok.fin off .eor = off + 8 := rfl
    obtain ⟨_, e2, e3, e4, e5⟩ := ended_write h.ended g 1 off 0 (header 0 2) (by simp [header]) hle (by omega) h0
      (by decide) (Nat.one_dvd _) (Nat.one_dvd _) (Or.inl h8) (by rw [hdr]; omega)
    rw [hdr] at e5
    refine ⟨fun pos => (ended_write h.ended g 1 off pos (header 0 2) (by simp [header]) hle (by omega) h0
      (by decide) (Nat.one_dvd _) (Nat.one_dvd _) (Or.inl h8) (by rw [hdr]; omega)).1, ?_, e3, e4⟩
    refine ⟨by omega, ?_, ?_, e2.big, e2.lt⟩
    · show (F.step (.write g 1 off (header 0 2))).size ≤ _
      omega
    · show _ < (F.step (.write g 1 off (header 0 2))).size + 8
      omega
  | size i len =>
    have hfin : Tok.fin off (.size i len) = off + 8 := rfl
    have hbl : (be32 len).length = 4 := rfl
    have e := fun pos => ended_write h.ended g 1 off pos (header i 0) (by simp [header]) hle (by omega) h0
      (by decide) (Nat.one_dvd _) (Nat.one_dvd _) (Or.inl h8) (by rw [hdr]; omega)
    obtain ⟨_, e2, e3, e4, e5⟩ := e 0
    rw [hdr] at e5
    obtain ⟨d1, d2, d3, d4, d5⟩ := ended_write e2 g 4 (off + 4) (off + 4) (be32 len) (by simp [be32]) (by omega) (by omega)
      (by omega) (by decide) (by omega) (by rw [hbl]; exact Nat.dvd_refl 4) (Or.inr rfl) (by rw [hbl]; omega)
    rw [hbl] at d5
    refine ⟨fun pos => ?_, ?_, e3.trans d3, (e4.more d3).append d4⟩
    · obtain ⟨a1, a2, a3, a4, a5, _⟩ := (e pos).1
      exact ⟨a1, a2, a3, a4, a5, d1⟩
    · have d5' : ((toOps g (Tok.writes off (.size i len))).foldl Flat.step F).size = off + 4 + 4 := d5
      exact ⟨by omega, by omega, by omega, d2.big, d2.lt⟩
  | data i ty bytes =>
    obtain ⟨hne, hdv⟩ := ht
    have hfin : Tok.fin off (.data i ty bytes) = roundup (off + roundup HDR ty.ext + bytes.length) ALIGN := rfl
    obtain ⟨r1, r2, r3⟩ := roundup8 (off + roundup HDR ty.ext + bytes.length)
    obtain ⟨x1, x2, x3⟩ := hdr_ext ty
    have e := fun pos => ended_write h.ended g 1 off pos (header i 1) (by simp [header]) hle (by omega) h0
      (by decide) (Nat.one_dvd _) (Nat.one_dvd _) (Or.inl h8) (by rw [hdr]; omega)
    obtain ⟨_, e2, e3, e4, e5⟩ := e 0
    rw [hdr] at e5
    obtain ⟨d1, d2, d3, d4, d5⟩ := ended_write e2 g ty.ext (off + roundup HDR ty.ext) (off + 4) bytes hne (by omega)
      (by omega) (by omega) x1 (Nat.dvd_add (Nat.dvd_trans x1 h8) x2) hdv (by
        rcases x3 with x | x
        · right; omega
        · left; omega) (by omega)
    refine ⟨fun pos => ?_, ?_, e3.trans d3, (e4.more d3).append d4⟩
    · obtain ⟨a1, a2, a3, a4, a5, _⟩ := (e pos).1
      exact ⟨a1, a2, a3, a4, a5, d1⟩
    · have d5' : ((toOps g (Tok.writes off (.data i ty bytes))).foldl Flat.step F).size =
          off + roundup HDR ty.ext + bytes.length := d5
      exact ⟨by omega, by omega, by omega, d2.big, d2.lt⟩

theorem toOps_append (g : Nat → Byte) (a b : List Write) : toOps g (a ++ b) = toOps g a ++ toOps g b := by
  simp [toOps]

theorem toks_wseq (g : Nat → Byte) (ts : List Tok) : ∀ {off : Nat} {F : Flat}, Tied off F → (∀ t ∈ ts, t.Whole) →
    finL off ts ≤ 2 ^ 31 → (∀ pos, WSeq pos F (toOps g (layout off ts))) ∧
      Tied (finL off ts) ((toOps g (layout off ts)).foldl Flat.step F) ∧
      More F ((toOps g (layout off ts)).foldl Flat.step F) ∧
      Kept ((toOps g (layout off ts)).foldl Flat.step F) (layout off ts) := by
  induction ts with
  | nil =>
    intro off F h _ _
    exact ⟨fun _ => trivial, h, ⟨Nat.le_refl _, fun _ _ h => h⟩, fun wr hw => by simp [layout] at hw⟩
  | cons t ts ih =>
    intro off F h ht hb
    have hge := finL_ge (t.fin off) ts
    rw [finL_cons] at hb ⊢
    obtain ⟨a1, a2, a3, a4⟩ := tok_wseq h g t (ht t List.mem_cons_self) (by omega)
    obtain ⟨b1, b2, b3, b4⟩ := ih a2 (fun t' h' => ht t' (List.mem_cons_of_mem _ h')) hb
    rw [layout, toOps_append, List.foldl_append]
    exact ⟨fun pos => wseq_append (a1 pos) b1, b2, a3.trans b3, (a4.more b3).append b4⟩

theorem at_zero {it : Item} {pos : Nat} (h : At it pos) : At it 0 := ⟨h.1, Or.inl rfl⟩

/-- a session of writes -/
theorem run_wseq : ∀ (ops : List Op) (it : Item) (F : Flat) (pos : Nat), Inv 1 it F → At it pos → WSeq pos F ops →
    ∃ it', Hio.run it ops = .ok it' ∧ Inv 1 it' (ops.foldl Flat.step F) ∧ At it' 0
  | [], it, _, _, h, hat, _ => ⟨it, rfl, h, at_zero hat⟩
  | .write g s o data :: os, it, F, pos, h, hat, ⟨h1, h2, h3, h4, h5, h6⟩ => by
    obtain ⟨w1, w2⟩ := Hio.hwrite_whole h1 it F h pos hat g o data h2 h3 h4 h5
    obtain ⟨it1, e1, i1⟩ := Hio.hwrite_inv (by decide) it F h g 1 o data h5
    obtain ⟨it2, r1, r2, r3⟩ := run_wseq os it1 (F.step (.write g s o data)) (o + data.length) i1 (w2 it1 e1) h6
    have s1 : Hio.step it (.write g s o data) = .ok it1 := w1.trans e1
    refine ⟨it2, ?_, r2, r3⟩
    rw [Hio.run, s1]
    exact r1
  | .read _ _ _ _ :: _, _, _, _, _, _, h => h.elim
  | .reopen _ :: _, _, _, _, _, _, h => h.elim

/-- the item, the flat file and the writer -/
structure Disk (it : Item) (F : Flat) (w : Writer) : Prop where
  inv : Inv 1 it F
  pos : At it 0
  tied : Tied w.offset F
  kept : Kept F w.out

theorem roundup_of_aligned {a : Nat} (h : a % 8 = 0) : roundup a ALIGN = a := by
  unfold roundup ALIGN
  omega

theorem dstep_ok {g : Nat → Byte} {it : Item} {F : Flat} {w w' : Writer} {e : Ev} (h : Disk it F w)
    (hw : wstep w e = some w') (hok : EvOk e) (hb : w'.offset ≤ 2 ^ 31) (hre : e = .reopen → 0 < w.offset) :
    ∃ it' F', dstep g it w e = some (it', w') ∧ Disk it' F' w' := by
  by_cases hc : e = .reopen
  · subst hc
    have hw' : w' = reopen w := by
      simp only [wstep, Option.some.injEq] at hw
      exact hw.symm
    have hpos : 0 < F.size := by
      have := hre rfl
      have := h.tied.near
      have := h.tied.aligned
      omega
    obtain ⟨it1, e1, i1⟩ := Hio.reopen_inv it F h.inv g (Or.inr hpos)
    have hat := Hio.reopen_rat e1 i1
    refine ⟨it1, F, ?_, i1, hat.1, ?_, ?_⟩
    · unfold dstep
      rw [hw]
      simp only [if_true, e1]
    · rw [hw']
      have := h.tied
      show Tied (roundup w.offset ALIGN) F
      rw [roundup_of_aligned this.aligned]
      exact this
    · rw [hw']; exact h.kept
  · obtain ⟨ts, t1, t2, t3⟩ := wstep_toks hw hok hc
    rw [t3] at hb
    obtain ⟨a1, a2, a3, a4⟩ := toks_wseq g ts h.tied t1 hb
    obtain ⟨it', r1, r2, r3⟩ := run_wseq _ it F 0 h.inv h.pos (a1 0)
    refine ⟨it', _, ?_, r2, r3, by rw [t3]; exact a2, by rw [t2]; exact (h.kept.more a3).append a4⟩
    unfold dstep
    rw [hw]
    simp only [if_neg hc, t2, List.drop_left, r1]

/-- every session but the last wrote something -/
def SomeData : Writer → List Ev → Prop
  | _, [] => True
  | w, e :: es => (e = .reopen → 0 < w.offset) ∧ ∀ w', wstep w e = some w' → SomeData w' es

theorem drun_ok {g : Nat → Byte} {h : List Ev} : ∀ {it : Item} {F : Flat} {w w' : Writer}, Disk it F w →
    wrun w h = some w' → HistOk h → w'.offset ≤ 2 ^ 31 → SomeData w h →
    ∃ it' F', drun g it w h = some (it', w') ∧ Disk it' F' w' := by
  induction h with
  | nil =>
    intro it F w w' hd hr _ _ _
    simp only [wrun, Option.some.injEq] at hr
    subst hr
    exact ⟨it, F, rfl, hd⟩
  | cons e es ih =>
    intro it F w w' hd hr hok hb hs
    simp only [wrun] at hr
    cases hw : wstep w e with
    | none => rw [hw] at hr; simp at hr
    | some w1 =>
      rw [hw] at hr
      have hle := wrun_offset hr
      obtain ⟨it1, F1, d1, d2⟩ := dstep_ok (g := g) hd hw (hok e List.mem_cons_self) (Nat.le_trans hle hb) hs.1
      obtain ⟨it2, F2, r1, r2⟩ := ih d2 hr (fun x hx => hok x (List.mem_cons_of_mem _ hx)) hb (hs.2 w1 hw)
      refine ⟨it2, F2, ?_, r2⟩
      rw [drun, d1]
      exact r1

theorem disk_new (d : Nat → Byte) : Disk (Hio.newItem d) ⟨fun _ => none, 0, false⟩ newWriter := by
  refine ⟨Hio.start_inv .new d d trivial, ⟨rfl, Or.inl rfl⟩, ⟨rfl, Nat.le_refl _, by decide, rfl, ?_⟩, ?_⟩
  · intro p b hp; cases hp
  · intro wr hw; cases hw

/-! ## The reader -/

/-- an item that is read, and its bytes -/
structure Loaded (it : Item) (F : Flat) (f : Nat → Byte) : Prop where
  inv : Inv 1 it F
  pos : RAt it 0
  total : ∀ p, p < F.size → F.known p = some (f p)

theorem rat_zero {it : Item} {pos : Nat} (h : RAt it pos) : RAt it 0 := ⟨at_zero h.1, h.2⟩

theorem inv_size {it : Item} {F : Flat} (h : Inv 1 it F) : it.size = F.size := by
  have := h.2
  split at this
  · exact this.size
  · exact this.size

/-- nothing to read -/
theorem hread_zero {it : Item} {F : Flat} (h : Inv 1 it F) (g : Nat → Byte) (s o : Nat) (ho : o ≤ F.size) :
    hread it g s o 0 = .ok (it, []) := by
  have hsz := inv_size h
  unfold Hio.hread
  rw [if_neg (by omega)]
  have hp : Hio.prepare it (o + 0) g = it := by
    unfold Hio.prepare
    have := h.2
    split at this
    · rw [if_neg (by have := this.bsize; show ¬(it.bsize < 16384 ∧ _); omega)]
    · have h1 := this.lb
      have h2 := this.len
      rw [if_neg (by omega)]
  rw [hp]
  rfl

/-- `hread_c` gives the bytes of the file, or the end of it -/
theorem hread_bytes {it : Item} {F : Flat} {f : Nat → Byte} (h : Loaded it F f) (g : Nat → Byte) {s o n pos : Nat} (hs : s ∣ 8)
    (ho : s ∣ o) (hn : s ∣ n) (hat : RAt it pos) (hal : 8 ∣ o ∨ o = pos) :
    (readBytes f F.size o n = none ∧ hread it g s o n = .error .eof) ∨
      ∃ it' r, hread it g s o n = .ok (it', r) ∧ readBytes f F.size o n = some (got r) ∧ Loaded it' F f ∧
        (0 < n → RAt it' (o + n)) := by
  by_cases hc : F.size < o + n
  · left
    unfold readBytes
    rw [if_pos hc]
    exact ⟨rfl, Hio.c45_end_of_file _ _ _ _ _ (by rw [inv_size h.inv]; exact hc)⟩
  · right
    unfold readBytes
    rw [if_neg hc]
    by_cases h0 : n = 0
    · subst h0
      exact ⟨it, [], hread_zero h.inv g s o (by omega), rfl, h, fun h => absurd h (by omega)⟩
    · have hp : 0 < n := Nat.pos_of_ne_zero h0
      obtain ⟨w1, w2⟩ := Hio.hread_whole hs it F h.inv pos hat g o n ho hn hp hal (by omega)
      obtain ⟨it1, bs, e1, l1, r1, i1⟩ := Hio.hread_inv (by decide) it F h.inv g 1 o n
        ⟨Nat.dvd_refl 1, Nat.one_dvd _, Nat.one_dvd _, by omega⟩
      have hra := w2 it1 _ e1
      refine ⟨it1, bs.map some, by rw [w1, e1], ?_, ⟨i1, rat_zero hra, h.total⟩, fun _ => hra⟩
      congr 1
      apply List.ext_getElem?
      intro k
      unfold got
      simp only [List.getElem?_map]
      rcases Nat.lt_or_ge k n with hk | hk
      · rw [List.getElem?_range hk, r1 k (f (o + k)) (by omega) (h.total _ (by omega))]
        rfl
      · rw [List.getElem?_eq_none (by simpa using hk), List.getElem?_eq_none (by omega)]
        rfl

/-- lengths are whole elements -/
def WholeVars (vars : List RVar) : Prop := ∀ v ∈ vars, v.ty.ext ∣ v.flength

theorem hrec_eq {it : Item} {F : Flat} {f : Nat → Byte} (h : Loaded it F f) (g : Nat → Byte) (m : Nat) {vars : List RVar}
    (hv : WholeVars vars) {off : Nat} (h8 : off % 8 = 0) :
    ∃ it', hrec g it m vars off = (it', readRec f F.size m vars off) ∧ Loaded it' F f := by
  have hd8 : 8 ∣ off := Nat.dvd_of_mod_eq_zero h8
  unfold hrec readRec
  by_cases hm : m ≤ off
  · rw [if_pos hm, if_pos hm]; exact ⟨it, rfl, h⟩
  rw [if_neg hm, if_neg hm]
  rcases hread_bytes h g (s := 1) (o := off) (n := HDR) (by decide) (Nat.one_dvd _) (Nat.one_dvd _) h.pos (Or.inl hd8) with
    ⟨b1, b2⟩ | ⟨it1, r, b1, b2, b3, b4⟩
  · rw [b2]
    unfold readBytes at b1
    have : F.size < off + HDR := by
      rcases Nat.lt_or_ge F.size (off + HDR) with hl | hl
      · exact hl
      · rw [if_neg (by omega)] at b1; cases b1
    rw [if_pos this]
    exact ⟨it, rfl, h⟩
  · rw [b1]
    simp only
    unfold readBytes at b2
    have hsz : ¬ F.size < off + HDR := by
      intro hl
      rw [if_pos hl] at b2; cases b2
    rw [if_neg hsz] at b2 ⊢
    have hg := Option.some.inj b2
    have g0 : (got r).getD 0 0 = f off := by rw [← hg]; rfl
    have g2 : (got r).getD 2 0 = f (off + 2) := by rw [← hg]; rfl
    rw [g0, g2]
    unfold hbody
    by_cases hc : f (off + 2) = 2
    · rw [if_pos hc, if_pos hc]; exact ⟨it1, rfl, b3⟩
    rw [if_neg hc, if_neg hc]
    cases hr : recVar vars (f off) with
    | none => exact ⟨it1, rfl, b3⟩
    | some v =>
      simp only
      have hra := b4 (by decide)
      by_cases h0 : f (off + 2) = 0
      · rw [if_pos h0, if_pos h0]
        unfold hsize readSize
        rcases hread_bytes b3 g (s := 4) (o := off + HDR) (n := 4) (by decide)
          (Nat.dvd_add (Nat.dvd_trans (by decide) hd8) (by decide)) (Nat.dvd_refl 4) hra (Or.inr rfl) with
          ⟨c1, c2⟩ | ⟨it2, r2, c1, c2, c3, _⟩
        · rw [c1, c2]; exact ⟨it1, rfl, b3⟩
        · rw [c1, c2]; exact ⟨it2, rfl, c3⟩
      · rw [if_neg h0, if_neg h0]
        by_cases h1 : f (off + 2) = 1
        · rw [if_pos h1, if_pos h1]
          unfold hdata readData
          obtain ⟨x1, x2, x3⟩ := hdr_ext v.ty
          have hvm : v ∈ vars := by
            unfold recVar at hr
            split at hr
            · cases hr
            · exact List.mem_of_getElem? hr
          rcases hread_bytes b3 g (s := v.ty.ext) (o := off + roundup HDR v.ty.ext) (n := v.flength) x1
            (Nat.dvd_add (Nat.dvd_trans x1 hd8) x2) (hv v hvm) hra (by
              rcases x3 with x | x
              · right; rw [x]
              · left; omega) with
            ⟨c1, c2⟩ | ⟨it2, r2, c1, c2, c3, _⟩
          · rw [c1, c2]; exact ⟨it1, rfl, b3⟩
          · rw [c1, c2]; exact ⟨it2, rfl, c3⟩
        · rw [if_neg h1, if_neg h1]; exact ⟨it1, rfl, b3⟩

/-- the records that are found change lengths to whole elements only -/
theorem applyRec_whole {f : Nat → Byte} {size m c : Nat} {l l' : Loop} (hv : WholeVars l.vars) (h8 : l.off % 8 = 0)
    (h : applyRec c l (readRec f size m l.vars l.off) = some l') : WholeVars l'.vars ∧ l'.off % 8 = 0 := by
  have hset : ∀ (i off : Nat) (v' : RVar), v'.ty.ext ∣ v'.flength → WholeVars (l.update i off v').vars := by
    intro i off v' hd v hm
    rcases List.mem_or_eq_of_mem_set hm with h | h
    · exact hv v h
    · rw [h]; exact hd
  generalize hr : readRec f size m l.vars l.off = rec at h
  cases rec with
  | eof => cases h
  | bad => cases h
  | eor => cases h
  | size i len =>
    unfold readRec at hr
    split at hr
    · cases hr
    · split at hr
      · cases hr
      · split at hr
        · cases hr
        · split at hr
          · cases hr
          · rename_i v hv'
            split at hr
            · unfold readSize at hr
              split at hr
              · cases hr
              · unfold checkSize at hr
                split at hr
                · cases hr
                · split at hr
                  · cases hr
                  · split at hr
                    · cases hr
                    · rename_i hmod
                      cases hr
                      simp only [applyRec] at h
                      have hvi : l.vars[(f l.off).toNat]? = some v := by
                        unfold recVar at hv'
                        split at hv'
                        · cases hv'
                        · exact hv'
                      rw [hvi] at h
                      have h := Option.some.inj h
                      subst h
                      refine ⟨hset _ _ _ ?_, ?_⟩
                      · show v.ty.ext ∣ ofBe32 _
                        exact Nat.dvd_of_mod_eq_zero (by simpa using hmod)
                      · show (l.off + 8) % 8 = 0
                        omega
            · split at hr
              · unfold readData at hr
                split at hr <;> cases hr
              · cases hr
  | data i bytes =>
    simp only [applyRec] at h
    cases hvi : l.vars[i]? with
    | none => rw [hvi] at h; cases h
    | some v =>
      rw [hvi] at h
      have h := Option.some.inj h
      subst h
      exact ⟨hset _ _ _ (hv v (List.mem_of_getElem? hvi)), roundup_aligned _⟩

/-- a reader between calls -/
structure Sound (r : Reader) : Prop where
  whole : WholeVars r.vars
  aligned : r.offset % 8 = 0

/-- the result of a scan -/
def Scan.Sound : Scan → Prop
  | .eof r => Uv.Sound r
  | .bad => True
  | .ok r => Uv.Sound r

theorem hscanLoop_eq (g : Nat → Byte) {F : Flat} {f : Nat → Byte} (r : Reader) (hr8 : r.offset % 8 = 0) (c : Nat) :
    ∀ (fuel : Nat) (it : Item) (l : Loop), Loaded it F f → WholeVars l.vars → l.off % 8 = 0 →
    ∃ it', hscanLoop g r c fuel it l = (it', scanLoop f F.size r c fuel l) ∧ Loaded it' F f ∧
      (scanLoop f F.size r c fuel l).Sound
  | 0, it, _, h, _, _ => ⟨it, rfl, h, trivial⟩
  | fuel + 1, it, l, h, hv, h8 => by
    obtain ⟨it1, e1, h1⟩ := hrec_eq h g r.maxOffset hv h8
    have ha := fun l' => applyRec_whole (f := f) (size := F.size) (m := r.maxOffset) (c := c) (l' := l') hv h8
    rw [hscanLoop, scanLoop, e1]
    generalize readRec f F.size r.maxOffset l.vars l.off = rec at ha
    cases rec with
    | eof => exact ⟨it1, rfl, h1, hv, hr8⟩
    | bad => exact ⟨it1, rfl, h1, trivial⟩
    | eor => exact ⟨it1, rfl, h1, hv, by show (l.off + 8) % 8 = 0; omega⟩
    | size i len =>
      simp only
      cases hx : applyRec c l (.size i len) with
      | none => exact ⟨it1, rfl, h1, trivial⟩
      | some l' =>
        obtain ⟨a, b⟩ := ha l' hx
        exact hscanLoop_eq g r hr8 c fuel it1 l' h1 a b
    | data i bytes =>
      simp only
      cases hx : applyRec c l (.data i bytes) with
      | none => exact ⟨it1, rfl, h1, trivial⟩
      | some l' =>
        obtain ⟨a, b⟩ := ha l' hx
        exact hscanLoop_eq g r hr8 c fuel it1 l' h1 a b

theorem hscan_eq (g : Nat → Byte) {F : Flat} {f : Nat → Byte} {it : Item} (h : Loaded it F f) {r : Reader} (hr : Sound r) :
    ∃ it', hscan g it r = (it', scan f F.size r) ∧ Loaded it' F f ∧ (scan f F.size r).Sound :=
  hscanLoop_eq g r hr.aligned _ _ it _ h hr.whole hr.aligned

theorem hnext_eq (g : Nat → Byte) {F : Flat} {f : Nat → Byte} {it : Item} (h : Loaded it F f) {r : Reader} (hr : Sound r) :
    ∃ it', hnext g it r = (it', rnext f F.size r) ∧ Loaded it' F f ∧ (rnext f F.size r).Sound :=
  hscan_eq g h (r := { r with mark := r.callno + 1, copy := false }) ⟨hr.whole, hr.aligned⟩

theorem hreadN_eq (g : Nat → Byte) {F : Flat} {f : Nat → Byte} : ∀ (n : Nat) (it : Item) (r r' : Reader), Loaded it F f →
    Sound r → readN f F.size n r = some r' → ∃ it', hreadN g n it r = some (it', r') ∧ Loaded it' F f ∧ Sound r'
  | 0, it, r, r', h, hr, hn => by
    simp only [readN, Option.some.injEq] at hn
    subst hn
    exact ⟨it, rfl, h, hr⟩
  | n + 1, it, r, r', h, hr, hn => by
    obtain ⟨it1, e1, h1, s1⟩ := hnext_eq g h hr
    rw [readN] at hn
    rw [hreadN, e1]
    cases hx : rnext f F.size r with
    | eof => rw [hx] at hn; cases hn
    | bad => rw [hx] at hn; cases hn
    | ok r1 =>
      rw [hx] at hn s1
      exact hreadN_eq g n it1 r1 r' h1 s1 hn

theorem sound_open (t : List (Name × Ty)) (n : Nat) : Sound (openReader t n) := by
  refine ⟨?_, rfl⟩
  intro v hv
  unfold openReader at hv
  obtain ⟨p, _, rfl⟩ := List.mem_map.1 hv
  exact Nat.dvd_zero _

theorem sound_rewind {r : Reader} (h : Sound r) : Sound (rewind r) := by
  refine ⟨?_, rfl⟩
  intro v hv
  unfold rewind at hv
  obtain ⟨p, hp, rfl⟩ := List.mem_map.1 hv
  exact h.whole p hp

/-- an item that was opened has some bytes, and among them those that were written -/
theorem loaded_of {it1 : Item} {F : Flat} (h1 : Inv 1 it1 F) (hrat : RAt it1 0)
    (hcl : F.big = true → it1.len = 0 ∧ it1.modified = false) :
    ∃ F' f, Loaded it1 F' f ∧ F'.size = F.size ∧ ∀ p b, F.known p = some b → f p = b := by
  cases hb : F.big with
  | true =>
    have hf := h1.2
    rw [hb, if_pos rfl] at hf
    have hlen := hcl hb
    have hfs : it1.fsize = F.size := by
      have := hf.size
      have := hf.fsz
      rcases hf.full with hx | ⟨hx, _⟩
      · omega
      · rw [hlen.2] at hx; cases hx
    refine ⟨⟨fun p => if p < F.size then some (it1.file p) else none, F.size, true⟩, it1.file, ⟨⟨h1.1, ?_⟩, hrat, ?_⟩, rfl, ?_⟩
    · rw [if_pos rfl]
      refine ⟨hf.fd, hf.bsize, hf.even, hf.dOff, hf.dLen, hf.dSize, hf.lenb, hf.fin, hf.mlen, hf.size, ?_, ?_, ?_, hf.fsz,
        hf.full⟩
      · intro p b hp
        simp only at hp
        split at hp
        · assumption
        · cases hp
      · intro p b _ hp1 hp2
        rw [hlen.1] at hp2
        omega
      · intro p b hp _
        simp only at hp
        split at hp
        · cases hp; exact ⟨by omega, rfl⟩
        · cases hp
    · intro p hp
      simp only [if_pos hp]
    · intro p b hp
      exact (hf.out p b hp (Or.inl hlen.2)).2
  | false =>
    have hf := h1.2
    rw [hb, if_neg (by decide)] at hf
    refine ⟨⟨fun p => if p < F.size then some (it1.buf p) else none, F.size, false⟩, it1.buf, ⟨⟨h1.1, ?_⟩, hrat, ?_⟩, rfl,
      hf.inbuf⟩
    · show MInv 1 it1 _
      refine ⟨hf.fd, hf.nc, hf.off, hf.len, hf.lb, hf.b64, hf.dLen, hf.mlen, hf.size, ?_, ?_⟩
      · intro p b hp
        simp only at hp
        split at hp
        · assumption
        · cases hp
      · intro p b hp
        simp only at hp
        split at hp
        · cases hp; rfl
        · cases hp
    · intro p hp
      simp only [if_pos hp]

/-- an item that is opened again -/
theorem reopen_ready {it it1 : Item} {F : Flat} {g : Nat → Byte} (he : Hio.reopen it g = .ok it1)
    (h1 : Inv 1 it1 F) : ∃ F' f, Loaded it1 F' f ∧ F'.size = F.size ∧ ∀ p b, F.known p = some b → f p = b := by
  refine loaded_of h1 (Hio.reopen_rat he h1) fun hb => ?_
  have hf := h1.2
  rw [hb, if_pos rfl] at hf
  have hfd : it1.fd = true := hf.fd
  unfold Hio.reopen at he
  split at he
  · cases he
  · split at he
    · cases he; exact ⟨rfl, rfl⟩
    · split at he
      · cases he
      · cases he
        rename_i hh _
        exact absurd hfd hh

/-! ## A data set on disk -/

/-- a program (or several, `reopen`) writes the item `visdata`, and another opens it to read; `d` is what was in the memory
of the first buffer -/
def stored (g d g' : Nat → Byte) (h : List Ev) : Option (Item × Writer) :=
  match drun g (Hio.newItem d) newWriter h with
  | none => none
  | some p =>
    match Hio.reopen p.1 g' with
    | .error _ => none
    | .ok it => some (it, p.2)

/-- the item can be written and read, and holds the bytes that were written -/
theorem stored_ok (g d g' : Nat → Byte) {h : List Ev} {w : Writer} (hr : wrun newWriter h = some w) (hok : HistOk h)
    (hb : w.offset ≤ 2 ^ 31) (hs : SomeData newWriter h) (h0 : 0 < w.offset) :
    ∃ it F f, stored g d g' h = some (it, w) ∧ Loaded it F f ∧ Holds f F.size w.out := by
  obtain ⟨it, F, h1, h2⟩ := drun_ok (g := g) (disk_new d) hr hok hb hs
  have hF : 0 < F.size := by
    have := h2.tied.near
    have := h2.tied.aligned
    omega
  obtain ⟨it1, e1, i1⟩ := Hio.reopen_inv it F h2.inv g' (Or.inr hF)
  obtain ⟨F', f, l1, l2, l3⟩ := reopen_ready e1 i1
  refine ⟨it1, F', f, ?_, l1, ?_⟩
  · unfold stored
    rw [h1]
    simp only [e1]
  · intro wr hw
    obtain ⟨a, b⟩ := h2.kept wr hw
    exact ⟨by omega, fun k hk => l3 _ _ (b k hk)⟩

/-- **C81**: what was put into the variables is read back through the buffers and files of the item layer. -/
theorem c81_variables (g d g' : Nat → Byte) {h : List Ev} {w : Writer} (hr : wrun newWriter h = some w) (hok : HistOk h)
    (h128 : (table w).length ≤ 128) (hb : w.offset ≤ 2 ^ 31) (hs : SomeData newWriter h) (h0 : 0 < w.offset) :
    ∃ it, stored g d g' h = some (it, w) ∧ ∀ n, n ≤ records h →
      ∃ it' r, hreadN g' n it (openReader (table w) w.offset) = some (it', r) ∧
        ∀ name ty v, Ev.put name ty v ∈ h → v ≠ [] → getvr r name ty = valueAfter (upTo n h) name ∧
          ∀ v', valueAfter (upTo n h) name = some v' → ∃ upd, probe r name = some (ty, v'.length / ty.mem, upd) := by
  obtain ⟨it, F, f, h1, h2, h3⟩ := stored_ok g d g' hr hok hb hs h0
  refine ⟨it, h1, fun n hn => ?_⟩
  obtain ⟨r, a, b⟩ := c47_variables hr hok h128 h3 n hn
  obtain ⟨it', e, _, _⟩ := hreadN_eq g' n it _ r h2 (sound_open _ _) a
  exact ⟨it', r, e, b⟩

/-- **C81**: and then the end is found. -/
theorem c81_end (g d g' : Nat → Byte) {h : List Ev} {w : Writer} (hr : wrun newWriter h = some w) (hok : HistOk h)
    (h128 : (table w).length ≤ 128) (hb : w.offset ≤ 2 ^ 31) (hs : SomeData newWriter h) (h0 : 0 < w.offset) :
    ∃ it it' it'' r r', stored g d g' h = some (it, w) ∧
      hreadN g' (records h) it (openReader (table w) w.offset) = some (it', r) ∧ hnext g' it' r = (it'', .eof r') := by
  obtain ⟨it, F, f, h1, h2, h3⟩ := stored_ok g d g' hr hok hb hs h0
  obtain ⟨r, r', a, b⟩ := c47_end hr hok h128 h3
  obtain ⟨it', e, l, s⟩ := hreadN_eq g' _ it _ r h2 (sound_open _ _) a
  obtain ⟨it'', e', _, _⟩ := hnext_eq g' l s
  rw [b] at e'
  exact ⟨it, it', it'', r, r', h1, e, e'⟩

/-- **C81**: the same item read again from the start. -/
theorem c81_rewind (g d g' : Nat → Byte) {h : List Ev} {w : Writer} (hr : wrun newWriter h = some w) (hok : HistOk h)
    (h128 : (table w).length ≤ 128) (hb : w.offset ≤ 2 ^ 31) (hs : SomeData newWriter h) (h0 : 0 < w.offset) :
    ∃ it, stored g d g' h = some (it, w) ∧ ∀ m n, m ≤ records h → n ≤ records h →
      ∃ it' it'' r r', hreadN g' m it (openReader (table w) w.offset) = some (it', r) ∧
        hreadN g' n it' (rewind r) = some (it'', r') ∧
        ∀ name ty v v', Ev.put name ty v ∈ h → v ≠ [] → valueAfter (upTo n h) name = some v' →
          getvr r' name ty = some v' ∧ ∃ upd, probe r' name = some (ty, v'.length / ty.mem, upd) := by
  obtain ⟨it, F, f, h1, h2, h3⟩ := stored_ok g d g' hr hok hb hs h0
  refine ⟨it, h1, fun m n hm hn => ?_⟩
  obtain ⟨r, r', a, b, c⟩ := c47_rewind hr hok h128 h3 m n hm hn
  obtain ⟨it', e, l, s⟩ := hreadN_eq g' m it _ r h2 (sound_open _ _) a
  obtain ⟨it'', e', _, _⟩ := hreadN_eq g' n it' _ r' l (sound_rewind s) b
  exact ⟨it', it'', r, r', e, e', c⟩

/-! ### A concrete case -/

def longValue : List Byte := List.replicate 20000 7

/-- three sessions; in the second a value that does not fit into one buffer -/
def diskDemo : List Ev :=
  [.put ['x'] .real [1, 2, 3, 4], .next, .reopen, .put ['y'] .byte longValue, .put ['x'] .dble [], .next,
   .reopen, .put ['x'] .real [5, 6, 7, 8, 9, 10, 11, 12], .next]

theorem diskDemo_ok : ∃ w, wrun newWriter diskDemo = some w ∧ HistOk diskDemo ∧ (table w).length ≤ 128 ∧
    w.offset ≤ 2 ^ 31 ∧ SomeData newWriter diskDemo ∧ 0 < w.offset := by
  have hx : (wrun newWriter diskDemo).any (fun w => decide ((table w).length ≤ 128 ∧ w.offset ≤ 2 ^ 31 ∧ 0 < w.offset)) =
      true := by decide +kernel
  rw [Option.any_eq_true_iff_get] at hx
  obtain ⟨hsome, hx⟩ := hx
  obtain ⟨x1, x2, x3⟩ := of_decide_eq_true hx
  refine ⟨_, (Option.some_get hsome).symm, ?_, x1, x2, ?_, x3⟩
  · intro e he
    simp only [diskDemo, List.mem_cons, List.not_mem_nil, or_false] at he
    rcases he with rfl | rfl | rfl | rfl | rfl | rfl | rfl | rfl | rfl
    · exact ⟨by decide, by decide, by simp⟩
    · trivial
    · trivial
    · exact ⟨by decide +kernel, by unfold longValue; rw [List.length_replicate]; decide, by simp⟩
    · exact ⟨by decide, by decide, by simp⟩
    · trivial
    · trivial
    · exact ⟨by decide, by decide, by simp⟩
    · trivial
  · refine ⟨by simp, fun w1 e1 => ⟨by simp, fun w2 e2 => ⟨fun _ => ?_, fun w3 e3 => ⟨by simp, fun w4 e4 => ⟨by simp, fun w5 e5 =>
      ⟨by simp, fun w6 e6 => ⟨fun _ => ?_, fun w7 e7 => ⟨by simp, fun w8 e8 => ⟨by simp, fun _ _ => trivial⟩⟩⟩⟩⟩⟩⟩⟩⟩
    · simp only [wstep, Option.some.injEq] at e2
      subst e2
      show 0 < w1.offset + 8
      omega
    · simp only [wstep, Option.some.injEq] at e6
      subst e6
      show 0 < w5.offset + 8
      omega

example (g d g' : Nat → Byte) : ∃ w it it' r, stored g d g' diskDemo = some (it, w) ∧
    hreadN g' 2 it (openReader (table w) w.offset) = some (it', r) ∧
    getvr r ['y'] .byte = some longValue ∧ getvr r ['x'] .real = some [1, 2, 3, 4] := by
  obtain ⟨w, h1, h2, h3, h4, h5, h6⟩ := diskDemo_ok
  obtain ⟨it, a, b⟩ := c81_variables g d g' h1 h2 h3 h4 h5 h6
  obtain ⟨it', r, e, v⟩ := b 2 (by decide)
  refine ⟨w, it, it', r, a, e, (v ['y'] .byte longValue (by simp [diskDemo]) ?_).1,
    (v ['x'] .real [1, 2, 3, 4] (by simp [diskDemo]) (by decide)).1⟩
  intro hc
  have := congrArg List.length hc
  unfold longValue at this
  rw [List.length_replicate] at this
  exact absurd this (by decide)

end Verif.Mir.Uv
