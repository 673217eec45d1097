import Verif.Mir.HeaderProps

/-!
Text in items: `hreada_c` and `hwritea_c` of mir/hio.c, lines that end with a newline.
-/

namespace Verif.Mir.Head

open Verif.Mir.Hio

/-- the newline -/
abbrev NL : Byte := 10

/-- `hfind_nl`, hio.c 1119-1127: the number of characters up to the first newline, or all of them -/
def findNl : List Byte → Nat
  | [] => 0
  | b :: bs => if b = NL then 1 else findNl bs + 1

/-- the characters of one turn -/
def piece (it : Item) (offset length : Nat) : List Byte :=
  (List.range (chunk it offset length)).map fun (k : Nat) => it.buf (offset - it.off + k)

/-- the loop of `hio_c` for reading text, hio.c 953-1113, the case `H_TXT` 1092-1101; gives the line without its NUL and
`item->offset`.  At the end of an item without a newline `item->offset` is one behind it. -/
def textLoop : Nat → Item → Nat → Nat → List Byte → Except Err (Item × List Byte × Nat)
  | _, it, offset, 0, acc => .ok (it, acc, offset)
  | 0, it, offset, _, acc => .ok (it, acc, offset)
  | fuel + 1, it, offset, length + 1, acc =>
    match locate it offset false with
    | .error e => .error e
    | .ok it1 =>
      let s := piece it1 offset (length + 1)
      let len := findNl s
      if s.getD (len - 1) 0 = NL then .ok (it1, acc ++ s.take (len - 1), offset + len)
      else if offset + len = it1.size ∧ len < length + 1 then .ok (it1, acc ++ s.take len, offset + len + 1)
      else textLoop fuel it1 (offset + len) (length + 1 - len) (acc ++ s.take len)

/-- `hreada_c`, hio.c 1252-1260: from `item->offset` on, into a buffer of `length` characters -/
def hreada (it : Item) (g : Nat → Byte) (offset length : Nat) : Except Err (Item × List Byte × Nat) :=
  if it.size < offset + 1 then .error .eof
  else textLoop length (prepare it (offset + 1) g) offset length []

/-- `hwritea_c` of these strings, one after the other, hio.c 1262-1270: the NUL at the end becomes a newline (hio.c
1066-1068) -/
def hwriteaOps (g : Nat → Byte) : Nat → List (List Byte) → List Op
  | _, [] => []
  | o, s :: rest => .write g 1 o (s ++ [NL]) :: hwriteaOps g (o + (s.length + 1)) rest

/-! ## What is read -/

theorem findNl_none : ∀ {l : List Byte}, NL ∉ l → findNl l = l.length
  | [], _ => rfl
  | b :: l, h => by
    rw [List.mem_cons, not_or] at h
    rw [findNl, if_neg (fun e => h.1 e.symm), findNl_none h.2, List.length_cons]

theorem findNl_line : ∀ {l : List Byte} (post : List Byte), NL ∉ l → findNl (l ++ NL :: post) = l.length + 1
  | [], _, _ => rfl
  | b :: l, post, h => by
    rw [List.mem_cons, not_or] at h
    rw [List.cons_append, findNl, if_neg (fun e => h.1 e.symm), findNl_line post h.2, List.length_cons]

/-- the item holds this text -/
structure HoldsText (F : Flat) (T : List Byte) : Prop where
  size : F.size = T.length
  known : ∀ (p : Nat) (b : Byte), T[p]? = some b → F.known p = some b

/-- the buffer for reading -/
theorem locate_read {it : Item} {F : Flat} (h : Inv 1 it F) {o : Nat} (ho : o < F.size) :
    ∃ it1, locate it o false = .ok it1 ∧ Inv 1 it1 F ∧ it1.off ≤ o ∧ o < it1.off + it1.len ∧
      it1.off + it1.len ≤ F.size ∧ it1.size = F.size ∧
      ∀ p b, F.known p = some b → it1.off ≤ p → p < it1.off + it1.len → it1.buf (p - it1.off) = b := by
  obtain ⟨hF, hI⟩ := h
  cases hbig : F.big with
  | true =>
    rw [hbig, if_pos rfl] at hI
    have hloc : ∃ it1, locate it o false = .ok it1 ∧ FInv 1 it1 F ∧ it1.off ≤ o ∧ o < it1.off + it1.len := by
      unfold locate
      by_cases hw : within it o false
      · rw [if_pos hw]
        unfold within at hw
        rw [if_neg (by decide)] at hw
        exact ⟨it, rfl, hI, hw.2.1, hw.2.2⟩
      · rw [if_neg hw]
        obtain ⟨it1, e, i, o1, o2, _⟩ := miss_read (by decide) it F hI (by rw [hI.size]; exact hF) o (Nat.one_dvd _)
          (by rw [hI.size]; omega)
        exact ⟨it1, e, i, o1, o2⟩
    obtain ⟨it1, e, i, o1, o2⟩ := hloc
    refine ⟨it1, e, ⟨hF, by rw [hbig, if_pos rfl]; exact i⟩, o1, o2, ?_, i.size, i.inbuf⟩
    have := i.size
    rcases i.fin with hx | hx <;> omega
  | false =>
    rw [hbig, if_neg (by decide)] at hI
    have hl := hI.len
    have hsz := hI.size
    have hoff := hI.off
    have hloc : locate it o false = .ok it := by
      unfold locate
      rw [if_pos]
      unfold within
      rw [if_neg (by decide)]
      omega
    refine ⟨it, hloc, ⟨hF, by rw [hbig, if_neg (by decide)]; exact hI⟩, by omega, by omega, by omega, by omega, ?_⟩
    intro p b hp _ _
    rw [hoff, Nat.sub_zero]
    exact hI.inbuf p b hp

theorem piece_eq {it : Item} {F : Flat} {T : List Byte} (hT : HoldsText F T) {o n : Nat} (o1 : it.off ≤ o)
    (o2 : o < it.off + it.len) (o3 : it.off + it.len ≤ F.size)
    (hb : ∀ p b, F.known p = some b → it.off ≤ p → p < it.off + it.len → it.buf (p - it.off) = b) :
    piece it o n = (T.drop o).take (chunk it o n) := by
  have hsz := hT.size
  have hm : chunk it o n = min n (it.len - (o - it.off)) := rfl
  apply List.ext_getElem?
  intro k
  unfold piece
  by_cases hk : k < chunk it o n
  · rw [List.getElem?_map, List.getElem?_range hk, List.getElem?_take_of_lt hk, List.getElem?_drop]
    have hlt : o + k < T.length := by omega
    rw [List.getElem?_eq_getElem hlt]
    have := hb (o + k) _ (hT.known _ _ (List.getElem?_eq_getElem hlt)) (by omega) (by omega)
    rw [← this]
    show some (it.buf (o - it.off + k)) = _
    rw [show o + k - it.off = o - it.off + k by omega]
  · rw [List.getElem?_eq_none (by rw [List.length_map, List.length_range]; omega),
      List.getElem?_eq_none (by rw [List.length_take]; omega)]

theorem textLoop_line {F : Flat} {T : List Byte} (hT : HoldsText F T) : ∀ (fuel : Nat) (it : Item) (o length : Nat)
    (acc line post : List Byte), Inv 1 it F → T.drop o = line ++ NL :: post → NL ∉ line → line.length < length →
    line.length < fuel → ∃ it', textLoop fuel it o length acc = .ok (it', acc ++ line, o + line.length + 1) ∧ Inv 1 it' F
  | 0, _, _, _, _, _, _, _, _, _, _, hf => absurd hf (Nat.not_lt_zero _)
  | _, _, _, 0, _, _, _, _, _, _, hl, _ => absurd hl (Nat.not_lt_zero _)
  | fuel + 1, it, o, length + 1, acc, line, post, h, hd, hn, hl, hf => by
    have hsz := hT.size
    have hlen : T.length = o + line.length + 1 + post.length := by
      have := congrArg List.length hd
      rw [List.length_drop, List.length_append, List.length_cons] at this
      omega
    obtain ⟨it1, e1, i1, o1, o2, o3, s1, b1⟩ := locate_read h (o := o) (by omega)
    have hp := piece_eq hT (n := length + 1) o1 o2 o3 b1
    have hm : chunk it1 o (length + 1) = min (length + 1) (it1.len - (o - it1.off)) := rfl
    have hm1 : 0 < chunk it1 o (length + 1) := by omega
    have hm2 : chunk it1 o (length + 1) ≤ length + 1 := by omega
    generalize chunk it1 o (length + 1) = m at hp hm1 hm2
    clear hm
    rw [textLoop, e1]
    simp only
    by_cases hc : m ≤ line.length
    · have hp' : piece it1 o (length + 1) = line.take m := by
        rw [hp, hd, List.take_append_of_le_length hc]
      have hnt : NL ∉ line.take m := fun hx => hn (List.mem_of_mem_take hx)
      have hlt : (line.take m).length = m := by rw [List.length_take]; omega
      have hfn : findNl (line.take m) = m := by rw [findNl_none hnt, hlt]
      rw [hp', hfn]
      have hlast : (line.take m).getD (m - 1) 0 ≠ NL := by
        rw [List.getD_eq_getElem?_getD, List.getElem?_eq_getElem (by omega), Option.getD_some]
        intro hx
        exact hnt (hx ▸ List.getElem_mem _)
      rw [if_neg hlast, if_neg (by omega), List.take_take, Nat.min_self]
      obtain ⟨it2, e2, i2⟩ := textLoop_line hT fuel it1 (o + m) (length + 1 - m) (acc ++ line.take m) (line.drop m) post i1
        (by rw [← List.drop_drop, hd, List.drop_append_of_le_length hc]) (fun hx => hn (List.mem_of_mem_drop hx))
        (by rw [List.length_drop]; omega) (by rw [List.length_drop]; omega)
      refine ⟨it2, ?_, i2⟩
      rw [e2, List.append_assoc, List.take_append_drop, List.length_drop]
      rw [show o + m + (line.length - m) + 1 = o + line.length + 1 by omega]
    · obtain ⟨j, hj⟩ : ∃ j, m = line.length + 1 + j := ⟨m - (line.length + 1), by omega⟩
      have hp' : piece it1 o (length + 1) = line ++ NL :: post.take j := by
        rw [hp, hd, hj, List.take_append, List.take_of_length_le (by omega),
          show line.length + 1 + j - line.length = j + 1 by omega, List.take_succ_cons]
      rw [hp', findNl_line _ hn, Nat.add_sub_cancel]
      have hlast : (line ++ NL :: post.take j).getD line.length 0 = NL := by
        rw [List.getD_eq_getElem?_getD, List.getElem?_append_right (Nat.le_refl _), Nat.sub_self]
        rfl
      rw [if_pos hlast, List.take_append_of_le_length (Nat.le_refl _), List.take_length]
      exact ⟨it1, rfl, i1⟩

/-- a line is read -/
theorem hreada_line {it : Item} {F : Flat} {T : List Byte} (h : Inv 1 it F) (hT : HoldsText F T) (g : Nat → Byte)
    {o length : Nat} {line post : List Byte} (hd : T.drop o = line ++ NL :: post) (hn : NL ∉ line)
    (hl : line.length < length) :
    ∃ it', hreada it g o length = .ok (it', line, o + line.length + 1) ∧ Inv 1 it' F := by
  have hsz := hT.size
  have hlen : T.length = o + line.length + 1 + post.length := by
    have := congrArg List.length hd
    rw [List.length_drop, List.length_append, List.length_cons] at this
    omega
  have his := inv_size h
  have hp : prepare it (o + 1) g = it := by
    unfold prepare
    rw [if_neg]
    intro hc
    have hc1 : it.bsize < 16384 := hc.1
    have := h.2
    split at this
    · have := this.bsize; omega
    · have h1 := this.lb
      have h2 := this.len
      have h3 := this.size
      omega
  obtain ⟨it', e, i⟩ := textLoop_line hT length it o length [] line post h hd hn hl hl
  refine ⟨it', ?_, i⟩
  unfold hreada
  rw [if_neg (by omega), hp, e, List.nil_append]

/-- the end of the text -/
theorem hreada_end {it : Item} {F : Flat} {T : List Byte} (h : Inv 1 it F) (hT : HoldsText F T) (g : Nat → Byte)
    (length : Nat) : hreada it g T.length length = .error .eof := by
  unfold hreada
  rw [if_pos (by rw [inv_size h, hT.size]; omega)]

/-! ## What is written -/

/-- the text of these lines -/
def textOf (lines : List (List Byte)) : List Byte := lines.flatMap fun s => s ++ [NL]

def textChunks : Nat → List (List Byte) → List Chunk
  | _, [] => []
  | o, s :: rest => (1, o, s ++ [NL]) :: textChunks (o + (s.length + 1)) rest

theorem hwritea_chunks (g : Nat → Byte) : ∀ (lines : List (List Byte)) (o : Nat),
    hwriteaOps g o lines = opsOf g (textChunks o lines)
  | [], _ => rfl
  | s :: rest, o => by rw [hwriteaOps, hwritea_chunks g rest]; rfl

theorem textOf_cons (s : List Byte) (rest : List (List Byte)) : textOf (s :: rest) = s ++ [NL] ++ textOf rest := by
  unfold textOf; rw [List.flatMap_cons]

theorem textChunks_asc : ∀ (lines : List (List Byte)) (o : Nat), o + (textOf lines).length ≤ 2 ^ 31 →
    Asc o (textChunks o lines) ∧ endOf o (textChunks o lines) = o + (textOf lines).length
  | [], _, _ => ⟨trivial, rfl⟩
  | s :: rest, o, h => by
    have hl : (textOf (s :: rest)).length = s.length + 1 + (textOf rest).length := by
      rw [textOf_cons, List.length_append, List.length_append]; rfl
    have hs : (s ++ [NL]).length = s.length + 1 := by rw [List.length_append]; rfl
    obtain ⟨h1, h2⟩ := textChunks_asc rest (o + (s.length + 1)) (by omega)
    refine ⟨⟨by decide, Nat.one_dvd _, by simp, Nat.one_dvd _, Nat.le_refl _, by omega, Or.inr rfl, by omega, ?_, ?_⟩, ?_⟩
    · intro h0; exact h0
    · rw [hs]; exact h1
    · show endOf (o + (s ++ [NL]).length) (textChunks (o + (s.length + 1)) rest) = _
      rw [hs, h2]; omega

theorem textChunks_holds {F : Flat} : ∀ (lines : List (List Byte)) (o : Nat), (∀ c ∈ textChunks o lines, Holds F c) →
    ∀ (k : Nat) (b : Byte), (textOf lines)[k]? = some b → F.known (o + k) = some b
  | [], _, _, _, _, h => by cases h
  | s :: rest, o, hh, k, b, h => by
    rw [textOf_cons] at h
    have hs : (s ++ [NL]).length = s.length + 1 := by rw [List.length_append]; rfl
    by_cases hk : k < s.length + 1
    · rw [List.getElem?_append_left (by omega)] at h
      exact (hh _ List.mem_cons_self).2 k b h
    · rw [List.getElem?_append_right (by omega), hs] at h
      have := textChunks_holds rest (o + (s.length + 1)) (fun c hc => hh c (List.mem_cons_of_mem _ hc)) _ b h
      rw [show o + k = o + (s.length + 1) + (k - (s.length + 1)) by omega]
      exact this

/-- an item that was written line by line -/
theorem text_flat (n : Name) (lines : List (List Byte)) (h : (textOf lines).length ≤ 2 ^ 31) :
    HoldsText (flatOf n (textChunks 0 lines)) (textOf lines) := by
  obtain ⟨h1, h2⟩ := textChunks_asc lines 0 (by omega)
  obtain ⟨_, a, _, b⟩ := asc_fold (fun _ => 0) (textChunks 0 lines) 0 (Flat.none (decide (n = hist))) rfl
    (fun _ => Nat.zero_le _) h1
  refine ⟨?_, ?_⟩
  · show (flatOf n (textChunks 0 lines)).size = _
    unfold flatOf
    rw [a, h2, Nat.zero_add]
  · intro p x hp
    have := textChunks_holds lines 0 b p x hp
    rw [Nat.zero_add] at this
    exact this

end Verif.Mir.Head
