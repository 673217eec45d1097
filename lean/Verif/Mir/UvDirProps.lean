import Verif.Mir.UvDir
import Verif.Mir.TreeSeq

/-!
# A data set as a directory: proofs (C82)
-/

namespace Verif.Mir.Uv

open Verif.Mir.Hio (Byte Item Flat Op Tree Dataset Rel StepOk Inv WSeq session reopenTree openRead newTree find nameOk)
open Verif.Mir.Head (NL hreada hwriteaOps rdhdl putNum HOp hstep Conv HoldsText textOf textChunks flatOf typedChunks)

/-! ## The writer does not look at what it has written -/

theorem mkvar_out (w : Writer) (p : List Write) (name : Name) (ty : Ty) :
    mkvar { w with out := p } name ty = (mkvar w name ty).map fun x => ({ x.1 with out := p }, x.2) := by
  unfold mkvar
  simp only
  cases locvar w.vars name with
  | some i => rfl
  | none =>
    simp only
    split
    · rfl
    · split <;> rfl

theorem putVar_out (w : Writer) (i : Nat) (v : WVar) (d : List Byte) (n : Nat) : ∃ o, (putVar w i v d n).1.out = w.out ++ o ∧
    ∀ p, putVar { w with out := p } i v d n = ({ (putVar w i v d n).1 with out := p ++ o }, (putVar w i v d n).2) := by
  refine ⟨(putVar { w with out := [] } i v d n).1.out, ?_, fun p => ?_⟩ <;>
  by_cases h1 : v.length ≠ v.ty.ext * n
  · simp only [putVar, h1, if_true, true_or, ne_eq, not_false_eq_true, putSize, putData, List.append_assoc, List.nil_append]
  · by_cases h2 : v.nocheck = true ∨ v.buf ≠ d
    · simp only [putVar, h1, if_false, false_or, h2, if_true, putData, List.nil_append]
    · simp only [putVar, h1, if_false, false_or, h2, List.append_nil]
  · simp only [putVar, h1, if_true, true_or, ne_eq, not_false_eq_true, putSize, putData, List.append_assoc, List.nil_append]
  · by_cases h2 : v.nocheck = true ∨ v.buf ≠ d
    · simp only [putVar, h1, if_false, false_or, h2, if_true, putData, List.nil_append]
    · simp only [putVar, h1, if_false, false_or, h2, List.append_nil]

theorem wstep_out {w w' : Writer} {e : Ev} (h : wstep w e = some w') :
    ∃ o, w'.out = w.out ++ o ∧ ∀ p, wstep { w with out := p } e = some { w' with out := p ++ o } := by
  cases e with
  | put name ty d =>
    simp only [wstep] at h
    by_cases hn : d.length / ty.mem = 0
    · refine ⟨[], ?_, fun p => ?_⟩
      · unfold put at h
        simp only [if_pos hn, Option.some.injEq] at h
        rw [h, List.append_nil]
      · unfold put at h
        simp only [if_pos hn, Option.some.injEq] at h
        simp only [wstep, put, if_pos hn, List.append_nil, h]
    · obtain ⟨w1, i, v, e1, e2, e3, e4⟩ := put_some h hn
      obtain ⟨o, h1, h2⟩ := putVar_out w1 i v d (d.length / ty.mem)
      have hf := mkvar_frame e1
      refine ⟨o, ?_, fun p => ?_⟩
      · rw [e4]
        show (putVar w1 i v d (d.length / ty.mem)).1.out = _
        rw [h1, hf.1]
      · simp only [wstep, put, if_neg hn]
        rw [mkvar_out, e1]
        simp only [Option.map_some]
        rw [e2]
        simp only [e3, ne_eq, not_true, if_false]
        rw [h2 p, e4]
        have := (putVar_frame w1 i v d (d.length / ty.mem)).1
        simp only [this]
  | noCheck name ty =>
    simp only [wstep] at h
    obtain ⟨w1, i, v, e1, e2, e4⟩ := noCheck_some h
    have hf := mkvar_frame e1
    refine ⟨[], ?_, fun p => ?_⟩
    · rw [e4, List.append_nil]
      exact hf.1
    · simp only [wstep, noCheck]
      rw [mkvar_out, e1]
      simp only [Option.map_some]
      rw [e2]
      simp only [e4, List.append_nil]
  | next =>
    simp only [wstep, Option.some.injEq] at h
    subst h
    exact ⟨_, rfl, fun p => rfl⟩
  | reopen =>
    simp only [wstep, Option.some.injEq] at h
    subst h
    exact ⟨[], (List.append_nil _).symm, fun p => by simp only [wstep, reopen, List.append_nil]⟩

/-! ## The names of the variables -/

/-- a name that a line of `vartable` holds: not empty, no blanks, visible ASCII characters -/
def Visible (n : Name) : Prop := n ≠ [] ∧ ∀ c ∈ n, 33 ≤ c.toNat ∧ c.toNat ≤ 126

instance (n : Name) : Decidable (Visible n) := inferInstanceAs (Decidable (_ ∧ _))

structure Tabled (tbl : List (Name × Ty)) : Prop where
  nodup : (tbl.map (·.1)).Nodup
  few : tbl.length ≤ 256
  plain : ∀ p ∈ tbl, p.1.length ≤ 8 ∧ Visible p.1

theorem mkvar_tabled {w w1 : Writer} {name : Name} {ty : Ty} {i : Nat} (h : mkvar w name ty = some (w1, i))
    (ht : Tabled (table w)) (hp : ∀ p ∈ table w1, Visible p.1) : Tabled (table w1) := by
  unfold mkvar at h
  cases hl : locvar w.vars name with
  | some j =>
    rw [hl] at h
    simp only [Option.some.injEq, Prod.mk.injEq] at h
    rw [← h.1]
    exact ht
  | none =>
    rw [hl] at h
    simp only at h
    split at h
    · cases h
    · split at h
      · cases h
      · rename_i h1 h2
        have hw : w1 = { w with vars := w.vars ++ [⟨name, ty, 0, [], 0, false⟩] } := by
          cases h; rfl
        have htb : table w1 = table w ++ [(name, ty)] := by
          rw [hw]; unfold table; simp only [List.map_append, List.map_cons, List.map_nil]
        unfold locvar at hl
        rw [List.findIdx?_eq_none_iff] at hl
        rw [htb] at hp ⊢
        refine ⟨?_, ?_, ?_⟩
        · rw [List.map_append, List.nodup_append]
          refine ⟨ht.nodup, by simp, ?_⟩
          intro a ha b hb
          simp only [List.map_cons, List.map_nil, List.mem_singleton] at hb
          rw [hb]
          intro hab
          unfold table at ha
          rw [List.map_map, List.mem_map] at ha
          obtain ⟨v, hv, rfl⟩ := ha
          have := hl v hv
          simp only [decide_eq_false_iff_not] at this
          exact this hab
        · rw [List.length_append]
          have : (table w).length = w.vars.length := List.length_map ..
          simp only [List.length_cons, List.length_nil]
          have h2' : ¬ 256 ≤ w.vars.length := h2
          omega
        · intro p hp'
          refine ⟨?_, hp p hp'⟩
          rcases List.mem_append.1 hp' with h | h
          · exact (ht.plain p h).1
          · rw [List.mem_singleton] at h
            rw [h]
            have h1' : ¬ 8 < name.length := h1
            show name.length ≤ 8
            omega

theorem table_set' (w1 : Writer) (i : Nat) (v v' : WVar) (o : Nat) (l : List Write) (h : w1.vars[i]? = some v)
    (hn : v'.name = v.name) (ht : v'.ty = v.ty) : table ⟨w1.vars.set i v', o, l⟩ = table w1 := by
  unfold table
  simp only
  rw [List.map_set, hn, ht]
  apply List.ext_getElem?
  intro j
  rw [List.getElem?_set]
  split
  · rename_i hj
    subst hj
    rw [List.getElem?_map, h]
    split
    · rfl
    · rename_i hlt
      rw [List.length_map] at hlt
      rw [List.getElem?_eq_none (by omega)] at h
      cases h
  · rfl

theorem wstep_tabled {w w' : Writer} {e : Ev} (h : wstep w e = some w') (ht : Tabled (table w))
    (hp : ∀ p ∈ table w', Visible p.1) : Tabled (table w') := by
  cases e with
  | put name ty d =>
    simp only [wstep] at h
    by_cases hn : d.length / ty.mem = 0
    · unfold put at h
      simp only [if_pos hn, Option.some.injEq] at h
      rw [← h]
      exact ht
    · obtain ⟨w1, i, v, e1, e2, e3, e4⟩ := put_some h hn
      have hf := putVar_frame w1 i v d (d.length / ty.mem)
      have : table w' = table w1 := by rw [e4]; exact table_set' w1 i v _ _ _ e2 hf.2.1 hf.2.2
      rw [this] at hp ⊢
      exact mkvar_tabled e1 ht hp
  | noCheck name ty =>
    simp only [wstep] at h
    obtain ⟨w1, i, v, e1, e2, e4⟩ := noCheck_some h
    have : table w' = table w1 := by rw [e4]; exact table_set' w1 i v _ _ _ e2 rfl rfl
    rw [this] at hp ⊢
    exact mkvar_tabled e1 ht hp
  | next =>
    simp only [wstep, Option.some.injEq] at h
    subst h
    exact ht
  | reopen =>
    simp only [wstep, Option.some.injEq] at h
    subst h
    have : table (reopen w) = table w := by
      unfold table reopen
      simp only [List.map_map]
      rfl
    rw [this]
    exact ht

/-! ## The lines of `vartable` -/

theorem name_back {n : Name} (h : Visible n) : nameChars (nameBytes n) = n := by
  unfold nameChars nameBytes
  rw [List.map_map]
  conv => rhs; rw [← List.map_id n]
  apply List.map_congr_left
  intro c hc
  have := h.2 c hc
  simp only [Function.comp_apply, id_eq]
  rw [UInt8.toNat_ofNat', Nat.mod_eq_of_lt (by omega), Char.ofNat_toNat]

theorem plain_bytes {n : Name} (h : Visible n) : ∀ b ∈ nameBytes n, isSpace b = false ∧ b ≠ NL := by
  intro b hb
  unfold nameBytes at hb
  rw [List.mem_map] at hb
  obtain ⟨c, hc, rfl⟩ := hb
  obtain ⟨h1, h2⟩ := h.2 c hc
  have hn : (UInt8.ofNat c.toNat).toNat = c.toNat := by
    rw [UInt8.toNat_ofNat', Nat.mod_eq_of_lt (by omega)]
  constructor
  · unfold isSpace
    simp only [Bool.or_eq_false_iff, decide_eq_false_iff_not, Bool.and_eq_false_iff]
    refine ⟨?_, Or.inr ?_⟩
    · intro he
      have := congrArg UInt8.toNat he
      rw [hn] at this
      have h32 : (32 : UInt8).toNat = 32 := rfl
      omega
    · rw [UInt8.le_iff_toNat_le, hn]
      have : (13 : UInt8).toNat = 13 := rfl
      omega
  · intro he
    have := congrArg UInt8.toNat he
    rw [hn] at this
    have h10 : NL.toNat = 10 := rfl
    omega

theorem takeWhile_self {α : Type} {q : α → Bool} : ∀ (l : List α), (∀ b ∈ l, q b = true) → l.takeWhile q = l
  | [], _ => rfl
  | b :: l, h => by
    rw [List.takeWhile_cons_of_pos (h b List.mem_cons_self), takeWhile_self l fun x hx => h x (List.mem_cons_of_mem _ hx)]

theorem scan_line (prev : Byte × List Byte) (p : Name × Ty) (h : Visible p.1) :
    scanLine prev (tableLine p) = (p.2.letter, nameBytes p.1) := by
  have hb := plain_bytes h
  have hne : nameBytes p.1 ≠ [] := by
    unfold nameBytes
    intro hc
    exact h.1 (List.map_eq_nil_iff.1 hc)
  have hd : ([32] ++ nameBytes p.1).dropWhile isSpace = nameBytes p.1 := by
    show (32 :: nameBytes p.1).dropWhile isSpace = _
    rw [List.dropWhile_cons_of_pos (by decide)]
    cases hx : nameBytes p.1 with
    | nil => rfl
    | cons b l =>
      rw [List.dropWhile_cons_of_neg]
      rw [(hb b (by rw [hx]; exact List.mem_cons_self)).1]
      decide
  have ht : (nameBytes p.1).takeWhile (fun b => !isSpace b) = nameBytes p.1 := by
    refine takeWhile_self _ fun b hbm => ?_
    simp only [(hb b hbm).1, Bool.not_false]
  show (p.2.letter, if (([32] ++ nameBytes p.1).dropWhile isSpace).takeWhile (fun b => !isSpace b) = [] then prev.2
    else (([32] ++ nameBytes p.1).dropWhile isSpace).takeWhile (fun b => !isSpace b)) = _
  rw [hd, ht, if_neg hne]

theorem letter_back (ty : Ty) : letterTy ty.letter = some ty := by cases ty <;> rfl

theorem line_facts (p : Name × Ty) (h : Visible p.1) (hl : p.1.length ≤ 8) :
    NL ∉ tableLine p ∧ (tableLine p).length ≤ 10 := by
  constructor
  · unfold tableLine
    rw [List.mem_append, not_or]
    refine ⟨?_, fun hc => (plain_bytes h NL hc).2 rfl⟩
    cases p.2 <;> decide
  · unfold tableLine nameBytes
    rw [List.length_append, List.length_map]
    show 2 + p.1.length ≤ 10
    omega

theorem text_length : ∀ (tbl : List (Name × Ty)), (∀ p ∈ tbl, p.1.length ≤ 8 ∧ Visible p.1) →
    tbl.length ≤ (textOf (tbl.map tableLine)).length ∧ (textOf (tbl.map tableLine)).length ≤ 11 * tbl.length
  | [], _ => ⟨Nat.le_refl _, Nat.le_refl _⟩
  | p :: rest, h => by
    have ih := text_length rest fun q hq => h q (List.mem_cons_of_mem _ hq)
    have hp := h p List.mem_cons_self
    have := (line_facts p hp.2 hp.1).2
    rw [List.map_cons, Head.textOf_cons, List.length_append, List.length_append, List.length_cons]
    simp only [List.length_cons, List.length_nil]
    omega

theorem tableLoop_ok (g : Nat → Byte) {F : Flat} {T : List Byte} (hT : HoldsText F T) : ∀ (rest : List (Name × Ty)) (fuel : Nat)
    (it : Item) (o : Nat) (prev : Byte × List Byte) (acc : List (Name × Ty)), Inv 1 it F → Tabled (acc ++ rest) →
    T.drop o = textOf (rest.map tableLine) → o ≤ T.length → rest.length < fuel →
    tableLoop g fuel it o prev acc = some (acc ++ rest)
  | _, 0, _, _, _, _, _, _, _, _, hf => absurd hf (Nat.not_lt_zero _)
  | [], fuel + 1, it, o, prev, acc, h, _, hd, ho, _ => by
    have : o = T.length := by
      have h1 := congrArg List.length hd
      rw [List.length_drop] at h1
      have : (textOf (([] : List (Name × Ty)).map tableLine)).length = 0 := rfl
      omega
    rw [tableLoop, this, Head.hreada_end h hT]
    simp only [List.append_nil]
  | p :: rest, fuel + 1, it, o, prev, acc, h, ht, hd, ho, hf => by
    obtain ⟨hl8, hpl⟩ := ht.plain p (List.mem_append_right _ List.mem_cons_self)
    obtain ⟨hnl, hlen⟩ := line_facts p hpl hl8
    rw [List.map_cons, Head.textOf_cons, List.append_assoc] at hd
    obtain ⟨it', e1, h1⟩ := Head.hreada_line (length := MAXLINE) h hT g hd hnl (by
      have : MAXLINE = 128 := rfl
      omega)
    have hdl : T.length = o + (tableLine p).length + 1 + (textOf (rest.map tableLine)).length := by
      have := congrArg List.length hd
      rw [List.length_drop, List.length_append, List.length_append, List.length_singleton] at this
      omega
    have hd' : T.drop (o + (tableLine p).length + 1) = textOf (rest.map tableLine) := by
      rw [Nat.add_assoc, ← List.drop_drop, hd, ← List.append_assoc]
      apply List.drop_left'
      rw [List.length_append]; rfl
    have hnd : ¬ acc.any (fun q => q.1 = p.1) = true := by
      rw [List.any_eq_true]
      rintro ⟨q, hq, he⟩
      have hn := ht.nodup
      rw [List.map_append, List.map_cons, List.nodup_append] at hn
      exact hn.2.2 q.1 (List.mem_map_of_mem hq) p.1 List.mem_cons_self (of_decide_eq_true he)
    have hlt := ht.few
    rw [List.length_append, List.length_cons] at hlt
    have hadd : addVar acc p.1 p.2 = some (acc ++ [p]) := by
      unfold addVar
      rw [if_neg hnd, if_neg (by show ¬ 8 < p.1.length; omega), if_neg (by show ¬ 256 ≤ acc.length; omega)]
    have hstep : tableLoop g (fuel + 1) it o prev acc =
        tableLoop g fuel it' (o + (tableLine p).length + 1) (p.2.letter, nameBytes p.1) (acc ++ [p]) := by
      rw [tableLoop, e1]
      simp only
      rw [scan_line prev p hpl]
      simp only [letter_back]
      rw [name_back hpl, hadd]
    rw [hstep, tableLoop_ok g hT rest fuel it' _ _ (acc ++ [p]) h1 (by rw [List.append_assoc]; exact ht) hd' (by omega) (by
      rw [List.length_cons] at hf; omega)]
    rw [List.append_assoc, List.singleton_append]

theorem tableIn_ok {t : Tree} {D : Dataset} (h : Rel t D) (hl : t.items.length < 1023) {tbl : List (Name × Ty)}
    (hD : D itVartable = some (flatOf itVartable (textChunks 0 (tbl.map tableLine)))) (ht : Tabled tbl) (g : Nat → Byte) :
    tableIn t g = some tbl := by
  have htl := text_length tbl ht.plain
  have hfew := ht.few
  have hT := Head.text_flat itVartable (tbl.map tableLine) (by omega)
  unfold tableIn
  rcases Hio.openRead_some h _ _ hD (Nat.one_dvd _) g with ⟨_, hc⟩ | ⟨it, e, hI, hf⟩
  · omega
  · rw [e]
    simp only
    have hs : it.size = (textOf (tbl.map tableLine)).length := by rw [Head.inv_size hI, hT.size]
    rw [tableLoop_ok g hT tbl _ it 0 (0, []) [] hI ht rfl (Nat.zero_le _) (by omega), List.nil_append]

/-! ## The numbers -/

/-- an item that holds a number of type `int8` -/
def longItem (n : Hio.Name) (x : Nat) : Flat := flatOf n (typedChunks .int8 [(Head.Num.int8 x).bytes])

/-- the items and what they hold; few enough to be in memory -/
structure InDir (names : List Hio.Name) (t : Tree) (D : Dataset) : Prop where
  rel : Rel t D
  named : ∀ n F, D n = some F → n ∈ names
  few : names.length < 1023

theorem InDir.items {names : List Hio.Name} {t : Tree} {D : Dataset} (h : InDir names t D) : t.items.length < 1023 :=
  Nat.lt_of_le_of_lt (Head.items_few h.rel names h.named) h.few

theorem InDir.set {names : List Hio.Name} {t t' : Tree} {D : Dataset} (h : InDir names t D) {n : Hio.Name} {F : Flat}
    (hn : n ∈ names) (hr : Rel t' (D.set n (some F))) : InDir names t' (D.set n (some F)) := by
  refine ⟨hr, fun m G hm => ?_, h.few⟩
  unfold Dataset.set at hm
  split at hm
  · rename_i he; rw [he]; exact hn
  · exact h.named m G hm

theorem step_few {t : Tree} {r : Except Hio.TErr Tree} {D' : Dataset} (h : StepOk t r D') (hl : t.items.length < 1023) :
    ∃ t', r.toOption = some t' ∧ Rel t' D' := by
  rcases h with ⟨_, hc⟩ | ⟨t', e, hr, _⟩
  · omega
  · exact ⟨t', by rw [e]; rfl, hr⟩

theorem putLong_ok {names : List Hio.Name} {t : Tree} {D : Dataset} (h : InDir names t D) {n : Hio.Name} (hn : n ∈ names)
    (hok : nameOk n = true) (g : Nat → Byte) (x : Nat) :
    ∃ t', putLong t n g x = some t' ∧ InDir names t' (D.set n (some (longItem n x))) := by
  have hs := Head.session_chunks h.rel n g (typedChunks .int8 [(Head.Num.int8 x).bytes]) (Or.inl hok)
    (Head.typedChunks_asc _ _ (fun bs hbs => by
      rw [List.mem_singleton.mp hbs]; exact Head.num_length (.int8 x)) (by
        show 8 + 8 * 1 ≤ 2 ^ 31; decide)) (Or.inr (fun hc => by cases hc))
  obtain ⟨t', e, hr⟩ := step_few hs h.items
  refine ⟨t', ?_, h.set hn hr⟩
  unfold putLong putNum
  rw [Head.writeItem_ofT]
  have ht : Head.typed g (Head.Num.int8 (x : Int)).ty [(Head.Num.int8 (x : Int)).bytes] =
      Head.opsOf g (typedChunks .int8 [(Head.Num.int8 (x : Int)).bytes]) := Head.typed_chunks g .int8 _
  rw [ht]
  cases hx : session t .write n g (Head.opsOf g (typedChunks .int8 [(Head.Num.int8 (x : Int)).bytes])) with
  | error er => rw [hx] at e; cases e
  | ok t1 => rw [hx] at e; exact e

theorem rdhdl_long {names : List Hio.Name} {t : Tree} {D : Dataset} (h : InDir names t D) {n : Hio.Name} {x : Nat}
    (hD : D n = some (longItem n x)) (hx : x < 2 ^ 63) (g : Nat → Byte) (d : Int) : rdhdl t n g d = .ok (x : Int) := by
  obtain ⟨it, it1, o1, o2, o3, o4⟩ := Head.num_item h.rel h.items n .int8 (Head.Num.int8 x).bytes (Head.num_length (.int8 x)) hD g
  unfold rdhdl
  rw [o1]
  simp only
  rw [o3]
  simp only
  rw [Hio.bytes_map, if_pos rfl, o4]
  simp only [Head.Num.bytes]
  rw [Head.int8_back x (by omega)]

/-- the variables have plain names that no item has -/
def Apart (names : List Hio.Name) (tbl : List (Name × Ty)) : Prop :=
  ∀ p ∈ tbl, Visible p.1 ∧ nameBytes p.1 ∉ names ∧ nameBytes p.1 ∉ otherFiles

/-! ## Closing -/

/-- the items of the data set itself -/
def reserved : List Hio.Name := [itVisdata, itVartable, itVislen, itNcorr, itNwcorr]

/-- the state of a program that writes: what it has in memory and what is in the items make up the writer `w` that had the
data set open all the time -/
structure DInv (names : List Hio.Name) (d : Dir) (w : Writer) (fl : Nat) (D : Dataset) : Prop where
  good : InDir names d.t D
  tabled : Tabled (table w)
  apart : Apart names (table w)
  flags : d.ncorr = fl
  wide : d.nwcorr = 0
  stream : ∃ pre o F0 o0 ts, d.w = { w with out := o } ∧ w.out = pre ++ o ∧ o = layout o0 ts ∧ w.offset = finL o0 ts ∧
    (∀ t ∈ ts, t.Whole) ∧ Tied o0 F0 ∧ Kept F0 pre ∧ (d.old = true → D itVisdata = some F0) ∧
    (d.old = false → F0 = Flat.none false)
  saved : d.old = true →
    D itVartable = some (flatOf itVartable (textChunks 0 (((table w).take d.saved).map tableLine)))
  fresh : d.old = false → d.saved = 0
  bound : d.saved ≤ (table w).length

/-- a data set that is closed -/
structure Closed (names : List Hio.Name) (t : Tree) (w : Writer) (fl : Nat) (D : Dataset) : Prop where
  good : InDir names t D
  tabled : Tabled (table w)
  apart : Apart names (table w)
  stream : ∃ F, D itVisdata = some F ∧ Tied w.offset F ∧ Kept F w.out
  tbl : D itVartable = some (flatOf itVartable (textChunks 0 ((table w).map tableLine)))
  vislen : D itVislen = some (longItem itVislen w.offset)
  ncorr : D itNcorr = some (longItem itNcorr fl)
  nwcorr : D itNwcorr = some (longItem itNwcorr 0)

theorem set_same (D : Dataset) (n : Hio.Name) (v : Option Flat) : D.set n v n = v := by
  unfold Dataset.set; rw [if_pos rfl]

theorem set_other (D : Dataset) {n m : Hio.Name} (v : Option Flat) (h : m ≠ n) : D.set n v m = D m := by
  unfold Dataset.set; rw [if_neg h]

theorem tied_none : Tied 0 (Flat.none false) :=
  ⟨rfl, Nat.le_refl _, by show 0 < 0 + 8; omega, rfl, fun p b h => by cases h⟩

theorem putStream_ok {names : List Hio.Name} {d : Dir} {w : Writer} {fl : Nat} {D : Dataset} (h : DInv names d w fl D)
    (hres : ∀ n ∈ reserved, n ∈ names) (g : Nat → Byte) (h0 : 0 < w.offset) (hb : w.offset ≤ 2 ^ 31) :
    ∃ t F, putStream d g = some t ∧ InDir names t (D.set itVisdata (some F)) ∧ Tied w.offset F ∧ Kept F w.out := by
  obtain ⟨pre, o, F0, o0, ts, s1, s2, s3, s4, s5, s6, s7, s8, s9⟩ := h.stream
  rw [s4] at hb
  obtain ⟨a1, a2, a3, a4⟩ := toks_wseq g ts s6 s5 hb
  have hn : itVisdata ∈ names := hres _ (by decide)
  have hsz : 0 < ((toOps g (layout o0 ts)).foldl Flat.step F0).size := by
    have := a2.near
    have := a2.aligned
    rw [← s4] at *
    omega
  have hkept : Kept ((toOps g (layout o0 ts)).foldl Flat.step F0) w.out := by
    rw [s2, s3]
    exact (s7.more a3).append a4
  unfold putStream
  rw [s1]
  simp only
  rw [s3]
  cases ho : d.old with
  | true =>
    have hs := Hio.session_append_wseq h.good.rel itVisdata g _ (by decide) F0 (s8 ho) (a1 0)
    obtain ⟨t, e, hr⟩ := step_few hs h.good.items
    exact ⟨t, _, by simpa using e, h.good.set hn hr, by rw [s4]; exact a2, hkept⟩
  | false =>
    have hF := s9 ho
    subst hF
    have hs := Hio.session_write_wseq h.good.rel itVisdata g _ (by decide) (a1 0) hsz
    obtain ⟨t, e, hr⟩ := step_few hs h.good.items
    exact ⟨t, _, by simpa using e, h.good.set hn hr, by rw [s4]; exact a2, hkept⟩

theorem putTable_ok {names : List Hio.Name} {d : Dir} {w : Writer} {fl : Nat} {D : Dataset} (h : DInv names d w fl D)
    (hres : ∀ n ∈ reserved, n ∈ names) (g : Nat → Byte) (hv : w.vars ≠ []) {t : Tree} {F : Flat}
    (ht : InDir names t (D.set itVisdata (some F))) :
    ∃ t' D', putTable d g t = some t' ∧ InDir names t' D' ∧
      D' itVartable = some (flatOf itVartable (textChunks 0 ((table w).map tableLine))) ∧
      ∀ n, n ≠ itVartable → D' n = D.set itVisdata (some F) n := by
  obtain ⟨pre, o, F0, o0, ts, s1, _⟩ := h.stream
  have hvars : d.w.vars = w.vars := by rw [s1]
  have htab : table d.w = table w := by unfold table; rw [hvars]
  have hlen : (table w).length = w.vars.length := List.length_map ..
  have hpos : 0 < w.vars.length := List.length_pos_iff.mpr hv
  unfold putTable
  rw [hvars]
  by_cases hc : d.saved < w.vars.length
  · rw [if_pos (Or.inl hc)]
    unfold tableOut
    rw [htab, Head.hwritea_chunks]
    have htl := text_length (table w) h.tabled.plain
    have hfew := h.tabled.few
    have hne : textChunks 0 ((table w).map tableLine) ≠ [] := by
      intro hx
      cases htw : table w with
      | nil => rw [htw] at hlen; simp only [List.length_nil] at hlen; omega
      | cons p l => rw [htw] at hx; cases hx
    have hs := Head.session_chunks ht.rel itVartable g (textChunks 0 ((table w).map tableLine)) (Or.inl (by decide))
      (Head.textChunks_asc _ 0 (by omega)).1 (Or.inr hne)
    obtain ⟨t', e, hr⟩ := step_few hs ht.items
    exact ⟨t', _, e, ht.set (hres _ (by decide)) hr, set_same _ _ _, fun n hn => set_other _ _ hn⟩
  · have hold : d.old = true := by
      cases ho : d.old with
      | true => rfl
      | false => have := h.fresh ho; omega
    rw [if_neg (by rintro (hx | ⟨hx, -⟩) <;> omega)]
    refine ⟨t, _, rfl, ht, ?_, fun n _ => rfl⟩
    rw [set_other _ _ (by decide), h.saved hold, List.take_of_length_le (by omega)]

theorem close_ok {names : List Hio.Name} {d : Dir} {w : Writer} {fl : Nat} {D : Dataset} (h : DInv names d w fl D)
    (hres : ∀ n ∈ reserved, n ∈ names) (g : Nat → Byte) (h0 : 0 < w.offset) (hb : w.offset ≤ 2 ^ 31) (hv : w.vars ≠ []) :
    ∃ t D', closeDir d g = some t ∧ Closed names t w fl D' ∧ ∀ n, n ∉ reserved → D' n = D n := by
  obtain ⟨t1, F, e1, g1, hti, hk⟩ := putStream_ok h hres g h0 hb
  obtain ⟨t2, D2, e2, g2, d2, o2⟩ := putTable_ok h hres g hv g1
  obtain ⟨t3, e3, g3⟩ := putLong_ok g2 (hres itNwcorr (by decide)) (by decide) g d.nwcorr
  obtain ⟨t4, e4, g4⟩ := putLong_ok g3 (hres itNcorr (by decide)) (by decide) g d.ncorr
  obtain ⟨t5, e5, g5⟩ := putLong_ok g4 (hres itVislen (by decide)) (by decide) g d.w.offset
  obtain ⟨t6, e6, r6⟩ := step_few (Hio.reopen_rel g5.rel g) g5.items
  obtain ⟨pre, o, F0, o0, ts, s1, _⟩ := h.stream
  have hoff : d.w.offset = w.offset := by rw [s1]
  refine ⟨t6, _, ?_, ⟨⟨r6, g5.named, g5.few⟩, h.tabled, h.apart, ⟨F, ?_, hti, hk⟩, ?_, ?_, ?_, ?_⟩, fun n hn => ?_⟩
  · unfold closeDir
    rw [e1]
    simp only [Option.bind_some]
    rw [e2]
    simp only [Option.bind_some]
    rw [e3]
    simp only [Option.bind_some]
    rw [e4]
    simp only [Option.bind_some]
    rw [e5]
    exact e6
  · rw [set_other _ _ (by decide), set_other _ _ (by decide), set_other _ _ (by decide), o2 _ (by decide), set_same]
  · rw [set_other _ _ (by decide), set_other _ _ (by decide), set_other _ _ (by decide), d2]
  · rw [set_same, hoff]
  · rw [set_other _ _ (by decide), set_same, h.flags]
  · rw [set_other _ _ (by decide), set_other _ _ (by decide), set_same, h.wide]
  · unfold reserved at hn
    simp only [List.mem_cons, List.not_mem_nil, or_false, not_or] at hn
    obtain ⟨n1, n2, n3, n4, n5⟩ := hn
    rw [set_other _ _ n3, set_other _ _ n4, set_other _ _ n5, o2 _ n2, set_other _ _ n1]

/-! ## Opening -/

theorem Closed.item {names : List Hio.Name} {t : Tree} {w : Writer} {fl : Nat} {D : Dataset} (h : Closed names t w fl D)
    (g : Nat → Byte) : ∃ F it, openRead t itVisdata g = .ok it ∧ D itVisdata = some F ∧ Tied w.offset F ∧ Kept F w.out ∧
      Inv 1 it F ∧ Hio.Fresh it := by
  obtain ⟨F, hF, hti, hk⟩ := h.stream
  rcases Hio.openRead_some h.good.rel _ _ hF (Nat.one_dvd _) g with ⟨_, hc⟩ | ⟨it, e, hI, hf⟩
  · have := h.good.items
    omega
  · exact ⟨F, it, e, hF, hti, hk, hI, hf⟩

theorem append_ok {names : List Hio.Name} {t : Tree} {w : Writer} {fl : Nat} {D : Dataset} (h : Closed names t w fl D)
    (hb : w.offset ≤ 2 ^ 31) (hfl : fl < 2 ^ 63) (g : Nat → Byte) :
    ∃ d, openAppend t g = some d ∧ DInv names d (reopen w) fl D := by
  obtain ⟨F, it, _, hF, hti, hk, _, _⟩ := h.item g
  have htab : table (reopen w) = table w := by
    unfold table reopen
    simp only [List.map_map]
    rfl
  refine ⟨⟨t, true, ⟨(table w).map fun p => ⟨p.1, p.2, 0, [], 0, false⟩, roundup (w.offset : Int).toNat ALIGN, []⟩,
    (table w).length, (fl : Int).toNat, ((0 : Nat) : Int).toNat⟩, ?_, ?_⟩
  · unfold openAppend
    rw [rdhdl_long h.good h.vislen (by omega), tableIn_ok h.good.rel h.good.items h.tbl h.tabled,
      rdhdl_long h.good h.ncorr hfl, rdhdl_long h.good h.nwcorr (by decide)]
    simp only
    rw [if_neg (by omega)]
  · refine ⟨h.good, by rw [htab]; exact h.tabled, by rw [htab]; exact h.apart, rfl, rfl, ?_, fun _ => ?_, fun hc => (by cases hc),
      (by rw [htab]; exact Nat.le_refl _)⟩
    · refine ⟨w.out, [], F, w.offset, [], ?_, by simp [reopen], rfl, ?_, by simp, hti, hk, fun _ => hF, fun hc => by cases hc⟩
      · unfold reopen table
        simp only [List.map_map, Int.toNat_natCast]
        rfl
      · show roundup w.offset ALIGN = w.offset
        exact roundup_of_aligned hti.aligned
    · rw [htab, h.tbl]
      simp only
      rw [List.take_length]

theorem old_ok {names : List Hio.Name} {t : Tree} {w : Writer} {fl : Nat} {D : Dataset} (h : Closed names t w fl D)
    (hb : w.offset ≤ 2 ^ 31) (g : Nat → Byte) :
    ∃ it F' f, openOld t g = some (it, openReader (table w) w.offset) ∧ Loaded it F' f ∧ Holds f F'.size w.out := by
  obtain ⟨F, it, e, hF, hti, hk, hI, hfr⟩ := h.item g
  obtain ⟨F', f, hl, hs, hkn⟩ := loaded_of hI (Head.fresh_rat hfr) fun hbg => Hio.openRead_clean h.good.rel hF e hbg
  refine ⟨it, F', f, ?_, hl, ?_⟩
  · unfold openOld
    rw [e]
    simp only
    rw [rdhdl_long h.good h.vislen (by omega), tableIn_ok h.good.rel h.good.items h.tbl h.tabled]
    simp only
    rw [if_neg, Int.toNat_natCast]
    rw [List.any_eq_true]
    rintro ⟨p, hp, hx⟩
    obtain ⟨_, a1, a2⟩ := h.apart p hp
    have hD : D (nameBytes p.1) = none := by
      cases hx : D (nameBytes p.1) with
      | none => rfl
      | some G => exact absurd (h.good.named _ G hx) a1
    have hfind : find t.items (nameBytes p.1) = none := by
      cases hf : find t.items (nameBytes p.1) with
      | none => rfl
      | some en =>
        obtain ⟨he, hen⟩ := Hio.find_some hf
        obtain ⟨_, _, G, hG, _⟩ := h.good.rel.items.ent en he
        rw [hen, hD] at hG
        cases hG
    unfold hasItem at hx
    rw [hfind, h.good.rel.none _ hD] at hx
    simp only [Option.isSome_none, Bool.or_self, Bool.false_or, List.contains_iff_mem] at hx
    exact a2 hx
  · intro wr hw
    obtain ⟨a, b⟩ := hk wr hw
    exact ⟨by omega, fun k hk => hkn _ _ (b k hk)⟩

/-! ## Histories -/

/-- the events of the stream -/
def evsOf : List DEv → List Ev
  | [] => []
  | .ev e :: h => e :: evsOf h
  | _ :: h => evsOf h

/-- the number of flags -/
def flagsOf : List DEv → Nat
  | [] => 0
  | .flags n :: h => n + flagsOf h
  | _ :: h => flagsOf h

/-- the header items -/
def itemsOf : List DEv → List HOp
  | [] => []
  | .item o :: h => o :: itemsOf h
  | _ :: h => itemsOf h

/-- what is asked of a history.  `names` are the names of the items: those the program assigns and the five of the data
set itself, which it does not assign. -/
structure DirOk (names : List Hio.Name) (h : List DEv) : Prop where
  evs : HistOk (evsOf h)
  items : ∀ o ∈ itemsOf h, Head.HOk o
  named : ∀ o ∈ itemsOf h, ∀ n a, Head.assigns n o = some a → n ∈ names ∧ n ∉ reserved
  own : ∀ n ∈ reserved, n ∈ names
  few : names.length < 1023

/-- a data set that is closed holds something -/
def Filled : Writer → List Ev → Prop
  | _, [] => True
  | w, e :: es => (e = .reopen → 0 < w.offset ∧ w.vars ≠ []) ∧ ∀ w', wstep w e = some w' → Filled w' es

theorem dirStep_ev (c : Conv) (g : Nat → Byte) (d : Dir) {e : Ev} (he : e ≠ .reopen) :
    dirStep c g d (.ev e) = (wstep d.w e).map fun w => { d with w := w } := by
  cases e with
  | reopen => exact absurd rfl he
  | _ => rfl

theorem step_inv {names : List Hio.Name} {c : Conv} {g : Nat → Byte} {d : Dir} {w w' : Writer} {fl : Nat} {D : Dataset}
    {e : Ev} (hd : DInv names d w fl D) (hw : wstep w e = some w') (hok : EvOk e) (he : e ≠ .reopen)
    (hp : Apart names (table w')) :
    ∃ d', dirStep c g d (.ev e) = some d' ∧ DInv names d' w' fl D := by
  obtain ⟨pre, o, F0, o0, ts, s1, s2, s3, s4, s5, s6, s7, s8, s9⟩ := hd.stream
  obtain ⟨x, x1, x2⟩ := wstep_out hw
  obtain ⟨ts', t1, t2, t3⟩ := wstep_toks hw hok he
  have u1 := wstep_tabled hw hd.tabled fun p hpm => (hp p hpm).1
  have hx : x = layout w.offset ts' := List.append_cancel_left (x1.symm.trans t2)
  refine ⟨{ d with w := { w' with out := o ++ x } }, ?_, hd.good, u1, hp, hd.flags, hd.wide, ?_, fun ho => ?_,
    hd.fresh, Nat.le_trans hd.bound (wstep_table hw).length_le⟩
  · rw [dirStep_ev c g d he, s1, x2 o]
    rfl
  · refine ⟨pre, o ++ x, F0, o0, ts ++ ts', rfl, ?_, ?_, ?_, ?_, s6, s7, s8, s9⟩
    · rw [x1, s2, List.append_assoc]
    · rw [layout_append, s3, hx, s4]
    · rw [t3, finL_append, s4]
    · intro t ht
      rcases List.mem_append.1 ht with h | h
      · exact s5 t h
      · exact t1 t h
  · have hs := hd.saved ho
    show D itVartable = some (flatOf itVartable (textChunks 0 (((table w').take d.saved).map tableLine)))
    obtain ⟨r, hr⟩ := wstep_table hw
    rw [← hr, List.take_append_of_le_length hd.bound]
    exact hs

theorem reopen_inv {names : List Hio.Name} {c : Conv} {g : Nat → Byte} {d : Dir} {w : Writer} {fl : Nat} {D : Dataset}
    (hd : DInv names d w fl D) (hres : ∀ n ∈ reserved, n ∈ names) (h0 : 0 < w.offset) (hb : w.offset ≤ 2 ^ 31)
    (hv : w.vars ≠ []) (hfl : fl < 2 ^ 63) :
    ∃ d' D', dirStep c g d (.ev .reopen) = some d' ∧ DInv names d' (reopen w) fl D' ∧ ∀ n, n ∉ reserved → D' n = D n := by
  obtain ⟨t, D', e, hc, ho⟩ := close_ok hd hres g h0 hb hv
  obtain ⟨d', e', hd'⟩ := append_ok hc hb hfl g
  refine ⟨d', D', ?_, hd', ho⟩
  show (closeDir d g).bind (fun t => openAppend t g) = _
  rw [e]
  exact e'

theorem item_inv {names : List Hio.Name} {c : Conv} {g : Nat → Byte} {d : Dir} {w : Writer} {fl : Nat} {D : Dataset}
    (hd : DInv names d w fl D) {o : HOp} (ho : Head.HOk o)
    (hn : ∀ n a, Head.assigns n o = some a → n ∈ names ∧ n ∉ reserved) :
    ∃ d', dirStep c g d (.item o) = some d' ∧ DInv names d' w fl (Head.after c D o) := by
  obtain ⟨hs, -⟩ := Head.hstep_rel hd.good.rel c o ho
  have hres : ∀ n, n ∈ reserved → Head.after c D o n = D n := by
    intro n hnr
    unfold Head.after
    cases ha : Head.assigns n o with
    | none => rfl
    | some a => exact absurd hnr (hn n a ha).2
  rcases hs with ⟨_, hc⟩ | ⟨t', e, hr, _⟩
  · have := hd.good.items
    omega
  · refine ⟨{ d with t := t' }, ?_, ⟨hr, fun n F hF => ?_, hd.good.few⟩, hd.tabled, hd.apart, hd.flags, hd.wide, ?_, fun ho => ?_,
      hd.fresh, hd.bound⟩
    · show ((hstep c d.t o).toOption).map _ = _
      rw [e]
      rfl
    · unfold Head.after at hF
      cases ha : Head.assigns n o with
      | none => rw [ha] at hF; exact hd.good.named n F hF
      | some a => exact (hn n a ha).1
    · obtain ⟨pre, o', F0, o0, ts, s1, s2, s3, s4, s5, s6, s7, s8, s9⟩ := hd.stream
      exact ⟨pre, o', F0, o0, ts, s1, s2, s3, s4, s5, s6, s7, fun h => by rw [hres _ (by decide)]; exact s8 h, s9⟩
    · rw [hres _ (by decide)]
      exact hd.saved ho

theorem reopen_offset (w : Writer) : w.offset ≤ (reopen w).offset := (roundup8 w.offset).1

theorem dirRun_ok (c : Conv) (g : Nat → Byte) {names : List Hio.Name} {h : List DEv} : ∀ {d : Dir} {w w' : Writer} {fl : Nat}
    {D : Dataset}, DInv names d w fl D → wrun w (evsOf h) = some w' → DirOk names h → Apart names (table w') → w'.offset ≤ 2 ^ 31 →
    fl + flagsOf h < 2 ^ 63 → Filled w (evsOf h) →
    ∃ d' D', dirRun c g d h = some d' ∧ DInv names d' w' (fl + flagsOf h) D' ∧
      ∀ n, n ∉ reserved → D' n = ((Head.lastOf (itemsOf h) n).map fun a => flatOf n (Head.chunksOf c n a)).or (D n) := by
  induction h with
  | nil =>
    intro d w w' fl D hd hr _ _ _ _ _
    simp only [evsOf, wrun, Option.some.injEq] at hr
    subst hr
    exact ⟨d, D, rfl, hd, fun n _ => rfl⟩
  | cons x h ih =>
    intro d w w' fl D hd hr hok hap hb hfl hfi
    cases x with
    | ev e =>
      have hok' : DirOk names h := ⟨fun e' he' => hok.evs e' (List.mem_cons_of_mem _ he'), hok.items, hok.named, hok.own, hok.few⟩
      simp only [evsOf, wrun] at hr
      cases hw : wstep w e with
      | none => rw [hw] at hr; simp at hr
      | some w1 =>
        rw [hw] at hr
        have hr' : wrun w1 (evsOf h) = some w' := hr
        have hle := wrun_offset hr'
        have hev := hok.evs e List.mem_cons_self
        have hfi' : Filled w1 (evsOf h) := hfi.2 w1 hw
        by_cases he : e = .reopen
        · subst he
          obtain ⟨h0, hv⟩ := hfi.1 rfl
          have hw1 : w1 = reopen w := by
            simp only [wstep, Option.some.injEq] at hw
            exact hw.symm
          subst hw1
          have := reopen_offset w
          obtain ⟨d1, D1, e1, i1, o1⟩ := reopen_inv (c := c) (g := g) hd hok.own h0 (by omega) hv (by omega)
          obtain ⟨d2, D2, e2, i2, o2⟩ := ih i1 hr' hok' hap hb hfl hfi'
          refine ⟨d2, D2, ?_, i2, fun n hn => ?_⟩
          · rw [dirRun, e1]; exact e2
          · rw [o2 n hn, o1 n hn]; rfl
        · obtain ⟨d1, e1, i1⟩ := step_inv (c := c) (g := g) hd hw hev he (fun p hp => hap p ((wrun_table hr').subset hp))
          obtain ⟨d2, D2, e2, i2, o2⟩ := ih i1 hr' hok' hap hb hfl hfi'
          refine ⟨d2, D2, ?_, i2, o2⟩
          rw [dirRun, e1]; exact e2
    | flags n =>
      have hok' : DirOk names h := ⟨hok.evs, hok.items, hok.named, hok.own, hok.few⟩
      have i1 : DInv names { d with ncorr := d.ncorr + n } w (fl + n) D :=
        ⟨hd.good, hd.tabled, hd.apart, by show d.ncorr + n = _; rw [hd.flags], hd.wide, hd.stream, hd.saved, hd.fresh, hd.bound⟩
      have hfs : flagsOf (.flags n :: h) = n + flagsOf h := rfl
      obtain ⟨d2, D2, e2, i2, o2⟩ := ih i1 hr hok' hap hb (by omega) hfi
      refine ⟨d2, D2, e2, ?_, o2⟩
      rw [hfs, ← Nat.add_assoc]
      exact i2
    | item o =>
      have hok' : DirOk names h := ⟨hok.evs, fun o' ho' => hok.items o' (List.mem_cons_of_mem _ ho'),
        fun o' ho' => hok.named o' (List.mem_cons_of_mem _ ho'), hok.own, hok.few⟩
      obtain ⟨d1, e1, i1⟩ := item_inv (c := c) (g := g) hd (hok.items o List.mem_cons_self) (hok.named o List.mem_cons_self)
      obtain ⟨d2, D2, e2, i2, o2⟩ := ih i1 hr hok' hap hb hfl hfi
      refine ⟨d2, D2, ?_, i2, fun n hn => ?_⟩
      · rw [dirRun, e1]; exact e2
      · rw [o2 n hn]
        show _ = ((Head.lastOf (o :: itemsOf h) n).map _).or (D n)
        rw [Head.lastOf_cons]
        unfold Head.after
        cases Head.lastOf (itemsOf h) n with
        | some a => rfl
        | none =>
          cases Head.assigns n o with
          | none => rfl
          | some a => rfl

theorem newDir_inv {names : List Hio.Name} (hf : names.length < 1023) : DInv names newDir newWriter 0 (fun _ => none) := by
  refine ⟨⟨Hio.new_rel, ?_, hf⟩, ⟨List.nodup_nil, Nat.zero_le _, ?_⟩, ?_, rfl, rfl,
    ⟨[], [], Flat.none false, 0, [], rfl, rfl, rfl, rfl, ?_, tied_none, ?_, ?_, fun _ => rfl⟩, ?_, fun _ => rfl, Nat.le_refl _⟩
  · intro n F h; cases h
  · intro p hp; cases hp
  · intro p hp; cases hp
  · intro t ht; cases ht
  · intro wr hw; cases hw
  · intro h; cases h
  · intro h; cases h

/-- the data set that is left behind -/
theorem directory_ok (c : Conv) (g : Nat → Byte) {names : List Hio.Name} {h : List DEv} {w : Writer}
    (hr : wrun newWriter (evsOf h) = some w) (hok : DirOk names h)
    (hap : Apart names (table w)) (hb : w.offset ≤ 2 ^ 31) (hfl : flagsOf h < 2 ^ 63)
    (hfi : Filled newWriter (evsOf h)) (h0 : 0 < w.offset) (hv : w.vars ≠ []) :
    ∃ t D, directory c g h = some t ∧ Closed names t w (flagsOf h) D ∧
      ∀ n, n ∉ reserved → D n = (Head.lastOf (itemsOf h) n).map fun a => flatOf n (Head.chunksOf c n a) := by
  obtain ⟨d, D, e, hd, ho⟩ := dirRun_ok c g (newDir_inv hok.few) hr hok hap hb (by omega) hfi
  rw [Nat.zero_add] at hd
  obtain ⟨t, D', e', hc, ho'⟩ := close_ok hd hok.own g h0 hb hv
  refine ⟨t, D', ?_, hc, fun n hn => ?_⟩
  · unfold directory
    rw [e]
    exact e'
  · rw [ho' n hn, ho n hn, Option.or_none]

end Verif.Mir.Uv
