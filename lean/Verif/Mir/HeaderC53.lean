import Verif.Mir.HeaderProps

/-!
# Header items keep their type and value (C53, C54): the theorems
-/
namespace Verif.Mir.Head

open Verif.Mir.Hio
open Verif.Mir.Uv (FloatOps word be32 be64 ofBe32 signed32)

/-! ## Helpers -/

theorem openItem_some {t : Tree} {D : Dataset} (h : Rel t D) (hl : t.items.length < 1023) (n : Name) (F : Flat)
    (hD : D n = some F) (g : Nat → Byte) : ∃ it, openItem t n g = .ok it ∧ Inv 1 it F ∧ Fresh it := by
  unfold openItem
  rcases openRead_some h n F hD (Nat.one_dvd _) g with ⟨e, hc⟩ | ⟨it, e, hI, hf⟩
  · omega
  · rw [e]
    exact ⟨it, rfl, hI, hf⟩

theorem openItem_none {t : Tree} {D : Dataset} (h : Rel t D) (hl : t.items.length < 1023) (n : Name)
    (hD : D n = none) (g : Nat → Byte) : openItem t n g = .error .io := by
  unfold openItem
  rcases openRead_none h n hD g with ⟨e, hc⟩ | e
  · omega
  · rw [e]

theorem run_new (c : Conv) (ops : List HOp) (hops : ∀ o ∈ ops, HOk o) (hfew : Few ops) :
    ∃ t D, hrun c newTree ops = .ok t ∧ Rel t D ∧ t.items.length < 1023 ∧
      (∀ n, lastOf ops n = none → D n = none) ∧
      ∀ n a, lastOf ops n = some a → AsgOk n a ∧ D n = some (flatOf n (chunksOf c n a)) := by
  obtain ⟨names, hlen, hnm⟩ := hfew
  obtain ⟨t, D, e, h, hl, hD, ha⟩ := hrun_rel c names hlen ops newTree _ new_rel (fun n F hF => by cases hF) hops hnm
  refine ⟨t, D, e, h, hl, fun n hn => ?_, fun n a hn => ⟨ha n a hn, ?_⟩⟩
  · rw [hD n, hn]; rfl
  · rw [hD n, hn]; rfl

theorem hrun_cons {c : Conv} {t t1 : Tree} {o : HOp} (h : hstep c t o = .ok t1) (os : List HOp) :
    hrun c t (o :: os) = hrun c t1 os := by
  rw [hrun, h]

theorem hrun_one {c : Conv} {t t1 : Tree} {o : HOp} (h : hrun c t [o] = .ok t1) : hstep c t o = .ok t1 := by
  cases hx : hstep c t o with
  | error e => rw [hrun, hx] at h; cases h
  | ok x => rw [hrun, hx] at h; exact h

/-- an item of one number: the tag, and the number behind it -/
theorem num_item {t : Tree} {D : Dataset} (h : Rel t D) (hl : t.items.length < 1023) (n : Name) (ty : Ty)
    (bs : List Byte) (hbs : bs.length = ty.size) (hD : D n = some (flatOf n (typedChunks ty [bs]))) (g : Nat → Byte) :
    ∃ it it1, openItem t n g = .ok it ∧ it.size = ty.start + ty.size ∧
      hread it g 1 0 4 = .ok (it1, ty.tag.map some) ∧
      ∀ (α : Type) (dflt : α) (f : List Byte → α), single it1 g ty dflt f = .ok (f bs) := by
  obtain ⟨it, e, hI, hf⟩ := openItem_some h hl n _ hD g
  have hts := ty_size ty
  have ht4 : ty.tag.length = 4 := hts.2.2.1
  have ha : Asc 0 (typedChunks ty [bs]) := by
    refine typedChunks_asc ty _ (fun x hx => ?_) ?_
    · rw [List.mem_singleton.mp hx]; exact hbs
    · rw [List.length_singleton]; omega
  obtain ⟨hsz, hh⟩ := flat_holds n _ ha
  have hsz' : (flatOf n (typedChunks ty [bs])).size = ty.start + ty.size := by
    rw [hsz]
    show ty.start + bs.length = _
    rw [hbs]
  obtain ⟨it1, e1, i1, at1⟩ := read_chunk hI (fresh_rat hf) g (s := 1) (o := 0) (bs := ty.tag) (by decide) (by decide)
    (Nat.one_dvd _) (by cases ty <;> decide) (Or.inr rfl) (hh _ List.mem_cons_self)
  rw [ht4] at e1 at1
  refine ⟨it, it1, e, by rw [inv_size hI]; exact hsz', e1, fun α dflt f => ?_⟩
  obtain ⟨it2, e2, -, -⟩ := read_chunk i1 at1 g (s := ty.size) (o := ty.start) (bs := bs) hts.1 hts.2.1
    (by rw [hbs]; exact Nat.dvd_refl _) (by
      intro hn
      rw [hn] at hbs
      change 0 = ty.size at hbs
      omega) (hts.2.2.2.2.2.1) (hh _ (List.mem_cons_of_mem _ List.mem_cons_self))
  unfold single
  rw [hbs] at e2
  rw [inv_size i1, hsz', if_pos rfl, e2]
  simp only
  rw [bytes_map]

/-! ## From Python -/

/-- **C53.**  Header items from Python.  After any history of assignments (from Python and by the functions of
`headio.c`), flushes and reopenings of a new data set, none of which fails, `uv[name]` is the value last assigned to
`name`, whatever happened to other items in between; and an item that was never assigned is an `IOError`. -/
theorem c53_python (c : Conv) (ops : List HOp) (hops : ∀ o ∈ ops, HOk o) (hfew : Few ops) :
    ∃ t, hrun c newTree ops = .ok t ∧ ∀ (n : Name) (k : Kind) (g : Nat → Byte), itype n = some k →
      (∀ v, lastOf ops n = some (.py v) → rdhd c t n g = .ok (shown c k v)) ∧
      (lastOf ops n = none → rdhd c t n g = .error .io) := by
  obtain ⟨t, D, e, h, hl, hn, hs⟩ := run_new c ops hops hfew
  refine ⟨t, e, fun n k g hk => ⟨fun v hv => ?_, fun hv => ?_⟩⟩
  · obtain ⟨⟨k', hk', hok⟩, hD⟩ := hs n _ hv
    rw [hk, Option.some.injEq] at hk'
    subst hk'
    rcases rdhd_rel h c n g v k hk hok hD with ⟨_, hc⟩ | e
    · omega
    · exact e
  · unfold rdhd
    rw [hk]
    simp only
    rw [openItem_none h hl n (hn n hv) g]

/-- a text, several complex numbers, a single number given as a list, an item reassigned after reopening, `freqs` -/
example : (∀ o ∈ [HOp.set obstype (fun _ => 0) (.str [99, 114, 111, 115, 115]),
      .set interval (fun _ => 0) (.many [.float 3]), .reopen (fun _ => 0), .set hist (fun _ => 0) (.str []),
      .set [98, 97, 110, 100, 112, 97, 115, 115] (fun _ => 0) (.many [.complex 1 2, .complex 3 4]),
      .set interval (fun _ => 0) (.one (.float 5)),
      .set freqs (fun _ => 0) (.many [.int 1, .int 16, .float 7, .float 8]), .flush (fun _ => 0)], HOk o) ∧
    Few [HOp.set interval (fun _ => 0) (.one (.float 5))] := by
  refine ⟨?_, [interval], by decide, ?_⟩
  · intro o ho
    simp only [List.mem_cons, List.not_mem_nil, or_false] at ho
    rcases ho with rfl | rfl | rfl | rfl | rfl | rfl | rfl | rfl
    · exact ⟨.text, by decide, by decide, by decide, by decide⟩
    · exact ⟨.num .dble, by decide, by intro e he; rw [List.mem_singleton.mp he]; show 3 < _; decide, by decide⟩
    · trivial
    · exact ⟨.text, by decide, by decide, by decide, by decide⟩
    · exact ⟨.num .cplx, by decide, by
        intro e he
        simp only [List.mem_cons, List.not_mem_nil, or_false] at he
        rcases he with rfl | rfl <;> trivial, by decide⟩
    · refine ⟨.num .dble, by decide, ?_⟩
      show 5 < _
      decide
    · refine ⟨.special, by decide, ⟨by decide, by decide⟩, by decide, ?_⟩
      intro i x hx
      match i, hx with
      | 0, hx => cases hx; exact ⟨by decide, by decide⟩
      | 1, hx => cases hx; show 7 < _; decide
      | 2, hx => cases hx; show 8 < _; decide
      | i + 3, hx => cases hx
    · trivial
  · intro o ho n a ha
    rw [List.mem_singleton.mp ho] at ha
    change (if interval = n then some (Asg.py (.one (.float 5))) else none) = some a at ha
    split at ha
    · rename_i h
      exact List.mem_singleton.mpr h.symm
    · cases ha

/-- **C54.**  `uv['freqs']`: the number of windows followed by (channels, frequency, increment) for each, any number of
times, reads back as assigned, after any history of other assignments, flushes and reopenings. -/
theorem c54_freqs (c : Conv) (ops : List HOp) (hops : ∀ o ∈ ops, HOk o) (hfew : Few ops) (l : List Elem)
    (hl : lastOf ops freqs = some (.py (.many l))) :
    ∃ t, hrun c newTree ops = .ok t ∧ ∀ g, rdhd c t freqs g = .ok (.many l) := by
  obtain ⟨t, e, h⟩ := c53_python c ops hops hfew
  exact ⟨t, e, fun g => (h freqs .special g (by decide)).1 _ hl⟩

/-- the layout of `freqs` for a list of spectral windows -/
def windows (ws : List (Int × Nat × Nat)) : List Elem :=
  .int ws.length :: ws.flatMap fun w => [.int w.1, .float w.2.1, .float w.2.2]

/-- **C54.**  The same for a table of spectral windows: assigning it is accepted, and it reads back, whatever their
number (as far as the item stays below 2^31 bytes) -/
theorem c54_windows (c : Conv) (ws : List (Int × Nat × Nat)) (hws : ∀ w ∈ ws, (-2 ^ 31 ≤ w.1 ∧ w.1 < 2 ^ 31) ∧
    w.2.1 < 2 ^ 64 ∧ w.2.2 < 2 ^ 64) (hlen : 8 + 24 * ws.length ≤ 2 ^ 31) (g g1 g2 : Nat → Byte) :
    ∃ t t1, wrhd c newTree freqs g (.many (windows ws)) = .ok t ∧ reopenTree t g1 = .ok t1 ∧
      rdhd c t freqs g2 = .ok (.many (windows ws)) ∧ rdhd c t1 freqs g2 = .ok (.many (windows ws)) := by
  have hflat : ∀ (ws : List (Int × Nat × Nat)), (∀ w ∈ ws, (-2 ^ 31 ≤ w.1 ∧ w.1 < 2 ^ 31) ∧ w.2.1 < 2 ^ 64 ∧
      w.2.2 < 2 ^ 64) → ∀ i x, (ws.flatMap fun w => [Elem.int w.1, .float w.2.1, .float w.2.2])[i]? = some x →
      ElemOk (if i % 3 = 0 then .int else .dble) x := by
    intro ws
    induction ws with
    | nil => intro _ i x hx; cases hx
    | cons w ws ih =>
      intro hw i x hx
      obtain ⟨h1, h2, h3⟩ := hw w List.mem_cons_self
      match i, hx with
      | 0, hx => cases hx; exact h1
      | 1, hx => cases hx; exact h2
      | 2, hx => cases hx; exact h3
      | i + 3, hx =>
        have := ih (fun w' hw' => hw w' (List.mem_cons_of_mem _ hw')) i x hx
        rw [show (i + 3) % 3 = i % 3 by omega]
        exact this
  have hlen3 : (ws.flatMap fun w => [Elem.int w.1, .float w.2.1, .float w.2.2]).length = 3 * ws.length := by
    clear hws hlen hflat
    induction ws with
    | nil => rfl
    | cons w ws ih => rw [List.flatMap_cons, List.length_append, ih, List.length_cons]; simp only [List.length_cons, List.length_nil]; omega
  have hok : HOk (.set freqs g (.many (windows ws))) := by
    refine ⟨.special, by decide, ⟨?_, ?_⟩, ?_, hflat ws hws⟩
    · omega
    · omega
    · rw [hlen3]; omega
  have hfew : ∀ ops : List HOp, (∀ o ∈ ops, ∀ n a, assigns n o = some a → n = freqs) → Few ops := fun ops h =>
    ⟨[freqs], by decide, fun o ho n a ha => List.mem_singleton.mpr (h o ho n a ha)⟩
  have hset : ∀ n a, assigns n (.set freqs g (.many (windows ws))) = some a → n = freqs := by
    intro n a ha
    change (if freqs = n then _ else _) = _ at ha
    split at ha
    · rename_i h; exact h.symm
    · cases ha
  obtain ⟨t1, e1, r1⟩ := c54_freqs c [.set freqs g (.many (windows ws)), .reopen g1]
    (by
      intro o ho
      rcases List.mem_cons.mp ho with rfl | ho
      · exact hok
      · rw [List.mem_singleton.mp ho]; trivial)
    (hfew _ (by
      intro o ho n a ha
      rcases List.mem_cons.mp ho with rfl | ho
      · exact hset n a ha
      · rw [List.mem_singleton.mp ho] at ha; cases ha)) (windows ws) rfl
  obtain ⟨t, e, r⟩ := c54_freqs c [.set freqs g (.many (windows ws))]
    (by
      intro o ho
      rw [List.mem_singleton.mp ho]
      exact hok)
    (hfew _ (by
      intro o ho n a ha
      rw [List.mem_singleton.mp ho] at ha
      exact hset n a ha)) (windows ws) rfl
  have hw0 : hstep c newTree (.set freqs g (.many (windows ws))) = .ok t := hrun_one e
  have hw : wrhd c newTree freqs g (.many (windows ws)) = .ok t := hw0
  refine ⟨t, t1, hw, ?_, r g2, r1 g2⟩
  have h1 := hrun_one ((hrun_cons hw0 _).symm.trans e1)
  change ofT (reopenTree t g1) = .ok t1 at h1
  cases hx : reopenTree t g1 with
  | error x =>
    rw [hx] at h1
    cases x <;> cases h1
  | ok x =>
    rw [hx] at h1
    change Except.ok x = Except.ok t1 at h1
    cases h1
    rfl

example : (∀ w ∈ [((16 : Int), 7, 8), (32, 9, 10), (-1, 0, 2 ^ 63)], (-2 ^ 31 ≤ w.1 ∧ w.1 < 2 ^ 31) ∧
    w.2.1 < 2 ^ 64 ∧ w.2.2 < 2 ^ 64) ∧
    windows [(16, 7, 8), (32, 9, 10)] = [.int 2, .int 16, .float 7, .float 8, .int 32, .float 9, .float 10] := by
  decide

/-! ## `headio.c` -/

/-- a number an item was given, from Python or by `wrhdX_c` -/
def asNum (n : Name) : Asg → Option Num
  | .num x => some x
  | .py (.one (.int i)) => if itype n = some (.num .int) then some (.int i) else none
  | .py (.one (.float x)) => if itype n = some (.num .dble) then some (.dble x) else none
  | _ => none

theorem asNum_chunks (c : Conv) (n : Name) (a : Asg) (x : Num) (ha : AsgOk n a) (h : asNum n a = some x) :
    NumOk x ∧ chunksOf c n a = typedChunks x.ty [x.bytes] := by
  cases a with
  | num y =>
    cases h
    exact ⟨ha, rfl⟩
  | chars s => cases h
  | py v =>
    obtain ⟨k, hk, hv⟩ := ha
    cases v with
    | str => cases h
    | many => cases h
    | one e =>
      cases e with
      | complex => cases h
      | int i =>
        change (if itype n = some (.num .int) then some (Num.int i) else none) = some x at h
        split at h
        · rename_i hi
          cases h
          rw [hk, Option.some.injEq] at hi
          subst hi
          refine ⟨hv, ?_⟩
          have := (elem_length c .int (.int i) hv).2
          obtain ⟨h1, h2⟩ : -2 ^ 31 ≤ i ∧ i < 2 ^ 31 := hv
          have e : elemBytes c .int (.int i) = some (word i) := if_pos (by omega)
          rw [e, Option.some.injEq] at this
          unfold chunksOf
          rw [hk]
          simp only
          rw [← this]
          rfl
        · cases h
      | float y =>
        change (if itype n = some (.num .dble) then some (Num.dble y) else none) = some x at h
        split at h
        · rename_i hi
          cases h
          rw [hk, Option.some.injEq] at hi
          subst hi
          refine ⟨hv, ?_⟩
          unfold chunksOf
          rw [hk]
          rfl
        · cases h

theorem int8_back (n : Int) (h : -2 ^ 63 ≤ n ∧ n < 2 ^ 63) :
    Int.bmod (ofBe64 (be64 (n % 2 ^ 64).toNat)) (2 ^ 64) = n := by
  rw [be64_back _ (by omega)]
  unfold Int.bmod
  dsimp only
  split <;> omega

theorem tag_ne (a b : Ty) (h : a ≠ b) : a.tag ≠ b.tag := by
  revert h
  cases a <;> cases b <;> decide

/-- **C53.**  Integers.  An item given an integer (`wrhdi_c`, `wrhdl_c`, or from Python) reads back exactly with
`rdhdl_c`, and with `rdhdi_c` if it has 32 bits; an integer too large for `rdhdi_c`, or an item of another type, is an
error; an item never assigned gives the default. -/
theorem c53_integers (c : Conv) (ops : List HOp) (hops : ∀ o ∈ ops, HOk o) (hfew : Few ops) :
    ∃ t, hrun c newTree ops = .ok t ∧ ∀ (n : Name) (g : Nat → Byte) (d : Int),
      (lastOf ops n = none → rdhdl t n g d = .ok d ∧ (-2 ^ 31 ≤ d → d < 2 ^ 31 → rdhdi t n g d = .ok d)) ∧
      ∀ a x, lastOf ops n = some a → asNum n a = some x →
        (∀ i, x = .int i ∨ x = .int8 i → rdhdl t n g d = .ok i ∧
          (-2 ^ 31 ≤ i → i < 2 ^ 31 → rdhdi t n g d = .ok i) ∧ (2 ^ 31 ≤ i → rdhdi t n g d = .error .fatal)) ∧
        ((∀ i, x ≠ .int i ∧ x ≠ .int8 i) → rdhdl t n g d = .error .fatal ∧ rdhdi t n g d = .error .fatal) := by
  obtain ⟨t, D, e, h, hl, hn, hs⟩ := run_new c ops hops hfew
  have hi : ∀ (n : Name) (g : Nat → Byte) (d i : Int), rdhdl t n g d = .ok i →
      (-2 ^ 31 ≤ i → i < 2 ^ 31 → rdhdi t n g d = .ok i) ∧ (2 ^ 31 ≤ i → rdhdi t n g d = .error .fatal) := by
    intro n g d i hr
    unfold rdhdi
    rw [hr]
    simp only
    refine ⟨fun h1 h2 => ?_, fun h1 => ?_⟩
    · rw [if_neg (by omega)]
      congr 1
      unfold Int.bmod; dsimp only; split <;> omega
    · rw [if_pos (by omega)]
  refine ⟨t, e, fun n g d => ⟨fun hv => ?_, fun a x ha hx => ?_⟩⟩
  · have hr : rdhdl t n g d = .ok d := by
      unfold rdhdl
      rw [openItem_none h hl n (hn n hv) g]
    exact ⟨hr, (hi n g d d hr).1⟩
  · obtain ⟨hao, hD⟩ := hs n a ha
    obtain ⟨hxo, hch⟩ := asNum_chunks c n a x hao hx
    rw [hch] at hD
    obtain ⟨it, it1, o1, o2, o3, o4⟩ := num_item h hl n x.ty x.bytes (num_length x) hD g
    have hr : rdhdl t n g d = (if x.ty.tag = Ty.int8.tag then single it1 g .int8 d (fun bs => Int.bmod (ofBe64 bs) (2 ^ 64))
        else if x.ty.tag = Ty.int.tag then single it1 g .int d (fun bs => signed32 (ofBe32 bs)) else .error .fatal) := by
      unfold rdhdl
      rw [o1]
      simp only
      rw [o3]
      simp only
      rw [bytes_map]
    refine ⟨fun i hxi => ?_, fun hno => ?_⟩
    · have hr2 : rdhdl t n g d = .ok i := by
        rcases hxi with rfl | rfl
        · simp only [Num.ty] at hr o4
          rw [hr, if_neg (by decide), if_pos trivial, o4]
          show Except.ok (signed32 (ofBe32 (word i))) = _
          rw [word_back i hxo]
        · simp only [Num.ty] at hr o4
          rw [hr, if_pos trivial, o4]
          simp only [Num.bytes]
          rw [int8_back i hxo]
      exact ⟨hr2, hi n g d i hr2⟩
    · have hr2 : rdhdl t n g d = .error .fatal := by
        have h1 : x.ty ≠ .int8 ∧ x.ty ≠ .int := by
          cases x with
          | int i => exact absurd rfl (hno i).1
          | int8 i => exact absurd rfl (hno i).2
          | _ => exact ⟨(by intro h; cases h), (by intro h; cases h)⟩
        rw [hr, if_neg (tag_ne _ _ h1.1), if_neg (tag_ne _ _ h1.2)]
      refine ⟨hr2, ?_⟩
      unfold rdhdi
      rw [hr2]

/-- the `double` that a number is -/
def asDouble (c : Conv) : Num → Option Nat
  | .int i => some (c.ofInt i)
  | .real x => some (c.widen x)
  | .dble x => some x
  | _ => none

/-- **C53.**  Floating point numbers.  `rdhdd_c` returns a double as it was given, and a single precision number or
a 32-bit integer converted to double; an item of another type or never assigned gives the default.  `rdhdr_c` is the
same rounded to single precision. -/
theorem c53_doubles (c : Conv) (ops : List HOp) (hops : ∀ o ∈ ops, HOk o) (hfew : Few ops) :
    ∃ t, hrun c newTree ops = .ok t ∧ ∀ (n : Name) (g : Nat → Byte) (d : Nat),
      (lastOf ops n = none → rdhdd c t n g d = .ok d ∧ rdhdr c t n g d = .ok (c.round d)) ∧
      ∀ a x, lastOf ops n = some a → asNum n a = some x →
        rdhdd c t n g d = .ok ((asDouble c x).getD d) ∧ rdhdr c t n g d = .ok (c.round ((asDouble c x).getD d)) := by
  obtain ⟨t, D, e, h, hl, hn, hs⟩ := run_new c ops hops hfew
  have hi : ∀ (n : Name) (g : Nat → Byte) (d y : Nat), rdhdd c t n g d = .ok y → rdhdr c t n g d = .ok (c.round y) := by
    intro n g d y hr
    unfold rdhdr
    rw [hr]
    rfl
  refine ⟨t, e, fun n g d => ⟨fun hv => ?_, fun a x ha hx => ?_⟩⟩
  · have hr : rdhdd c t n g d = .ok d := by
      unfold rdhdd
      rw [openItem_none h hl n (hn n hv) g]
    exact ⟨hr, hi n g d d hr⟩
  · obtain ⟨hao, hD⟩ := hs n a ha
    obtain ⟨hxo, hch⟩ := asNum_chunks c n a x hao hx
    rw [hch] at hD
    obtain ⟨it, it1, o1, o2, o3, o4⟩ := num_item h hl n x.ty x.bytes (num_length x) hD g
    have hr : rdhdd c t n g d = (if x.ty.tag = Ty.int.tag then single it1 g .int d (fun bs => c.ofInt (signed32 (ofBe32 bs)))
        else if x.ty.tag = Ty.real.tag then single it1 g .real d (fun bs => c.widen (ofBe32 bs))
        else if x.ty.tag = Ty.dble.tag then single it1 g .dble d ofBe64 else .ok d) := by
      unfold rdhdd
      rw [o1]
      simp only
      rw [o3]
      simp only
      rw [bytes_map]
    have hr2 : rdhdd c t n g d = .ok ((asDouble c x).getD d) := by
      rw [hr]
      cases x with
      | int i =>
        simp only [Num.ty] at o4 ⊢
        rw [if_pos trivial, o4]
        show Except.ok (c.ofInt (signed32 (ofBe32 (word i)))) = _
        rw [word_back i hxo]
        rfl
      | int8 i =>
        rw [if_neg (tag_ne (Num.int8 i).ty .int (by intro h; cases h)), if_neg (tag_ne (Num.int8 i).ty .real (by intro h; cases h)),
          if_neg (tag_ne (Num.int8 i).ty .dble (by intro h; cases h))]
        rfl
      | real y =>
        simp only [Num.ty] at o4 ⊢
        rw [if_neg (by decide), if_pos trivial, o4]
        show Except.ok (c.widen (ofBe32 (be32 y))) = _
        rw [Uv.ofBe32_be32 y hxo]
        rfl
      | dble y =>
        simp only [Num.ty] at o4 ⊢
        rw [if_neg (by decide), if_neg (by decide), if_pos trivial, o4]
        show Except.ok (ofBe64 (be64 y)) = _
        rw [be64_back y hxo]
        rfl
      | cplx re im =>
        rw [if_neg (tag_ne (Num.cplx re im).ty .int (by intro h; cases h)), if_neg (tag_ne (Num.cplx re im).ty .real (by intro h; cases h)),
          if_neg (tag_ne (Num.cplx re im).ty .dble (by intro h; cases h))]
        rfl
    exact ⟨hr2, hi n g d _ hr2⟩

/-- **C53.**  A single precision number is not changed by the detour through double precision in `rdhdr_c`, if the
conversions are what they should be -/
theorem c53_real (c : Conv) (hc : ∀ x, x < 2 ^ 32 → c.round (c.widen x) = x) (ops : List HOp)
    (hops : ∀ o ∈ ops, HOk o) (hfew : Few ops) :
    ∃ t, hrun c newTree ops = .ok t ∧ ∀ (n : Name) (g : Nat → Byte) (d x : Nat), lastOf ops n = some (.num (.real x)) →
      rdhdr c t n g d = .ok x := by
  obtain ⟨t, e, h⟩ := c53_doubles c ops hops hfew
  refine ⟨t, e, fun n g d x hx => ?_⟩
  have := ((h n g d).2 _ _ hx rfl).2
  rw [this]
  show Except.ok (c.round (c.widen x)) = _
  obtain ⟨_, _, _, _, _, _, hs⟩ := run_new c ops hops hfew
  rw [hc x (hs n _ hx).1]

/-- **C53.**  Complex numbers and the default -/
theorem c53_complex (c : Conv) (ops : List HOp) (hops : ∀ o ∈ ops, HOk o) (hfew : Few ops) :
    ∃ t, hrun c newTree ops = .ok t ∧ ∀ (n : Name) (g : Nat → Byte) (d : Nat × Nat),
      (lastOf ops n = none → rdhdc t n g d = .ok d) ∧
      (∀ re im, lastOf ops n = some (.num (.cplx re im)) → rdhdc t n g d = .ok (re, im)) ∧
      (∀ a x, lastOf ops n = some a → asNum n a = some x → (∀ re im, x ≠ .cplx re im) → rdhdc t n g d = .ok d) := by
  obtain ⟨t, D, e, h, hl, hn, hs⟩ := run_new c ops hops hfew
  refine ⟨t, e, fun n g d => ⟨fun hv => ?_, fun re im ha => ?_, fun a x ha hx hne => ?_⟩⟩
  · unfold rdhdc
    rw [openItem_none h hl n (hn n hv) g]
  · obtain ⟨hao, hD⟩ := hs n _ ha
    obtain ⟨it, it1, o1, o2, o3, o4⟩ := num_item h hl n .cplx (Num.cplx re im).bytes rfl hD g
    unfold rdhdc
    rw [o1]
    simp only
    rw [if_pos (show it.size = 16 from o2), o3]
    simp only
    rw [bytes_map, if_pos rfl, o4]
    obtain ⟨h1, h2⟩ := be32_pair re im hao.1 hao.2
    congr 1
    exact Prod.ext h1 h2
  · obtain ⟨hao, hD⟩ := hs n a ha
    obtain ⟨hxo, hch⟩ := asNum_chunks c n a x hao hx
    rw [hch] at hD
    obtain ⟨it, it1, o1, o2, o3, o4⟩ := num_item h hl n x.ty x.bytes (num_length x) hD g
    unfold rdhdc
    rw [o1]
    simp only
    by_cases hz : it.size = 16
    · rw [if_pos hz, o3]
      simp only
      rw [bytes_map, if_neg (tag_ne _ _ ?_)]
      cases x with
      | cplx re im => exact absurd rfl (hne re im)
      | _ => intro h; cases h
    · rw [if_neg hz]

/-- the item of `wrhda_c` -/
theorem chars_item {t : Tree} {D : Dataset} (h : Rel t D) (hl : t.items.length < 1023) (n : Name) (s : List Byte)
    (hs : s ≠ [] ∧ 4 + s.length ≤ 2 ^ 31) (c : Conv) (hD : D n = some (flatOf n (chunksOf c n (.chars s))))
    (g : Nat → Byte) :
    ∃ it it1, openItem t n g = .ok it ∧ it.size = 4 + s.length ∧ hread it g 1 0 4 = .ok (it1, Ty.char.tag.map some) ∧
      ∀ m, 0 < m → m ≤ s.length → ∃ it2, hread it1 g 1 4 m = .ok (it2, (s.take m).map some) := by
  obtain ⟨it, e, hI, hf⟩ := openItem_some h hl n _ hD g
  obtain ⟨ha, -⟩ := asg_asc c n (.chars s) hs
  obtain ⟨hsz, hh⟩ := flat_holds n _ ha
  have hsz' : (flatOf n (chunksOf c n (.chars s))).size = 4 + s.length := hsz
  obtain ⟨it1, e1, i1, at1⟩ := read_chunk hI (fresh_rat hf) g (s := 1) (o := 0) (bs := Ty.char.tag) (by decide)
    (by decide) (Nat.one_dvd _) (by decide) (Or.inr rfl) (hh _ List.mem_cons_self)
  refine ⟨it, it1, e, by rw [inv_size hI]; exact hsz', e1, fun m hm hml => ?_⟩
  have hlen : (s.take m).length = m := by rw [List.length_take]; omega
  have hold : Holds (flatOf n (chunksOf c n (.chars s))) (1, 4, s.take m) := by
    obtain ⟨_, h2⟩ := hh (1, 4, s) (List.mem_cons_of_mem _ List.mem_cons_self)
    refine ⟨?_, fun k b hk => h2 k b ?_⟩
    · show 4 + (s.take m).length ≤ _
      rw [hsz', hlen]; omega
    · have hkm : k < m := by
        have := (List.getElem?_eq_some_iff.mp hk).1
        simp only [List.length_take] at this
        omega
      have hk' : (s.take m)[k]? = some b := hk
      rw [List.getElem?_take_of_lt hkm] at hk'
      exact hk'
  obtain ⟨it2, e2, -, -⟩ := read_chunk i1 at1 g (s := 1) (o := 4) (bs := s.take m) (by decide) (Nat.one_dvd _)
    (Nat.one_dvd _) (by intro hn; rw [hn] at hlen; change 0 = m at hlen; omega) (Or.inr rfl) hold
  rw [hlen] at e2
  exact ⟨it2, e2⟩

/-- **C53.**  Text: `rdhda_c` returns what `wrhda_c` was given, cut to the buffer; the default (cut too) if the item was
never assigned, or is a number. -/
theorem c53_text (c : Conv) (ops : List HOp) (hops : ∀ o ∈ ops, HOk o) (hfew : Few ops) :
    ∃ t, hrun c newTree ops = .ok t ∧ ∀ (n : Name) (g : Nat → Byte) (d : List Byte) (len : Nat), 1 < len →
      (lastOf ops n = none → rdhda t n g d len = .ok (d.take (len - 1))) ∧
      (∀ s, lastOf ops n = some (.chars s) → rdhda t n g d len = .ok (s.take (len - 1))) ∧
      (∀ a x, lastOf ops n = some a → asNum n a = some x → rdhda t n g d len = .ok (d.take (len - 1))) := by
  obtain ⟨t, D, e, h, hl, hn, hs⟩ := run_new c ops hops hfew
  refine ⟨t, e, fun n g d len hlen => ⟨fun hv => ?_, fun s ha => ?_, fun a x ha hx => ?_⟩⟩
  · unfold rdhda
    rw [openItem_none h hl n (hn n hv) g]
  · obtain ⟨hao, hD⟩ := hs n _ ha
    obtain ⟨it, it1, o1, o2, o3, o4⟩ := chars_item h hl n s hao c hD g
    have hsl : 0 < s.length := List.length_pos_iff.mpr hao.1
    have hmin : min (it.size - 4) (len - 1) = min s.length (len - 1) := by rw [o2]; congr 1; omega
    obtain ⟨it2, o5⟩ := o4 (min s.length (len - 1)) (by omega) (by omega)
    unfold rdhda
    rw [o1]
    simp only
    rw [hmin, if_pos (by omega), o3]
    simp only
    rw [bytes_map, if_pos rfl, o5]
    simp only
    rw [bytes_map]
    congr 1
    by_cases hc : s.length ≤ len - 1
    · rw [Nat.min_eq_left hc, List.take_of_length_le (Nat.le_refl _), List.take_of_length_le hc]
    · rw [Nat.min_eq_right (by omega)]
  · obtain ⟨hao, hD⟩ := hs n a ha
    obtain ⟨hxo, hch⟩ := asNum_chunks c n a x hao hx
    rw [hch] at hD
    obtain ⟨it, it1, o1, o2, o3, o4⟩ := num_item h hl n x.ty x.bytes (num_length x) hD g
    unfold rdhda
    rw [o1]
    simp only
    have hsz := ty_size x.ty
    rw [if_pos (by omega), o3]
    simp only
    rw [bytes_map, if_neg (tag_ne _ _ ?_)]
    cases x <;> (intro h; cases h)

/-- histories as above: an integer of 64 bits, a text, a double from Python read with `rdhdd_c` -/
example : (∀ o ∈ [HOp.put [118, 105, 115, 108, 101, 110] (fun _ => 0) (.int8 (2 ^ 40)), .puta obstype (fun _ => 0) [97, 98],
      .set interval (fun _ => 0) (.one (.float 5)), .put [97] (fun _ => 0) (.cplx 1 2), .reopen (fun _ => 0)], HOk o) ∧
    asNum interval (.py (.one (.float 5))) = some (.dble 5) ∧
    lastOf [HOp.puta obstype (fun _ => 0) [97, 98], .put [97] (fun _ => 0) (.int 3), .reopen (fun _ => 0)] [97] =
      some (.num (.int 3)) := by
  refine ⟨?_, by decide, rfl⟩
  intro o ho
  simp only [List.mem_cons, List.not_mem_nil, or_false] at ho
  rcases ho with rfl | rfl | rfl | rfl | rfl
  · exact ⟨by decide, by decide, by decide⟩
  · exact ⟨by decide, by decide, by decide⟩
  · refine ⟨.num .dble, by decide, ?_⟩
    show 5 < _
    decide
  · exact ⟨by decide, by decide, by decide⟩
  · trivial

/-! ## Disagreements -/

/-- **C53, disagreement.**  A text written by `wrhda_c`, as `obstype` is by every program that writes visibilities, is
read from Python with the last byte of its tag in front. -/
theorem c53_obstype_tagged (c : Conv) (ops : List HOp) (hops : ∀ o ∈ ops, HOk o) (hfew : Few ops) :
    ∃ t, hrun c newTree ops = .ok t ∧ ∀ (n : Name) (g : Nat → Byte) (cs : List Nat), itype n = some .text →
      (∀ ch ∈ cs, 0 < ch ∧ ch < 128) → lastOf ops n = some (.chars (cs.map charByte)) →
        rdhd c t n g = .ok (.str (1 :: cs)) := by
  obtain ⟨t, D, e, h, hl, hn, hs⟩ := run_new c ops hops hfew
  refine ⟨t, e, fun n g cs hk hcs ha => ?_⟩
  obtain ⟨hao, hD⟩ := hs n _ ha
  obtain ⟨it, eo, hI, hf⟩ := openItem_some h hl n _ hD g
  obtain ⟨hasc, -⟩ := asg_asc c n (.chars (cs.map charByte)) hao
  obtain ⟨hsz, hh⟩ := flat_holds n _ hasc
  have hsz' : (flatOf n (chunksOf c n (.chars (cs.map charByte)))).size = 4 + (cs.map charByte).length := hsz
  generalize hF : flatOf n (chunksOf c n (.chars (cs.map charByte))) = F at hI hh hsz'
  -- the same bytes one by one
  let all : List Byte := Ty.char.tag ++ cs.map charByte
  have hall : ∀ k b, all[k]? = some b → F.known k = some b := by
    intro k b hk
    by_cases hk4 : k < 4
    · have h1 := (hh (1, 0, Ty.char.tag) List.mem_cons_self).2 k b
      rw [Nat.zero_add] at h1
      refine h1 ?_
      have : all[k]? = Ty.char.tag[k]? := List.getElem?_append_left hk4
      rw [← this]; exact hk
    · have h1 := (hh (1, 4, cs.map charByte) (List.mem_cons_of_mem _ List.mem_cons_self)).2 (k - 4) b
      rw [show 4 + (k - 4) = k by omega] at h1
      refine h1 ?_
      have : all[k]? = (cs.map charByte)[k - 4]? := List.getElem?_append_right (by show 4 ≤ k; omega)
      rw [← this]; exact hk
  have hallen : all.length = F.size := by
    rw [hsz']
    show (Ty.char.tag ++ cs.map charByte).length = _
    rw [List.length_append]
    rfl
  have hmem : ∀ (l : List Byte) (o : Nat), (∀ k b, l[k]? = some b → F.known (o + k) = some b) → o + l.length ≤ F.size →
      ∀ x ∈ chunksFrom 1 o (l.map fun b => [b]), Holds F x ∧ x.2.2.length = x.1 := by
    intro l
    induction l with
    | nil => intro o _ _ x hx; cases hx
    | cons b l ih =>
      intro o hk hle x hx
      rw [List.length_cons] at hle
      rcases List.mem_cons.mp hx with rfl | hx
      · refine ⟨⟨?_, fun k b' hb' => ?_⟩, rfl⟩
        · show o + 1 ≤ F.size
          omega
        · cases k with
          | zero => exact hk 0 b' hb'
          | succ k => cases hb'
      · refine ih (o + 1) (fun k b' hb' => ?_) (by omega) x hx
        rw [show o + 1 + k = o + (k + 1) by omega]
        exact hk (k + 1) b' hb'
  have hasc2 : Asc 0 (chunksFrom 1 0 (all.map fun b => [b])) := by
    refine chunksFrom_asc (Nat.one_dvd 8) _ 0 0 (Nat.one_dvd 0) ?_ (Nat.le_refl 0) (by decide) (Or.inr rfl) (fun _ => rfl) ?_
    · intro bs hbs
      rw [List.mem_map] at hbs
      obtain ⟨_, _, rfl⟩ := hbs
      exact ⟨rfl, by simp⟩
    · rw [List.length_map, hallen, hsz']
      have := hao.2
      omega
  have hlen1 : ∀ bs ∈ all.map (fun b => [b]), bs.length = 1 := by
    intro bs hbs
    rw [List.mem_map] at hbs
    obtain ⟨_, _, rfl⟩ := hbs
    rfl
  unfold rdhd
  rw [hk]
  simp only
  rw [eo]
  simp only
  unfold readItem
  rw [readPlan_right (F := F) g _ (chunksFrom 1 0 (all.map fun b => [b])) 0 _ it 0 hI (fresh_rat hf) hasc2
    (hmem all 0 (fun k b hk => by rw [Nat.zero_add]; exact hall k b hk) (by omega))
    (fun i x hx => by
      have := chunksFrom_get _ _ _ _ _ hx
      rw [this]
      simp)
    (by
      rw [chunksFrom_length, List.length_map]
      show F.size < 0 + all.length + 1
      omega)
    (by
      rw [chunksFrom_length, List.length_map, inv_size hI]
      omega), chunksFrom_map]
  have htxt : text (all.map fun b => [b]) = .ok (1 :: cs) := by
    show text ([0] :: [0] :: [0] :: [1] :: (cs.map charByte).map fun b => [b]) = _
    have h1 : text ((cs.map charByte).map fun b => [b]) = .ok cs := by
      rw [List.map_map]
      exact text_back cs hcs
    simp only [text]
    rw [h1]
    rfl
  rw [htxt]
  rfl

example : itype obstype = some .text ∧ lastOf [HOp.puta obstype (fun _ => 0) ([97, 98].map charByte)] obstype =
    some (.chars ([97, 98].map charByte)) := ⟨by decide, rfl⟩

/-- conversions for the examples below -/
def noConv : Conv := ⟨⟨fun _ => 0, fun _ => 0, fun _ => by decide⟩, fun _ => 0⟩

/-- **C53, disagreement.**  An empty text is not kept (`history` excepted). -/
theorem c53_empty_text_lost : ∃ t, wrhd noConv newTree obstype (fun _ => 0) (.str []) = .ok t ∧
    (∃ t1, reopenTree t (fun _ => 0) = .ok t1 ∧ rdhd noConv t1 obstype (fun _ => 0) = .error .io) :=
  ⟨_, rfl, _, rfl, rfl⟩

/-- **C53, disagreement.**  An integer beyond 32 bits is accepted and cut; `rdhdi_c` does the same to a negative
one of 64 bits. -/
theorem c53_integers_cut : (∃ t, wrhd noConv newTree [110, 116, 97, 117] (fun _ => 0) (.one (.int (2 ^ 32 + 5))) = .ok t ∧
      rdhd noConv t [110, 116, 97, 117] (fun _ => 0) = .ok (.one (.int 5))) ∧
    ∃ t, putNum newTree [97] (fun _ => 0) (.int8 (-2 ^ 32 - 1)) = .ok t ∧
      rdhdi t [97] (fun _ => 0) 0 = .ok (-1) := by
  refine ⟨⟨_, rfl, ?_⟩, _, rfl, ?_⟩ <;> decide +kernel

/-- **C53, disagreement.**  Text that is not ASCII is accepted and cannot be read (`é`). -/
theorem c53_non_ascii : ∃ t, wrhd noConv newTree obstype (fun _ => 0) (.str [233]) = .ok t ∧
    rdhd noConv t obstype (fun _ => 0) = .error .unicode := by
  refine ⟨_, rfl, ?_⟩
  decide +kernel

/-- **C53, disagreement.**  An integer is not a value for an item of doubles. -/
theorem c53_int_for_double : wrhd noConv newTree interval (fun _ => 0) (.one (.int 1)) = .error .value := rfl

end Verif.Mir.Head
