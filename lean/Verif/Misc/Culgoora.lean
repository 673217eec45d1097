import Verif.Misc.CatFiles
/-!
# The Culgoora catalog (C107)

`/repo/aipy/_src/culgoora.py` 21-65.  Simplified as in `CatFiles`.
-/
namespace Verif.Misc.Culgoora
open Verif.Util Verif.Misc Verif.Misc.CatFiles

variable {F : Type} [Field F]

/-! ## Model -/

/-- the arguments of `RadioFixedBody`; the flux may be `None` -/
structure CBody (F : Type) where
  ra : List Char
  dec : List Char
  jys : Option F
  index : F
  mfreq : F

/-- what a line gives; a source comes with its `(jys080, jys160, index)` of `metadata` -/
inductive CRow (F : Type)
  | skip
  | raise
  | src (s : Src (CBody F)) (md : Option F × Option F × Option F)

/-- culgoora.py 46-51: `jys080` and `jys160` after the flags were looked at -/
def unflag (j80 j160 index : Option F) (f160 f80 : List Char) : Option F × Option F :=
  if index.isNone && j80.isSome && j160.isSome then
    (if startsWith ['<'] f80 then none else j80, if startsWith ['<'] f160 then none else j160)
  else (j80, j160)

/-- culgoora.py 52-64 -/
def culgSrc (name : String) (ra dec : List Char) (j80 j160 index : Option F) : CRow F :=
  match index with
  | some ix => .src ⟨name, ra, dec, j160, ix, 160 / 1000⟩ (j80, j160, index)
  | none =>
    match j160 with
    | some x => .src ⟨name, ra, dec, some x, 0, 160 / 1000⟩ (j80, j160, index)
    | none => .src ⟨name, ra, dec, j80, 0, 80 / 1000⟩ (j80, j160, index)

/-- the body of the loop, culgoora.py 37-64; `text[6]` and `text[8]` are there when `text[10]` is -/
def culgRow (toFloat : List Char → Option F) (L : List Char) : CRow F :=
  let text := splitOn '\t' L
  if text.length ≤ 4 then .skip else
  match (text.headD []).head? with
  | none => .raise
  | some c => if isDigit c then
      if text.length ≤ 10 then .raise else
      let cell := fun k => (text[k]?).getD []
      let j := unflag (toFloat (cell 9)) (toFloat (cell 7)) (toFloat (cell 10)) (cell 6) (cell 8)
      culgSrc (String.ofList (stripBy isSpace (cell 2))) (colons (cell 0)) (colons (cell 1)) j.1 j.2 (toFloat (cell 10))
    else .skip

/-- `update_jys` and `cutoff` need a number: `None * x` is a TypeError, amp.py 33 -/
def usable (s : Src (CBody F)) : Bool := s.body.jys.isSome

/-! ## Specification -/

/-- what the table has of a source: the measurements, whether they are upper limits, and the index -/
structure Measured (F : Type) where
  s80 : Option F
  limit80 : Bool
  s160 : Option F
  limit160 : Bool
  index : Option F

/-- a row of the table: columns 0 to 2 are position and name, 6 to 10 limit and flux at 160 MHz, limit and flux at 80 MHz, index -/
structure IsRow (toFloat : List Char → Option F) (cells : List (List Char)) (name ra dec : List Char) (q : Measured F) : Prop where
  clean : Clean cells
  long : 10 < cells.length
  first : ∃ c s l, cells = (c :: s) :: l ∧ Digit c
  ra : ∃ c, cells[0]? = some c ∧ Coloned c ra
  dec : ∃ c, cells[1]? = some c ∧ Coloned c dec
  name : ∃ c, cells[2]? = some c ∧ Trimmed c name
  s160 : ∃ c, cells[7]? = some c ∧ toFloat c = q.s160
  s80 : ∃ c, cells[9]? = some c ∧ toFloat c = q.s80
  index : ∃ c, cells[10]? = some c ∧ toFloat c = q.index
  limit160 : ∃ c, cells[6]? = some c ∧ (q.limit160 = true ↔ ∃ r, c = '<' :: r)
  limit80 : ∃ c, cells[8]? = some c ∧ (q.limit80 = true ↔ ∃ r, c = '<' :: r)

/-- the docstring of `fromfile`: with both measurements the flux at 160 MHz and the computed index, with one the flux and the frequency
of that one and index 0; upper limits are no measurements -/
def AsDocumented (q : Measured F) (b : CBody F) : Prop :=
  let m80 := if q.limit80 then none else q.s80
  let m160 := if q.limit160 then none else q.s160
  (∀ x y, m80 = some x → m160 = some y → b.jys = some y ∧ b.mfreq * 1000 = 160 ∧ q.index = some b.index) ∧
  (∀ y, m80 = none → m160 = some y → b.jys = some y ∧ b.mfreq * 1000 = 160 ∧ b.index = 0) ∧
  (∀ x, m80 = some x → m160 = none → b.jys = some x ∧ b.mfreq * 1000 = 80 ∧ b.index = 0)

/-! ## Lemmas -/

theorem prefix_iff {c : List Char} {b : Bool} (h : b = true ↔ ∃ r, c = '<' :: r) : startsWith ['<'] c = b := by
  cases b with
  | true =>
    obtain ⟨r, rfl⟩ := h.1 rfl
    rfl
  | false =>
    cases c with
    | nil => rfl
    | cons d c =>
      have hd : d ≠ '<' := fun e => by
        have := h.2 ⟨c, by rw [e]⟩
        cases this
      simp [startsWith, List.isPrefixOf, Ne.symm hd]

/-- a row gives what `unflag` and `culgSrc` make of it -/
theorem row_eq {toFloat : List Char → Option F} (hnl : ∀ s, toFloat (s ++ ['\n']) = toFloat s) {cells : List (List Char)}
    {name ra dec : List Char} {q : Measured F} (h : IsRow toFloat cells name ra dec q) :
    culgRow toFloat (joinWith '\t' cells ++ ['\n']) =
      culgSrc (String.ofList name) ra dec
        (if q.index.isNone && q.s80.isSome && q.s160.isSome && q.limit80 then none else q.s80)
        (if q.index.isNone && q.s80.isSome && q.s160.isSome && q.limit160 then none else q.s160) q.index := by
  obtain ⟨c, r, l, he, hd⟩ := h.first
  have hs := paper_cut (by rw [he]; simp) h.clean
  unfold culgRow
  have hh := same_head hs he (by have := h.long; omega)
  have hl := h.long
  generalize splitOn '\t' _ = text at *
  simp only
  rw [if_neg (by rw [hs.1]; omega), hh]
  simp only [List.head?_cons]
  rw [if_pos ((digit_iff c).2 hd), if_neg (by rw [hs.1]; omega)]
  obtain ⟨c0, a0, b0⟩ := h.ra
  obtain ⟨c1, a1, b1⟩ := h.dec
  obtain ⟨c2, a2, b2⟩ := h.name
  obtain ⟨c6, a6, b6⟩ := h.limit160
  obtain ⟨c8, a8, b8⟩ := h.limit80
  obtain ⟨c7, a7, b7⟩ := h.s160
  obtain ⟨c9, a9, b9⟩ := h.s80
  obtain ⟨c10, a10, b10⟩ := h.index
  obtain ⟨u, u1, u2⟩ := same_num hnl hs a10
  rw [same_inner hs a0 (by omega), same_inner hs a1 (by omega), same_inner hs a2 (by omega), same_inner hs a6 (by omega),
    same_inner hs a7 (by omega), same_inner hs a8 (by omega), same_inner hs a9 (by omega), u1]
  simp only [Option.getD_some]
  rw [u2, b7, b9, b10, coloned b0, coloned b1, (strip_trim b2).1]
  unfold unflag
  rw [prefix_iff b6, prefix_iff b8]
  cases q.index.isNone && q.s80.isSome && q.s160.isSome <;> simp

/-! ## C107 -/

/-- **C107**: a source of the Culgoora catalog is as documented, where the table has an index if and only if it has two fluxes that are
no limits, and where a flux that stands alone is no limit. -/
theorem c107_culgoora_partial [CharZero F] {toFloat : List Char → Option F} (hnl : ∀ s, toFloat (s ++ ['\n']) = toFloat s)
    {cells : List (List Char)} {name ra dec : List Char} {q : Measured F} (h : IsRow toFloat cells name ra dec q)
    (hix : q.index.isSome ↔ (q.s80.isSome ∧ q.limit80 = false ∧ q.s160.isSome ∧ q.limit160 = false))
    (hone : (q.s80 = none → q.limit160 = false) ∧ (q.s160 = none → q.limit80 = false)) :
    ∃ s m, culgRow toFloat (joinWith '\t' cells ++ ['\n']) = .src s m ∧ s.name = String.ofList name ∧ s.body.ra = ra ∧ s.body.dec = dec ∧
      AsDocumented q s.body ∧ m.2.2 = q.index ∧
      (m.1 = if q.limit80 then none else q.s80) ∧ (m.2.1 = if q.limit160 then none else q.s160) := by
  rw [row_eq hnl h]
  obtain ⟨s80, l80, s160, l160, ix⟩ := q
  simp only at hix hone ⊢
  unfold culgSrc AsDocumented
  cases ix <;> cases s80 <;> cases s160 <;> cases l80 <;> cases l160 <;> simp_all

/-- **C107, disagreement**: two fluxes without an index give the flux at 160 MHz with index 0, as if there were no other. -/
theorem c107_noindex_violated {toFloat : List Char → Option F} (hnl : ∀ s, toFloat (s ++ ['\n']) = toFloat s)
    {cells : List (List Char)} {name ra dec : List Char} {q : Measured F} (h : IsRow toFloat cells name ra dec q) {x y : F}
    (h80 : q.s80 = some x) (h160 : q.s160 = some y) (hi : q.index = none) (hl : q.limit160 = false) :
    ∃ s m, culgRow toFloat (joinWith '\t' cells ++ ['\n']) = .src s m ∧ s.body.jys = some y ∧ s.body.index = 0 := by
  rw [row_eq hnl h]
  obtain ⟨s80, l80, s160, l160, ix⟩ := q
  simp only at h80 h160 hi hl ⊢
  subst h80 h160 hi hl
  exact ⟨_, _, rfl, rfl, rfl⟩

/-- **C107, disagreement**: an upper limit that is the only flux is taken for a measurement. -/
theorem c107_limit_violated {toFloat : List Char → Option F} (hnl : ∀ s, toFloat (s ++ ['\n']) = toFloat s)
    {cells : List (List Char)} {name ra dec : List Char} {q : Measured F} (h : IsRow toFloat cells name ra dec q) {x : F}
    (hi : q.index = none)
    (hl : (q.s80 = some x ∧ q.limit80 = true ∧ q.s160 = none) ∨ (q.s80 = none ∧ q.s160 = some x ∧ q.limit160 = true)) :
    ∃ s m, culgRow toFloat (joinWith '\t' cells ++ ['\n']) = .src s m ∧ s.body.jys = some x := by
  rw [row_eq hnl h]
  obtain ⟨s80, l80, s160, l160, ix⟩ := q
  simp only at hi hl ⊢
  subst hi
  rcases hl with ⟨rfl, _, rfl⟩ | ⟨rfl, rfl, _⟩
  · exact ⟨_, _, rfl, rfl⟩
  · exact ⟨_, _, rfl, rfl⟩

/-- **C107, disagreement**: a source is in the catalog without a flux, so that computing fluxes raises a TypeError, exactly if it has an index but no
flux at 160 MHz, or no index and no flux, or no index and only limits. -/
theorem c107_noflux_violated {toFloat : List Char → Option F} (hnl : ∀ s, toFloat (s ++ ['\n']) = toFloat s)
    {cells : List (List Char)} {name ra dec : List Char} {q : Measured F} (h : IsRow toFloat cells name ra dec q) :
    ∃ s m, culgRow toFloat (joinWith '\t' cells ++ ['\n']) = .src s m ∧ (usable s = false ↔
      (q.index.isSome ∧ q.s160 = none) ∨ (q.index = none ∧ q.s160 = none ∧ q.s80 = none) ∨
      (q.index = none ∧ q.s160.isSome ∧ q.s80.isSome ∧ q.limit160 = true ∧ q.limit80 = true)) := by
  rw [row_eq hnl h]
  obtain ⟨s80, l80, s160, l160, ix⟩ := q
  unfold culgSrc usable
  cases ix <;> cases s80 <;> cases s160 <;> cases l80 <;> cases l160 <;> simp

/-! ## The theorems on concrete rows -/

/-- a row -/
def demoCulg (l160 s160 l80 s80 ix : String) : List (List Char) :=
  ["00 20 25".toList, "+15 40 53".toList, "C 1".toList, [], [], [], l160.toList, s160.toList, l80.toList, s80.toList, ix.toList]

theorem demo_row (l160 s160 l80 s80 ix : String) {q : Measured ℚ} (h7 : demoFloat s160.toList = q.s160) (h9 : demoFloat s80.toList = q.s80)
    (h10 : demoFloat ix.toList = q.index) (h6 : q.limit160 = true ↔ ∃ r, l160.toList = '<' :: r)
    (h8 : q.limit80 = true ↔ ∃ r, l80.toList = '<' :: r) (hc : Clean (demoCulg l160 s160 l80 s80 ix)) :
    IsRow demoFloat (demoCulg l160 s160 l80 s80 ix) "C 1".toList "00:20:25".toList "+15:40:53".toList q :=
  ⟨hc, by simp [demoCulg], ⟨'0', "0 20 25".toList, _, by simp [demoCulg]; rfl, by unfold Digit; decide⟩, ⟨_, rfl, demo_colons.1⟩, ⟨_, rfl, demo_colons.2⟩,
    ⟨_, rfl, [], [], by simp, by simp, by simp, by simp [White], by simp [White]⟩, ⟨_, rfl, h7⟩, ⟨_, rfl, h9⟩, ⟨_, rfl, h10⟩, ⟨_, rfl, h6⟩, ⟨_, rfl, h8⟩⟩

theorem demo_num : demoFloat "12".toList = some 12 ∧ demoFloat "20".toList = some 20 ∧ demoFloat "".toList = none ∧ demoFloat "1".toList = some 1 := by
  refine ⟨?_, ?_, ?_, ?_⟩ <;> simp [demoFloat, isSpace, parseNat, digitsVal, isDigit]

/-- both fluxes and an index -/
example : ∃ s m, culgRow demoFloat (joinWith '\t' (demoCulg "" "12" "" "20" "1") ++ ['\n']) = .src s m ∧ s.body.jys = some 12 ∧ s.body.index = 1 := by
  obtain ⟨s, m, h1, _, _, _, h2, _⟩ := c107_culgoora_partial demo_nl (demo_row "" "12" "" "20" "1" (q := ⟨some 20, false, some 12, false, some 1⟩)
    demo_num.1 demo_num.2.1 demo_num.2.2.2 (by simp) (by simp) (by simp [Clean, demoCulg])) (by simp) (by simp)
  obtain ⟨h3, _⟩ := h2
  have := h3 20 12 rfl rfl
  exact ⟨s, m, h1, this.1, (Option.some.inj this.2.2).symm⟩

/-- two fluxes, no index -/
example : ∃ s m, culgRow demoFloat (joinWith '\t' (demoCulg "" "12" "" "20" "") ++ ['\n']) = .src s m ∧ s.body.jys = some 12 ∧ s.body.index = 0 :=
  c107_noindex_violated demo_nl (demo_row "" "12" "" "20" "" (q := ⟨some 20, false, some 12, false, none⟩)
    demo_num.1 demo_num.2.1 demo_num.2.2.1 (by simp) (by simp) (by simp [Clean, demoCulg])) rfl rfl rfl rfl

/-- only a limit -/
example : ∃ s m, culgRow demoFloat (joinWith '\t' (demoCulg "<" "12" "" "" "") ++ ['\n']) = .src s m ∧ s.body.jys = some 12 :=
  c107_limit_violated demo_nl (demo_row "<" "12" "" "" "" (q := ⟨none, false, some 12, true, none⟩)
    demo_num.1 demo_num.2.2.1 demo_num.2.2.1 (by simp) (by simp) (by simp [Clean, demoCulg])) rfl (.inr ⟨rfl, rfl, rfl⟩)

/-- two limits -/
example : ∃ s m, culgRow demoFloat (joinWith '\t' (demoCulg "<" "12" "<" "20" "") ++ ['\n']) = .src s m ∧ usable s = false := by
  obtain ⟨s, m, h1, h2⟩ := c107_noflux_violated demo_nl (demo_row "<" "12" "<" "20" "" (q := ⟨some 20, true, some 12, true, none⟩)
    demo_num.1 demo_num.2.1 demo_num.2.2.1 (by simp) (by simp) (by simp [Clean, demoCulg]))
  exact ⟨s, m, h1, h2.2 (by simp)⟩

end Verif.Misc.Culgoora
