import Mathlib.Data.List.Basic
/-!
# Property C23 : `word_wrap`

Model of `/repo/aipy/img.py` 20-45.  Strings are character lists; `width` is an integer, the indents are
non-negative (negative ones act like 0 in Python).
-/
namespace Verif.Img.Wrap

/-- `string.split(' ')` -/
def splitSpace : List Char → List (List Char)
  | [] => [[]]
  | c :: cs => if c = ' ' then [] :: splitSpace cs else match splitSpace cs with
    | [] => [[c]]
    | w :: ws => (c :: w) :: ws

/-- `chunk(v, l)`, img.py 31: `ceil(len(v)/l)` pieces of length `l`; for negative `l` the range is empty.  Division by
zero is excluded before. -/
def chunk (v : List Char) (l : Int) : List (List Char) :=
  if l < 0 then [] else
  (List.range ((v.length + l.toNat - 1) / l.toNat)).map (fun (i : Nat) => (v.drop (i * l.toNat)).take l.toNat)

/-- the loop over the words, img.py 37-43: the line being filled, the rest of the words; returns the lines -/
def fillLines (width : Int) (start2 : List Char) : List Char → List (List Char) → List (List Char)
  | l, [] => [l]
  | l, w :: ws =>
    if ((l ++ ' ' :: w).length : Int) < width then fillLines width start2 (l ++ ' ' :: w) ws
    else l :: fillLines width start2 (start2 ++ w) ws

/-- `awidth`, img.py 28 -/
def awidth (width : Int) (ind1 ind2 : Nat) (pre : List Char) : Int :=
  min (width - 2 - (pre.length + ind1)) (width - 2 - (pre.length + ind2))

/-- `words`, cut to size, img.py 29-34 -/
def okwords (aw : Int) (string : List Char) : List (List Char) := (splitSpace string).flatMap (fun w => chunk w aw)

/-- `word_wrap` before joining the lines with newlines, img.py 20-45.  `none` is the ZeroDivisionError raised when no
room at all is left for words. -/
def wrapLines (string : List Char) (width : Int) (ind1 ind2 : Nat) (pre : List Char) : Option (List (List Char)) :=
  if awidth width ind1 ind2 pre = 0 then none
  else some (fillLines width (pre ++ List.replicate ind2 ' ') (pre ++ List.replicate ind1 ' ')
    (okwords (awidth width ind1 ind2 pre) string))

/-- `'\n'.join` -/
def joinNl : List (List Char) → List Char
  | [] => []
  | [l] => l
  | l :: ls => l ++ '\n' :: joinNl ls

def wordWrap (string : List Char) (width : Int) (ind1 ind2 : Nat) (pre : List Char) : Option (List Char) :=
  (wrapLines string width ind1 ind2 pre).map joinNl

/-! ## Specification -/

/-- the first line carries its words each preceded by a space -/
def firstLine (start : List Char) (ws : List (List Char)) : List Char := start ++ (ws.map (fun w => ' ' :: w)).flatten

/-- the other lines carry at least one word, the words separated by a space -/
def nextLine (start : List Char) (w : List Char) (ws : List (List Char)) : List Char :=
  start ++ w ++ (ws.map (fun w => ' ' :: w)).flatten

/-- `pieces` is a way of breaking the words of a text at width `aw`: only words longer than `aw` are broken, and then
into full pieces and one rest; empty words (several blanks in a row) disappear -/
inductive Broken (aw : Nat) : List (List Char) → List (List Char) → Prop
  | nil : Broken aw [] []
  | empty {ws ps} : Broken aw ws ps → Broken aw ([] :: ws) ps
  | fits {w ws ps} : w ≠ [] → w.length ≤ aw → Broken aw ws ps → Broken aw (w :: ws) (w :: ps)
  | long {p r ws ps} : p.length = aw → r ≠ [] → Broken aw (r :: ws) ps → Broken aw ((p ++ r) :: ws) (p :: ps)

/-- the words of a text: what is between the blanks -/
def unsplit : List (List Char) → List Char
  | [] => []
  | [w] => w
  | w :: ws => w ++ ' ' :: unsplit ws

/-! ## Lemmas -/

theorem splitSpace_ne_nil (s : List Char) : splitSpace s ≠ [] := by
  cases s with
  | nil => simp [splitSpace]
  | cons c cs =>
    unfold splitSpace
    split
    · simp
    · cases splitSpace cs <;> simp

theorem splitSpace_spec (s : List Char) : unsplit (splitSpace s) = s ∧ ∀ w ∈ splitSpace s, ' ' ∉ w := by
  induction s with
  | nil => simp [splitSpace, unsplit]
  | cons c cs ih =>
    obtain ⟨h1, h2⟩ := ih
    have hne := splitSpace_ne_nil cs
    unfold splitSpace
    cases hs : splitSpace cs with
    | nil => exact absurd hs hne
    | cons w ws =>
      rw [hs] at h1 h2
      by_cases hc : c = ' '
      · rw [if_pos hc]
        refine ⟨?_, ?_⟩
        · subst hc
          show [] ++ ' ' :: unsplit (w :: ws) = _
          rw [h1]; rfl
        · intro w' hw'
          rw [List.mem_cons] at hw'
          rcases hw' with rfl | hw'
          · simp
          · exact h2 w' hw'
      · rw [if_neg hc]
        refine ⟨?_, ?_⟩
        · have : unsplit ((c :: w) :: ws) = c :: unsplit (w :: ws) := by cases ws <;> rfl
          simp only [this, h1]
        · intro w' hw'
          simp only [List.mem_cons] at hw'
          rcases hw' with rfl | hw'
          · simp only [List.mem_cons, not_or]
            exact ⟨fun e => hc e.symm, h2 w (by simp)⟩
          · exact h2 w' (by simp [hw'])

theorem chunk_nil (l : Nat) (h : 0 < l) : chunk [] l = [] := by
  unfold chunk
  rw [if_neg (by omega)]
  have : ([] : List Char).length + (l : Int).toNat - 1 < (l : Int).toNat := by simp; omega
  rw [Nat.div_eq_of_lt this]
  rfl

theorem chunk_step (l : Nat) (h : 0 < l) (v : List Char) (hv : v ≠ []) :
    chunk v l = v.take l :: chunk (v.drop l) l := by
  unfold chunk
  rw [if_neg (by omega), if_neg (by omega)]
  simp only [Int.toNat_natCast]
  have hpos : 0 < v.length := List.length_pos_iff.2 hv
  have e : (v.length + l - 1) / l = ((v.drop l).length + l - 1) / l + 1 := by
    rw [List.length_drop]
    by_cases hl : v.length ≤ l
    · have h1 : v.length - l + l - 1 = l - 1 := by omega
      rw [h1, Nat.div_eq_of_lt (by omega : l - 1 < l)]
      have h2 : v.length + l - 1 = (v.length - 1) + 1 * l := by omega
      rw [h2, Nat.add_mul_div_right _ _ h, Nat.div_eq_of_lt (by omega)]
    · have h2 : v.length + l - 1 = (v.length - l + l - 1) + 1 * l := by omega
      rw [h2, Nat.add_mul_div_right _ _ h]
  rw [e, List.range_succ_eq_map, List.map_cons, List.map_map]
  congr 1
  · simp
  · apply List.map_congr_left
    intro i _
    simp only [Function.comp_apply, Nat.succ_eq_add_one]
    rw [List.drop_drop]
    congr 2
    rw [Nat.succ_mul]; omega

theorem chunk_broken (l : Nat) (h : 0 < l) : ∀ (n : Nat) (v : List Char) (ws ps : List (List Char)), v.length ≤ n →
    Broken l ws ps → Broken l (v :: ws) (chunk v l ++ ps) := by
  intro n
  induction n with
  | zero =>
    intro v ws ps hv hb
    have : v = [] := List.length_eq_zero_iff.1 (by omega)
    subst this
    rw [chunk_nil l h]
    exact .empty hb
  | succ n ih =>
    intro v ws ps hv hb
    by_cases hv0 : v = []
    · subst hv0
      rw [chunk_nil l h]
      exact .empty hb
    · rw [chunk_step l h v hv0, List.cons_append]
      by_cases hl : v.length ≤ l
      · rw [List.drop_eq_nil_of_le hl, chunk_nil l h, List.take_of_length_le hl]
        exact .fits hv0 hl hb
      · have hd := ih (v.drop l) ws ps (by rw [List.length_drop]; omega) hb
        have := Broken.long (aw := l) (p := v.take l) (r := v.drop l) (by rw [List.length_take]; omega)
          (by intro e; have := List.drop_eq_nil_iff.1 e; omega) hd
        rwa [List.take_append_drop] at this

theorem okwords_broken (l : Nat) (h : 0 < l) (s : List Char) : Broken l (splitSpace s) (okwords l s) := by
  unfold okwords
  generalize splitSpace s = ws
  induction ws with
  | nil => exact .nil
  | cons w ws ih => rw [List.flatMap_cons]; exact chunk_broken l h _ w ws _ (Nat.le_refl _) ih

theorem broken_len {aw : Nat} {ws ps : List (List Char)} (h : Broken aw ws ps) : ∀ p ∈ ps, p.length ≤ aw := by
  induction h with
  | nil => simp
  | empty _ ih => exact ih
  | fits _ h _ ih =>
    intro p hp
    rw [List.mem_cons] at hp
    rcases hp with rfl | hp
    · exact h
    · exact ih p hp
  | long h _ _ ih =>
    intro p hp
    rw [List.mem_cons] at hp
    rcases hp with rfl | hp
    · exact Nat.le_of_eq h
    · exact ih p hp

/-- what the filling loop produces: the current line extended by some words, then lines beginning with a word -/
theorem fillLines_spec (width : Int) (start2 : List Char) : ∀ (ws : List (List Char)) (l : List Char),
    (l.length : Int) < width → (∀ w ∈ ws, ((start2 ++ w).length : Int) < width) →
    ∃ (g : List (List Char)) (gs : List (List Char × List (List Char))),
      fillLines width start2 l ws =
        (l ++ (g.map (fun w => ' ' :: w)).flatten) :: gs.map (fun p => nextLine start2 p.1 p.2) ∧
      g ++ (gs.map (fun p => p.1 :: p.2)).flatten = ws ∧
      (∀ line ∈ fillLines width start2 l ws, (line.length : Int) < width) := by
  intro ws
  induction ws with
  | nil =>
    intro l hl _
    refine ⟨[], [], by simp [fillLines], by simp, ?_⟩
    intro line hline
    simp only [fillLines, List.mem_singleton] at hline
    rw [hline]; exact hl
  | cons w ws ih =>
    intro l hl hw
    unfold fillLines
    by_cases hc : ((l ++ ' ' :: w).length : Int) < width
    · rw [if_pos hc]
      obtain ⟨g, gs, h1, h2, h3⟩ := ih (l ++ ' ' :: w) hc (fun w' h' => hw w' (by simp [h']))
      refine ⟨w :: g, gs, ?_, ?_, h3⟩
      · rw [h1]; simp
      · rw [List.cons_append, h2]
    · rw [if_neg hc]
      obtain ⟨g, gs, h1, h2, h3⟩ := ih (start2 ++ w) (hw w (by simp)) (fun w' h' => hw w' (by simp [h']))
      refine ⟨[], (w, g) :: gs, ?_, ?_, ?_⟩
      · rw [h1]; simp [nextLine]
      · simp [h2]
      · intro line hline
        rw [List.mem_cons] at hline
        rcases hline with rfl | hline
        · exact hl
        · exact h3 line hline

/-! ## C23 -/

/-- C23: the words of the text appear in order and complete on the output lines, every line starting with prefix and
indent; only words longer than the space available are broken; and no line reaches the width. -/
theorem c23_words_kept (s : List Char) (width : Int) (ind1 ind2 : Nat) (pre : List Char)
    (hw : 0 < awidth width ind1 ind2 pre) :
    ∃ (lines : List (List Char)) (words pieces g : List (List Char)) (gs : List (List Char × List (List Char))),
      wrapLines s width ind1 ind2 pre = some lines ∧
      unsplit words = s ∧ (∀ w ∈ words, ' ' ∉ w) ∧
      Broken (awidth width ind1 ind2 pre).toNat words pieces ∧
      g ++ (gs.map (fun p => p.1 :: p.2)).flatten = pieces ∧
      lines = firstLine (pre ++ List.replicate ind1 ' ') g ::
        gs.map (fun p => nextLine (pre ++ List.replicate ind2 ' ') p.1 p.2) ∧
      ∀ line ∈ lines, (line.length : Int) < width := by
  obtain ⟨n, hn⟩ : ∃ n : Nat, awidth width ind1 ind2 pre = n := ⟨_, (Int.toNat_of_nonneg (by omega)).symm⟩
  have hn0 : 0 < n := by omega
  have ha1 : (n : Int) ≤ width - 2 - (pre.length + ind1) := by rw [← hn]; exact Int.min_le_left _ _
  have ha2 : (n : Int) ≤ width - 2 - (pre.length + ind2) := by rw [← hn]; exact Int.min_le_right _ _
  have hb := okwords_broken n hn0 s
  obtain ⟨g, gs, h1, h2, h3⟩ := fillLines_spec width (pre ++ List.replicate ind2 ' ') (okwords n s)
    (pre ++ List.replicate ind1 ' ') (by simp; omega) (by
      intro w hw
      have := broken_len hb w hw
      simp; omega)
  refine ⟨_, splitSpace s, okwords n s, g, gs, ?_, (splitSpace_spec s).1, (splitSpace_spec s).2, ?_, h2, h1, h3⟩
  · unfold wrapLines
    rw [if_neg (by omega), hn]
  · rw [hn, Int.toNat_natCast]; exact hb

/-- C23: if every word fits on a line no word is broken. -/
theorem c23_no_break (aw : Nat) (words pieces : List (List Char)) (h : Broken aw words pieces)
    (hw : ∀ w ∈ words, w.length ≤ aw) : pieces = words.filter (fun w => w ≠ []) := by
  induction h with
  | nil => rfl
  | empty _ ih => rw [ih (fun w h => hw w (by simp [h]))]; simp
  | fits h0 _ _ ih => rw [ih (fun w h => hw w (by simp [h]))]; simp [h0]
  | @long p r ws ps hp hr _ ih =>
    exfalso
    have := hw (p ++ r) (by simp)
    rw [List.length_append] at this
    have := List.length_pos_iff.2 hr
    omega

/-- C23: breaking keeps all the characters of the words. -/
theorem c23_letters (aw : Nat) (words pieces : List (List Char)) (h : Broken aw words pieces) :
    pieces.flatten = words.flatten := by
  induction h with
  | nil => rfl
  | empty _ ih => simpa using ih
  | fits _ _ _ ih => simp [ih]
  | long _ _ _ ih => simp only [List.flatten_cons] at ih ⊢; rw [ih]; simp

/-- C23: the lines are filled greedily: the first word of a line would not have fitted on the line before (which, with
the blank, would have reached the width). -/
theorem c23_greedy (width : Int) (start2 : List Char) : ∀ (ws : List (List Char)) (l : List Char),
    ∀ (front : List (List Char)) (a b : List Char) (back : List (List Char)),
      fillLines width start2 l ws = front ++ a :: b :: back →
      ∃ w, start2 ++ w <+: b ∧ width ≤ ((a ++ ' ' :: w).length : Int) := by
  intro ws
  induction ws with
  | nil =>
    intro l front a b back h
    have := congrArg List.length h
    simp [fillLines] at this
    omega
  | cons w ws ih =>
    intro l front a b back h
    unfold fillLines at h
    by_cases hc : ((l ++ ' ' :: w).length : Int) < width
    · rw [if_pos hc] at h
      exact ih _ front a b back h
    · rw [if_neg hc] at h
      cases front with
      | cons f fs =>
        rw [List.cons_append] at h
        exact ih _ fs a b back (List.cons.inj h).2
      | nil =>
        rw [List.nil_append] at h
        obtain ⟨h1, h2⟩ := List.cons.inj h
        subst h1
        refine ⟨w, ?_, by omega⟩
        have hpre : ∀ (ws : List (List Char)) (l : List Char), ∃ t ts, fillLines width start2 l ws = (l ++ t) :: ts := by
          intro ws
          induction ws with
          | nil => intro l; exact ⟨[], [], by simp [fillLines]⟩
          | cons w ws ih =>
            intro l
            unfold fillLines
            split
            · obtain ⟨t, ts, h⟩ := ih (l ++ ' ' :: w)
              exact ⟨' ' :: w ++ t, ts, by rw [h]; simp⟩
            · exact ⟨[], _, by rw [List.append_nil]⟩
        obtain ⟨t, ts, h3⟩ := hpre ws (start2 ++ w)
        rw [h3] at h2
        rw [← (List.cons.inj h2).1]
        exact List.prefix_append _ _

/-- C23: the joined text breaks only at the line ends: splitting at newlines gives the lines back (when the text has
no newlines itself). -/
theorem c23_join (lines : List (List Char)) (hne : lines ≠ []) (h : ∀ l ∈ lines, '\n' ∉ l) :
    (joinNl lines).splitOn '\n' = lines := by
  have hj : ∀ ls : List (List Char), joinNl ls = (['\n'] : List Char).intercalate ls := by
    intro ls
    induction ls with
    | nil => rfl
    | cons x ls ih =>
      cases ls with
      | nil => simp [joinNl, List.intercalate]
      | cons y ls =>
        rw [joinNl, ih]
        · simp [List.intercalate, List.intersperse]
        · simp
  rw [hj]
  exact List.splitOn_intercalate '\n' h hne

/-- C23 fails when prefix and indent leave less than nothing for the words: the text is silently dropped (with
exactly nothing left `word_wrap` raises). -/
theorem c23_narrow_violated (s : List Char) (width : Int) (ind1 ind2 : Nat) (pre : List Char)
    (hw : awidth width ind1 ind2 pre < 0) :
    wrapLines s width ind1 ind2 pre = some [pre ++ List.replicate ind1 ' '] := by
  unfold wrapLines
  rw [if_neg (by omega)]
  have : okwords (awidth width ind1 ind2 pre) s = [] := by
    unfold okwords
    rw [List.flatMap_eq_nil_iff]
    intro w _
    unfold chunk
    rw [if_pos hw]
  rw [this]
  rfl

/-- the hypotheses are met -/
example : 0 < awidth 12 1 2 "#".toList ∧
    wrapLines "ab  cde fghijklmnop".toList 12 1 2 "#".toList =
      some ["#  ab cde".toList, "#  fghijkl".toList, "#  mnop".toList] := by decide

example : awidth 5 3 0 "###".toList < 0 := by decide

end Verif.Img.Wrap
