import Verif.Util.Text
/-!
# Property C97 : wrapping the history of an image
-/
namespace Verif.Img
open Verif.Util

/-! ## Model -/

/-- `chunk`, img.py 32: `v[i*l:(i+1)*l]` for `i` up to `ceil(len(v)/l)`; `none` is the ZeroDivisionError.  For negative `l` the range is empty. -/
def chunk (v : List Char) : Int → Option (List (List Char))
  | .ofNat 0 => none
  | .ofNat (l + 1) => some ((List.range ((v.length + l) / (l + 1))).map fun i => (v.drop (i * (l + 1))).take (l + 1))
  | .negSucc _ => some []

/-- the loop over the pieces, img.py 36-44: `l` is the line so far -/
def wrapLines (width : Nat) (pre2 : List Char) (l : List Char) : List (List Char) → List (List Char)
  | [] => [l]
  | w :: ws => if (l ++ ' ' :: w).length < width then wrapLines width pre2 (l ++ ' ' :: w) ws else l :: wrapLines width pre2 (pre2 ++ w) ws

/-- `prefix+n*' '` -/
def indent (pre : List Char) (n : Nat) : List Char := pre ++ List.replicate n ' '

/-- `word_wrap`, img.py 20-45 -/
def wordWrap (s : List Char) (width ind1 ind2 : Nat) (pre : List Char) : Option (List Char) :=
  let awidth : Int := min ((width : Int) - 2 - (indent pre ind1).length) ((width : Int) - 2 - (indent pre ind2).length)
  ((splitOn ' ' s).mapM fun w => chunk w awidth).map fun ok => joinWith '\n' (wrapLines width (indent pre ind2) (indent pre ind1) ok.flatten)

/-! ## Specification -/

/-- The columns that are left for a word: two less than there are beside the prefix and the indentation. -/
def columns (width ind1 ind2 : Nat) (pre : List Char) : Nat := width - (2 + pre.length + max ind1 ind2)

/-- a line: what it begins with, and the pieces of text on it -/
def lineText (start : List Char) (ws : List (List Char)) : List Char := start ++ (ws.map (' ' :: ·)).flatten

/-! ## Lemmas -/

theorem wrapLines_shape (width : Nat) (pre2 : List Char) : ∀ (ws : List (List Char)) (l : List Char),
    ∃ (first : List (List Char)) (rest : List (List Char × List (List Char))),
      first ++ (rest.map fun g => g.1 :: g.2).flatten = ws ∧
      wrapLines width pre2 l ws = lineText l first :: rest.map fun g => lineText (pre2 ++ g.1) g.2
  | [], l => ⟨[], [], rfl, by simp [wrapLines, lineText]⟩
  | w :: ws, l => by
    unfold wrapLines
    split
    · obtain ⟨first, rest, h1, h2⟩ := wrapLines_shape width pre2 ws (l ++ ' ' :: w)
      refine ⟨w :: first, rest, by rw [List.cons_append, h1], ?_⟩
      rw [h2]
      simp [lineText]
    · obtain ⟨first, rest, h1, h2⟩ := wrapLines_shape width pre2 ws (pre2 ++ w)
      refine ⟨[], (w, first) :: rest, by simp [← h1], ?_⟩
      rw [h2]
      simp [lineText]

theorem wrapLines_width {width aw : Nat} {pre2 : List Char} (h2 : pre2.length + aw < width) : ∀ (ws : List (List Char)) (l : List Char),
    l.length < width → (∀ w ∈ ws, w.length ≤ aw) → ∀ x ∈ wrapLines width pre2 l ws, x.length < width
  | [], l, hl, _ => by
    intro x hx
    rw [wrapLines, List.mem_singleton] at hx
    rw [hx]
    exact hl
  | w :: ws, l, hl, hw => by
    unfold wrapLines
    split
    · next h => exact wrapLines_width h2 ws _ h fun x hx => hw x (List.mem_cons_of_mem _ hx)
    · intro x hx
      rcases List.mem_cons.1 hx with rfl | hx
      · exact hl
      · refine wrapLines_width h2 ws _ ?_ (fun x hx => hw x (List.mem_cons_of_mem _ hx)) x hx
        have := hw w (by simp)
        rw [List.length_append]
        omega

/-- every line is followed by a piece for which it had no place -/
theorem wrapLines_greedy (width : Nat) (pre2 : List Char) : ∀ (ws : List (List Char)) (l : List Char),
    ∃ (first : List (List Char)) (rest : List (List Char × List (List Char))),
      first ++ (rest.map fun g => g.1 :: g.2).flatten = ws ∧
      wrapLines width pre2 l ws = (lineText l first :: rest.map fun g => lineText (pre2 ++ g.1) g.2) ∧
      ∀ (i : Nat) (x : List Char) (g : List Char × List (List Char)), (wrapLines width pre2 l ws)[i]? = some x → rest[i]? = some g →
        width ≤ (x ++ ' ' :: g.1).length
  | [], l => ⟨[], [], rfl, by simp [wrapLines, lineText], by simp⟩
  | w :: ws, l => by
    unfold wrapLines
    split
    · obtain ⟨first, rest, h1, h2, h3⟩ := wrapLines_greedy width pre2 ws (l ++ ' ' :: w)
      refine ⟨w :: first, rest, by rw [List.cons_append, h1], ?_, h3⟩
      rw [h2]
      simp [lineText]
    · next h =>
      obtain ⟨first, rest, h1, h2, h3⟩ := wrapLines_greedy width pre2 ws (pre2 ++ w)
      refine ⟨[], (w, first) :: rest, by simp [← h1], ?_, ?_⟩
      · rw [h2]
        simp [lineText]
      · intro i x g hx hg
        cases i with
        | zero =>
          rw [List.getElem?_cons_zero] at hx hg
          cases hx
          cases hg
          exact Nat.le_of_not_lt h
        | succ i =>
          rw [List.getElem?_cons_succ] at hx hg
          exact h3 i x g hx hg

/-- cutting a word -/
theorem chunk_flatten (l : Nat) : ∀ (n : Nat) (v : List Char), v.length ≤ n * (l + 1) →
    (((List.range n).map fun i => (v.drop (i * (l + 1))).take (l + 1)).flatten = v)
  | 0, v, h => by
    have : v = [] := List.length_eq_zero_iff.1 (by omega)
    rw [this]
    rfl
  | n + 1, v, h => by
    rw [List.range_succ_eq_map, List.map_cons, List.flatten_cons, List.map_map]
    have ih := chunk_flatten l n (v.drop (l + 1)) (by
      rw [List.length_drop]
      rw [Nat.add_mul] at h
      omega)
    have e : (List.range n).map ((fun i => (v.drop (i * (l + 1))).take (l + 1)) ∘ Nat.succ) =
        (List.range n).map fun i => ((v.drop (l + 1)).drop (i * (l + 1))).take (l + 1) := by
      apply List.map_congr_left
      intro i _
      show (v.drop ((i + 1) * (l + 1))).take (l + 1) = _
      rw [List.drop_drop, Nat.add_mul, Nat.one_mul, Nat.add_comm (i * (l + 1))]
    rw [e, ih]
    simp

theorem chunk_spec (v : List Char) (l : Nat) : ∃ c, chunk v ((l + 1 : Nat) : Int) = some c ∧ c.flatten = v ∧
    (∀ p ∈ c, p ≠ [] ∧ p.length ≤ l + 1) ∧ (v.length ≤ l + 1 → c.length ≤ 1) := by
  refine ⟨_, rfl, ?_, ?_, ?_⟩
  · apply chunk_flatten
    have := Nat.div_add_mod (v.length + l) (l + 1)
    have hm : (v.length + l) % (l + 1) < l + 1 := Nat.mod_lt _ (Nat.succ_pos l)
    rw [Nat.mul_comm] at this
    omega
  · intro p hp
    obtain ⟨i, hi, rfl⟩ := List.mem_map.1 hp
    rw [List.mem_range] at hi
    constructor
    · intro h0
      have hl := congrArg List.length h0
      rw [List.length_take, List.length_drop, List.length_nil] at hl
      have h1 : (i + 1) * (l + 1) ≤ v.length + l := (Nat.le_div_iff_mul_le (Nat.succ_pos l)).1 hi
      rw [Nat.add_mul] at h1
      omega
    · rw [List.length_take]
      exact Nat.min_le_left _ _
  · intro h
    rw [List.length_map, List.length_range]
    have : (v.length + l) / (l + 1) < 2 := by
      rw [Nat.div_lt_iff_lt_mul (Nat.succ_pos l)]
      omega
    omega

theorem chunks_spec (l : Nat) : ∀ ws : List (List Char), ∃ cut, ws.mapM (fun w => chunk w ((l + 1 : Nat) : Int)) = some cut ∧
    cut.map List.flatten = ws ∧ ∀ c ∈ cut, (∀ p ∈ c, p ≠ [] ∧ p.length ≤ l + 1) ∧ (c.flatten.length ≤ l + 1 → c.length ≤ 1)
  | [] => ⟨[], rfl, rfl, by simp⟩
  | w :: ws => by
    obtain ⟨cut, h1, h2, h3⟩ := chunks_spec l ws
    obtain ⟨c, e1, e2, e3, e4⟩ := chunk_spec w l
    refine ⟨c :: cut, ?_, by rw [List.map_cons, e2, h2], ?_⟩
    · rw [List.mapM_cons, e1, h1]
      rfl
    · intro x hx
      rcases List.mem_cons.1 hx with rfl | hx
      · exact ⟨e3, by rw [e2]; exact e4⟩
      · exact h3 x hx

theorem awidth_eq {width ind1 ind2 : Nat} {pre : List Char} (h : 0 < columns width ind1 ind2 pre) :
    min ((width : Int) - 2 - (indent pre ind1).length) ((width : Int) - 2 - (indent pre ind2).length) = ((columns width ind1 ind2 pre - 1 + 1 : Nat) : Int) := by
  unfold columns indent at *
  simp only [List.length_append, List.length_replicate]
  omega

/-! ## The claims -/

/-- C97: no text is lost and no line is too long.  The text is read as words with single spaces between them (`hs`); each word is cut into pieces no longer than the
columns there are, a word that fits is not cut; the pieces follow each other on the lines, the first line begins with the prefix and `ind1` spaces (and a space),
the others with the prefix and `ind2` spaces; every line is shorter than `width`, and a line ends only where the next piece would not fit. -/
theorem c97_wrap (s : List Char) (width ind1 ind2 : Nat) (pre : List Char) (hc : 0 < columns width ind1 ind2 pre) :
    ∃ (cut : List (List (List Char))) (first : List (List Char)) (rest : List (List Char × List (List Char))) (lines : List (List Char)),
      joinWith ' ' (cut.map List.flatten) = s ∧ (∀ c ∈ cut, ' ' ∉ c.flatten) ∧
      (∀ c ∈ cut, (∀ p ∈ c, p ≠ [] ∧ p.length ≤ columns width ind1 ind2 pre) ∧ (c.flatten.length ≤ columns width ind1 ind2 pre → c.length ≤ 1)) ∧
      cut.flatten = first ++ (rest.map fun g => g.1 :: g.2).flatten ∧
      lines = lineText (pre ++ List.replicate ind1 ' ') first :: (rest.map fun g => lineText (pre ++ List.replicate ind2 ' ' ++ g.1) g.2) ∧
      wordWrap s width ind1 ind2 pre = some (joinWith '\n' lines) ∧
      (∀ x ∈ lines, x.length < width) ∧
      (∀ (i : Nat) (x : List Char) (g : List Char × List (List Char)), lines[i]? = some x → rest[i]? = some g → width ≤ (x ++ ' ' :: g.1).length) := by
  obtain ⟨cut, h1, h2, h3⟩ := chunks_spec (columns width ind1 ind2 pre - 1) (splitOn ' ' s)
  rw [Nat.sub_add_cancel hc] at h3
  obtain ⟨first, rest, g1, g2, g3⟩ := wrapLines_greedy width (indent pre ind2) cut.flatten (indent pre ind1)
  refine ⟨cut, first, rest, _, by rw [h2, join_split], ?_, h3, g1.symm, rfl, ?_, ?_, ?_⟩
  · intro c hm
    have : c.flatten ∈ splitOn ' ' s := by rw [← h2]; exact List.mem_map.2 ⟨c, hm, rfl⟩
    exact split_no_sep ' ' s _ this
  · unfold wordWrap
    simp only
    rw [awidth_eq hc, h1, Option.map_some, g2]
    rfl
  · intro x hx
    refine wrapLines_width (aw := columns width ind1 ind2 pre) (pre2 := indent pre ind2) ?_ cut.flatten (indent pre ind1) ?_ ?_ x (by rw [g2]; exact hx)
    · unfold columns indent at *
      simp only [List.length_append, List.length_replicate]
      omega
    · unfold columns indent at *
      simp only [List.length_append, List.length_replicate]
      omega
    · intro w hw
      obtain ⟨c, hcm, hwc⟩ := List.mem_flatten.1 hw
      exact ((h3 c hcm).1 w hwc).2
  · intro i x g hx hg
    exact g3 i x g (by rw [g2]; exact hx) hg

/-- A text of two lines, one word of which is cut. -/
example : 0 < columns 12 1 2 ['#'] ∧ wordWrap "a bb  ccccccccc d".toList 12 1 2 ['#'] = some "#  a bb\n#  ccccccc\n#  cc d".toList := by decide

/-- **C97 is false for the first line**: it is indented by one space more than `ind1` if there is any text on it, and there always is if there is text at all. -/
theorem c97_indent_violated (s : List Char) (width ind1 ind2 : Nat) (pre : List Char) (hc : 0 < columns width ind1 ind2 pre) (hs : ∃ c ∈ s, c ≠ ' ') :
    ∃ r, wordWrap s width ind1 ind2 pre = some (pre ++ List.replicate (ind1 + 1) ' ' ++ r) := by
  obtain ⟨cut, h1, h2, h3⟩ := chunks_spec (columns width ind1 ind2 pre - 1) (splitOn ' ' s)
  rw [Nat.sub_add_cancel hc] at h3
  cases hf : cut.flatten with
  | nil =>
    exfalso
    have hall : ∀ w ∈ splitOn ' ' s, w = [] := by
      intro w hw
      rw [← h2] at hw
      obtain ⟨c, hcm, rfl⟩ := List.mem_map.1 hw
      cases c with
      | nil => rfl
      | cons p ps =>
        have : p ∈ cut.flatten := List.mem_flatten.2 ⟨_, hcm, by simp⟩
        rw [hf] at this
        cases this
    obtain ⟨c, hcs, hne⟩ := hs
    rw [← join_split ' ' s] at hcs
    refine joinWith_not_mem hne ?_ hcs
    intro p hp
    rw [hall p hp]
    simp
  | cons w ws =>
    have hw : w.length ≤ columns width ind1 ind2 pre := by
      have : w ∈ cut.flatten := by rw [hf]; simp
      obtain ⟨c, hcm, hwc⟩ := List.mem_flatten.1 this
      exact ((h3 c hcm).1 w hwc).2
    have hfit : (indent pre ind1 ++ ' ' :: w).length < width := by
      unfold columns at hw hc
      unfold indent
      simp only [List.length_append, List.length_replicate, List.length_cons]
      omega
    obtain ⟨first, rest, _, g2⟩ := wrapLines_shape width (indent pre ind2) ws (indent pre ind1 ++ ' ' :: w)
    have e : ∃ r, joinWith '\n' (wrapLines width (indent pre ind2) (indent pre ind1) (w :: ws)) = indent pre ind1 ++ ' ' :: r := by
      rw [wrapLines, if_pos hfit, g2]
      cases rest with
      | nil => exact ⟨w ++ (first.map (' ' :: ·)).flatten, by simp [joinWith, lineText]⟩
      | cons g rest =>
        exact ⟨w ++ (first.map (' ' :: ·)).flatten ++ '\n' :: joinWith '\n' ((g :: rest).map fun g => lineText (indent pre ind2 ++ g.1) g.2), by
          simp [joinWith, lineText]⟩
    obtain ⟨r, e⟩ := e
    refine ⟨r, ?_⟩
    unfold wordWrap
    simp only
    rw [awidth_eq hc, h1, Option.map_some, hf, e]
    unfold indent
    rw [List.replicate_succ', List.append_assoc, List.append_assoc, List.append_assoc]
    rfl

/-- **C97 is false where there is no place for words**: with one column too few the call raises, with fewer all of the text is lost without an error. -/
theorem c97_narrow_violated (s : List Char) (width ind1 ind2 : Nat) (pre : List Char) :
    (width = 2 + pre.length + max ind1 ind2 → wordWrap s width ind1 ind2 pre = none) ∧
    (width < 2 + pre.length + max ind1 ind2 → wordWrap s width ind1 ind2 pre = some (pre ++ List.replicate ind1 ' ')) := by
  constructor
  · intro h
    have e : min ((width : Int) - 2 - (indent pre ind1).length) ((width : Int) - 2 - (indent pre ind2).length) = 0 := by
      unfold indent
      simp only [List.length_append, List.length_replicate]
      omega
    unfold wordWrap
    simp only
    rw [e]
    cases hs : splitOn ' ' s with
    | nil => exact absurd hs (splitOn_ne_nil _ _)
    | cons w ws => rfl
  · intro h
    have e : ∃ n, min ((width : Int) - 2 - (indent pre ind1).length) ((width : Int) - 2 - (indent pre ind2).length) = Int.negSucc n := by
      refine ⟨(1 + pre.length + max ind1 ind2 - width), ?_⟩
      unfold indent
      simp only [List.length_append, List.length_replicate]
      omega
    obtain ⟨n, e⟩ := e
    have hm : ∀ ws : List (List Char), ∃ ok, ws.mapM (fun w => chunk w (Int.negSucc n)) = some ok ∧ ok.flatten = [] := by
      intro ws
      induction ws with
      | nil => exact ⟨[], rfl, rfl⟩
      | cons w ws ih =>
        obtain ⟨ok, h1, h2⟩ := ih
        exact ⟨[] :: ok, by rw [List.mapM_cons, h1]; rfl, by simpa using h2⟩
    obtain ⟨ok, h1, h2⟩ := hm (splitOn ' ' s)
    unfold wordWrap
    simp only
    rw [e, h1, Option.map_some, h2]
    rfl

example : wordWrap "abc".toList 4 3 1 [] = some "   ".toList ∧ wordWrap "abc".toList 5 3 1 [] = none := by decide

end Verif.Img
