import Verif.Scripting.Chans
import Verif.Codes.Props
/-!
# Property C06 : antenna expressions

The specification is an abstract syntax of antenna expressions, its concrete spelling, and its
denotation.  The theorem `c06_parse_meaning` says that the hand written regular expression loop of
`parse_ants` computes the denotation of every expression.
-/
namespace Verif.Scripting
open Verif.Util Verif.Codes

/-! ## Specification -/

/-- a feed suffix -/
inductive Feed where
  | x | y
deriving DecidableEq, Repr

def Feed.char : Feed → Char
  | .x => 'x'
  | .y => 'y'

/-- an antenna as typed: optional `-`, number, optional feed -/
structure Ant where
  neg : Bool
  num : Nat
  feed : Option Feed
deriving DecidableEq, Repr

/-- a side of a baseline: one antenna or a (non-empty) parenthesised list -/
inductive Side where
  | one (a : Ant)
  | group (a : Ant) (as : List Ant)

inductive AntItem where
  | all
  | auto
  | cross
  | single (a : Ant)
  | pair (s t : Side)

def Feed.text : Option Feed → List Char
  | none => []
  | some f => [f.char]

def Ant.text (a : Ant) : List Char :=
  (if a.neg then ['-'] else []) ++ (printNat a.num ++ Feed.text a.feed)

def Side.ants : Side → List Ant
  | .one a => [a]
  | .group a as => a :: as

def Side.text : Side → List Char
  | .one a => a.text
  | .group a as => '(' :: (joinWith ',' ((a :: as).map Ant.text) ++ [')'])

def AntItem.text : AntItem → List Char
  | .all => "all".toList
  | .auto => "auto".toList
  | .cross => "cross".toList
  | .single a => a.text
  | .pair s t => s.text ++ '_' :: t.text

/-- the expression as typed on the command line -/
def antText (items : List AntItem) : List Char := joinWith ',' (items.map AntItem.text)

/-- the feed products a pair of typed antennas stands for (`[none]`: no polarisation selection) -/
def feedProducts : Option Feed → Option Feed → List (Option (List Char))
  | none, none => [none]
  | none, some q => [some ['x', q.char], some ['y', q.char]]
  | some p, none => [some [p.char, 'x'], some [p.char, 'y']]
  | some p, some q => [some [p.char, q.char]]

/-- selection entries of a pair of antennas: included iff neither is negated -/
def pairEntries (a b : Ant) : List Entry :=
  (feedProducts a.feed b.feed).map
    (fun p => ⟨some (ij2bl a.num b.num), !a.neg && !b.neg, p⟩)

def AntItem.entries (nants : Nat) : AntItem → List Entry
  | .all => []
  | .auto => [⟨none, true, none⟩]
  | .cross => [⟨none, false, none⟩]
  | .single a => (List.range nants).flatMap (fun j => pairEntries a ⟨false, j, none⟩)
  | .pair s t => s.ants.flatMap (fun a => t.ants.flatMap (fun b => pairEntries a b))

/-- does this item discard what came before it? -/
def AntItem.isAll : AntItem → Bool
  | .all => true
  | _ => false

/-- meaning of an expression: entries of the items after the last `all`, in order -/
def meaning (nants : Nat) (items : List AntItem) : List Entry :=
  ((items.reverse.takeWhile (fun i => !i.isAll)).reverse).flatMap (AntItem.entries nants)

/-! ## Lemmas -/

/-- what may follow an antenna in an expression -/
def Stop (r : List Char) : Prop :=
  r = [] ∨ ∃ c t, r = c :: t ∧ (c = ',' ∨ c = '_' ∨ c = ')')

theorem spanDigits_of {d r : List Char} (hd : ∀ c ∈ d, isDigit c = true)
    (hr : r = [] ∨ ∃ c t, r = c :: t ∧ isDigit c = false) : spanDigits (d ++ r) = (d, r) := by
  induction d with
  | nil =>
    rcases hr with rfl | ⟨c, t, rfl, h⟩
    · rfl
    · simp [spanDigits, h]
  | cons c d ih =>
    rw [List.cons_append, spanDigits, if_pos (hd c (by simp)),
      ih (fun c hc => hd c (List.mem_cons_of_mem _ hc))]

theorem stop_notdigit {r : List Char} (h : Stop r) :
    r = [] ∨ ∃ c t, r = c :: t ∧ isDigit c = false := by
  rcases h with h | ⟨c, t, rfl, h⟩
  · exact Or.inl h
  · refine Or.inr ⟨c, t, rfl, ?_⟩
    rcases h with rfl | rfl | rfl <;> decide

theorem feed_notdigit (f : Option Feed) {r : List Char} (h : Stop r) :
    (Feed.text f ++ r) = [] ∨ ∃ c t, (Feed.text f ++ r) = c :: t ∧ isDigit c = false := by
  cases f with
  | none => exact stop_notdigit h
  | some f => refine Or.inr ⟨f.char, r, rfl, ?_⟩; cases f <;> decide

theorem takeFeed_text (m : List Char) (f : Option Feed) {r : List Char} (h : Stop r) :
    takeFeed m (Feed.text f ++ r) = (m ++ Feed.text f, r) := by
  cases f with
  | none =>
    simp only [Feed.text, List.nil_append, List.append_nil]
    rcases h with rfl | ⟨c, t, rfl, h⟩
    · rfl
    · rcases h with rfl | rfl | rfl <;> rfl
  | some f => cases f <;> simp [Feed.text, Feed.char, takeFeed]

theorem splitMinus_text (a : Ant) (r : List Char) :
    splitMinus (a.text ++ r) = ((if a.neg then ['-'] else []), printNat a.num ++ (Feed.text a.feed ++ r)) := by
  obtain ⟨neg, n, f⟩ := a
  cases neg with
  | true => simp [Ant.text, splitMinus]
  | false =>
    obtain ⟨c, cs, hc, hd⟩ := printNat_head n
    have hne : c ≠ '-' := isDigit_ne hd (by decide)
    simp only [Ant.text, Bool.false_eq_true, if_false, List.nil_append, hc, List.cons_append,
      List.append_assoc]
    unfold splitMinus
    split
    · rename_i heq; cases heq; exact absurd rfl hne
    · rfl

theorem takeAnt_text (a : Ant) {r : List Char} (h : Stop r) :
    takeAnt (a.text ++ r) = some (a.text, r) := by
  unfold takeAnt
  simp only [splitMinus_text, spanDigits_of (printNat_all a.num) (feed_notdigit a.feed h),
    printNat_ne_nil, if_false, takeFeed_text _ _ h]
  simp [Ant.text]

theorem text_head (a : Ant) : ∃ c t, a.text = c :: t ∧ (c = '-' ∨ isDigit c = true) := by
  obtain ⟨neg, n, f⟩ := a
  cases neg with
  | true => exact ⟨'-', _, rfl, Or.inl rfl⟩
  | false =>
    obtain ⟨c, cs, hc, hd⟩ := printNat_head n
    refine ⟨c, cs ++ Feed.text f, ?_, Or.inr hd⟩
    simp [Ant.text, hc]

theorem text_chars (a : Ant) : ∀ c ∈ a.text, isDigit c = true ∨ c = '-' ∨ c = 'x' ∨ c = 'y' := by
  obtain ⟨neg, n, f⟩ := a
  intro c hc
  simp only [Ant.text, List.mem_append] at hc
  rcases hc with hc | hc | hc
  · cases neg <;> simp at hc; exact Or.inr (Or.inl hc)
  · exact Or.inl (printNat_all n c hc)
  · cases f with
    | none => simp [Feed.text] at hc
    | some f => cases f <;> simp [Feed.text, Feed.char] at hc <;> simp [hc]

/-- runs the group recogniser -/
def runG : GState → List Char → Option GState
  | st, [] => some st
  | st, c :: cs => match gstep st c with
    | none => none
    | some st' => runG st' cs

theorem runG_append (st : GState) (a b : List Char) :
    runG st (a ++ b) = (runG st a).bind (fun st' => runG st' b) := by
  induction a generalizing st with
  | nil => rfl
  | cons c a ih =>
    rw [List.cons_append, runG, runG]
    cases gstep st c with
    | none => rfl
    | some st' => exact ih st'

theorem takeGroupBody_run {st st' : GState} {b rest : List Char} (hb : ')' ∉ b)
    (h : runG st b = some st') (ha : gaccept st' = true) :
    takeGroupBody st (b ++ ')' :: rest) = some (b, rest) := by
  induction b generalizing st with
  | nil =>
    simp only [runG, Option.some.injEq] at h; subst h
    simp [takeGroupBody, ha]
  | cons c b ih =>
    have hc : c ≠ ')' := by intro e; subst e; simp at hb
    have hb' : ')' ∉ b := fun e => hb (List.mem_cons_of_mem _ e)
    rw [List.cons_append, takeGroupBody, if_neg hc]
    rw [runG] at h
    cases hg : gstep st c with
    | none => rw [hg] at h; cases h
    | some s2 =>
      rw [hg] at h
      simp only at h ⊢
      rw [ih hb' h]

theorem runG_digits {st : GState} (hst : st = .digits) (d : List Char)
    (hd : ∀ c ∈ d, isDigit c = true) : runG st d = some .digits := by
  subst hst
  induction d with
  | nil => rfl
  | cons c d ih =>
    rw [runG, gstep, if_pos (hd c (by simp))]
    exact ih (fun c hc => hd c (List.mem_cons_of_mem _ hc))

theorem runG_feed (f : Option Feed) : runG .digits (Feed.text f) =
    some (match f with | none => .digits | some _ => .pol) := by
  cases f with
  | none => rfl
  | some f => cases f <;> rfl

theorem runG_ant {st : GState} (hst : st = .start ∨ st = .comma) (a : Ant) :
    runG st a.text = some (match a.feed with | none => .digits | some _ => .pol) := by
  obtain ⟨neg, n, f⟩ := a
  obtain ⟨c, cs, hc, hd⟩ := printNat_head n
  have hall := printNat_all n
  rw [hc] at hall
  have hne : c ≠ '-' := isDigit_ne hd (by decide)
  have hcs : ∀ c ∈ cs, isDigit c = true := fun c h => hall c (List.mem_cons_of_mem _ h)
  have hrun : ∀ s0, gstep s0 c = some .digits → runG s0 (printNat n ++ Feed.text f) =
      some (match f with | none => .digits | some _ => .pol) := by
    intro s0 h0
    rw [runG_append, hc, runG, h0]
    simp only
    rw [runG_digits rfl cs hcs]
    simp only [Option.bind_some]
    exact runG_feed f
  cases neg with
  | true =>
    show runG st ('-' :: (printNat n ++ Feed.text f)) = _
    rw [runG]
    have : gstep st '-' = some .minus := by rcases hst with rfl | rfl <;> rfl
    rw [this]
    exact hrun .minus (by simp [gstep, hd])
  | false =>
    show runG st (printNat n ++ Feed.text f) = _
    apply hrun
    rcases hst with rfl | rfl <;> simp [gstep, hd, hne]

theorem runG_list {st : GState} (hst : st = .start ∨ st = .comma) (a : Ant) (as : List Ant) :
    ∃ st', runG st (joinWith ',' ((a :: as).map Ant.text)) = some st' ∧ gaccept st' = true := by
  induction as generalizing a st with
  | nil =>
    refine ⟨_, runG_ant hst a, ?_⟩
    cases a.feed <;> rfl
  | cons b bs ih =>
    show ∃ st', runG st (a.text ++ ',' :: joinWith ',' ((b :: bs).map Ant.text)) = some st' ∧ _
    rw [runG_append, runG_ant hst a]
    simp only [Option.bind_some]
    rw [runG]
    have : gstep (match a.feed with | none => .digits | some _ => .pol) ',' = some .comma := by
      cases a.feed <;> rfl
    rw [this]
    exact ih (Or.inr rfl) b

theorem not_paren {s : Char} (hs : s = ')' ∨ s = ',' ) (a : Ant) : s ∉ a.text := by
  intro h
  rcases text_chars a s h with h | h | h | h
  · rcases hs with rfl | rfl <;> exact absurd h (by decide)
  · rcases hs with rfl | rfl <;> exact absurd h (by decide)
  · rcases hs with rfl | rfl <;> exact absurd h (by decide)
  · rcases hs with rfl | rfl <;> exact absurd h (by decide)

def Side.cap : Side → Cap
  | .one a => .one a.text
  | .group a as => .group (joinWith ',' ((a :: as).map Ant.text))

theorem takeCap_ant (a : Ant) {r : List Char} (h : Stop r) :
    takeCap (a.text ++ r) = some (.one a.text, r) := by
  obtain ⟨c, t, hc, hd⟩ := text_head a
  have hne : c ≠ '(' := by
    rcases hd with rfl | hd
    · decide
    · exact isDigit_ne hd (by decide)
  unfold takeCap
  split
  · rename_i heq
    rw [hc] at heq
    cases heq
    exact absurd rfl hne
  · rw [takeAnt_text a h]

theorem takeCap_side (s : Side) {r : List Char} (h : Stop r) :
    takeCap (s.text ++ r) = some (s.cap, r) := by
  cases s with
  | one a => exact takeCap_ant a h
  | group a as =>
    obtain ⟨st', h1, h2⟩ := runG_list (Or.inl rfl) a as
    have hb : ')' ∉ joinWith ',' ((a :: as).map Ant.text) := by
      apply joinWith_not_mem (by decide)
      intro p hp
      rw [List.mem_map] at hp
      obtain ⟨b, _, rfl⟩ := hp
      exact not_paren (Or.inl rfl) b
    have := takeGroupBody_run (rest := r) hb h1 h2
    show takeCap ('(' :: (joinWith ',' ((a :: as).map Ant.text) ++ [')']) ++ r) = _
    simp only [List.cons_append, List.append_assoc, List.nil_append]
    unfold takeCap
    simp only
    rw [this]
    rfl

theorem capList_side (s : Side) : capList s.cap = s.ants.map Ant.text := by
  cases s with
  | one a => rfl
  | group a as =>
    show splitOn ',' (joinWith ',' ((a :: as).map Ant.text)) = _
    rw [splitOn_joinWith (by simp)]
    · rfl
    · intro p hp
      rw [List.mem_map] at hp
      obtain ⟨b, _, rfl⟩ := hp
      exact not_paren (Or.inr rfl) b

/-- tail of an expression after an item -/
def Tail (t : List Char) : Prop := t = [] ∨ ∃ u, t = ',' :: u

theorem Tail.stop {t : List Char} (h : Tail t) : Stop t := by
  rcases h with h | ⟨u, rfl⟩
  · exact Or.inl h
  · exact Or.inr ⟨',', u, rfl, Or.inl rfl⟩

theorem takeBl_single (a : Ant) {t : List Char} (h : Tail t) :
    takeBl (a.text ++ t) = some (.single (.one a.text), dropComma t) := by
  unfold takeBl
  rw [takeCap_ant a h.stop]
  simp only
  rcases h with rfl | ⟨u, rfl⟩ <;> rfl

theorem takeBl_pair (s t : Side) {r : List Char} (h : Tail r) :
    takeBl (s.text ++ '_' :: t.text ++ r) = some (.pair s.cap t.cap, dropComma r) := by
  unfold takeBl
  rw [List.append_assoc, List.cons_append,
    takeCap_side s (Or.inr ⟨'_', _, rfl, Or.inr (Or.inl rfl)⟩)]
  simp only
  rw [takeCap_side t h.stop]

/-- text without the minus sign -/
def Ant.core (a : Ant) : List Char := printNat a.num ++ Feed.text a.feed

theorem nibble_text (a : Ant) : nibble a.text = (a.core, !a.neg) := by
  obtain ⟨neg, n, f⟩ := a
  cases neg with
  | true => rfl
  | false =>
    obtain ⟨c, cs, hc, hd⟩ := printNat_head n
    have hne : c ≠ '-' := isDigit_ne hd (by decide)
    show nibble (printNat n ++ Feed.text f) = (printNat n ++ Feed.text f, true)
    rw [hc, List.cons_append]
    unfold nibble
    split
    · rename_i heq; cases heq; exact absurd rfl hne
    · rfl

theorem isDigitStr_core (a : Ant) : isDigitStr a.core = a.feed.isNone := by
  obtain ⟨neg, n, f⟩ := a
  unfold Ant.core isDigitStr
  cases f with
  | none =>
    have h1 := printNat_ne_nil n
    have h2 := List.all_eq_true.2 (printNat_all n)
    simp [Feed.text, h1, h2]
  | some f =>
    simp only [List.all_append, Feed.text]
    cases f <;> simp [Feed.char, isDigit]

theorem searchAntPol_core (n : Nat) (f : Feed) :
    searchAntPol (printNat n ++ [f.char]) = some (printNat n, f.char) := by
  obtain ⟨c, cs, hc, hd⟩ := printNat_head n
  have hsp : spanDigits (printNat n ++ [f.char]) = (printNat n, [f.char]) :=
    spanDigits_of (printNat_all n) (Or.inr ⟨f.char, [], rfl, by cases f <;> decide⟩)
  rw [hc, List.cons_append] at hsp ⊢
  rw [searchAntPol, hsp]
  simp only
  rw [if_pos (by cases f <;> simp [Feed.char])]

theorem antPair_text (a b : Ant) : antPair a.core (!a.neg) b.text = some (pairEntries a b) := by
  unfold antPair
  rw [nibble_text]
  simp only
  rw [isDigitStr_core a, isDigitStr_core b]
  obtain ⟨na, i, fa⟩ := a
  obtain ⟨nb, j, fb⟩ := b
  unfold pairEntries
  cases fa with
  | none =>
    cases fb with
    | none => simp [Ant.core, Feed.text, parseNat_printNat, feedProducts]
    | some q =>
      simp [Ant.core, Feed.text, parseNat_printNat, searchAntPol_core, feedProducts]
  | some p =>
    cases fb with
    | none =>
      simp [Ant.core, Feed.text, parseNat_printNat, searchAntPol_core, feedProducts]
    | some q =>
      simp [Ant.core, Feed.text, parseNat_printNat, searchAntPol_core, feedProducts]

theorem loops (as bs : List Ant) :
    (((as.map Ant.text).mapM (fun i =>
      let (i, incI) := nibble i
      ((bs.map Ant.text).mapM (fun j => antPair i incI j)).map List.flatten)).map List.flatten)
      = some (as.flatMap (fun a => bs.flatMap (fun b => pairEntries a b))) := by
  rw [List.mapM_map, mapM_some_of (g := fun a => bs.flatMap (fun b => pairEntries a b))]
  · rfl
  · intro a _
    simp only [Function.comp, nibble_text]
    rw [List.mapM_map, mapM_some_of (g := fun b => pairEntries a b)]
    · rfl
    · intro b _
      exact antPair_text a b

theorem blEntries_pair (nants : Nat) (s t : Side) :
    blEntries nants (.pair s.cap t.cap) = some (AntItem.entries nants (.pair s t)) := by
  unfold blEntries
  simp only [capList_side]
  exact loops s.ants t.ants

theorem blEntries_single (nants : Nat) (a : Ant) :
    blEntries nants (.single (.one a.text)) = some (AntItem.entries nants (.single a)) := by
  unfold blEntries
  have h : (List.range nants).map printNat =
      ((List.range nants).map (fun j => (⟨false, j, none⟩ : Ant))).map Ant.text := by
    rw [List.map_map]
    apply List.map_congr_left
    intro j _
    simp [Ant.text, Feed.text]
  simp only [capText, h]
  have := loops [a] ((List.range nants).map (fun j => (⟨false, j, none⟩ : Ant)))
  simp only [List.map_cons, List.map_nil] at this
  rw [this]
  simp [AntItem.entries, List.flatMap_map]

theorem takeBl_letter {c : Char} {t : List Char} (h1 : c ≠ '(') (h2 : c ≠ '-')
    (h3 : isDigit c = false) : takeBl (c :: t) = none := by
  have : takeAnt (c :: t) = none := by
    unfold takeAnt
    have e : splitMinus (c :: t) = ([], c :: t) := by
      unfold splitMinus
      split
      · rename_i heq; cases heq; exact absurd rfl h2
      · rfl
    simp [e, spanDigits, h3]
  unfold takeBl takeCap
  split
  · rfl
  · rename_i heq
    split at heq
    · rename_i h; cases h; exact absurd rfl h1
    · rw [this] at heq; cases heq

/-- one turn of the loop on an item -/
def itemStep (nants : Nat) (rv : List Entry) (it : AntItem) : List Entry :=
  if it.isAll then [] else rv ++ it.entries nants

theorem skip_tail {kw t : List Char} (hk : ',' ∉ kw) (h : Tail t) :
    skipPastComma (kw ++ t) = dropComma t := by
  induction kw with
  | nil =>
    rcases h with rfl | ⟨u, rfl⟩ <;> simp [skipPastComma, dropComma]
  | cons c kw ih =>
    have hc : c ≠ ',' := by intro e; subst e; simp at hk
    rw [List.cons_append, skipPastComma, if_neg hc]
    exact ih (fun e => hk (List.mem_cons_of_mem _ e))

theorem isPrefixOf_append (a b : List Char) : List.isPrefixOf a (a ++ b) = true := by
  induction a with
  | nil => rfl
  | cons c a ih => simp [ih]

theorem loop_item (nants : Nat) (it : AntItem) {t : List Char} (ht : Tail t) (rv : List Entry) :
    parseAntsLoop nants (it.text ++ t) rv =
      parseAntsLoop nants (dropComma t) (itemStep nants rv it) := by
  cases it with
  | all =>
    rw [parseAntsLoop]
    have h1 : takeBl (AntItem.all.text ++ t) = none := takeBl_letter (by decide) (by decide) (by decide)
    have h2 : startsWith "all".toList (AntItem.all.text ++ t) = true := isPrefixOf_append _ _
    rw [dif_neg (by simp [AntItem.text])]
    split
    · rw [if_pos h2]
      have : skipPastComma ((AntItem.all.text ++ t).drop 1) = dropComma t :=
        skip_tail (kw := "ll".toList) (by decide) ht
      rw [this]; rfl
    · rename_i heq; rw [h1] at heq; cases heq
  | auto =>
    rw [parseAntsLoop]
    have h1 : takeBl (AntItem.auto.text ++ t) = none := takeBl_letter (by decide) (by decide) (by decide)
    have h2 : startsWith "auto".toList (AntItem.auto.text ++ t) = true := isPrefixOf_append _ _
    have h3 : startsWith "all".toList (AntItem.auto.text ++ t) = false := rfl
    rw [dif_neg (by simp [AntItem.text])]
    split
    · rw [if_neg (by rw [h3]; decide), if_pos h2]
      have : skipPastComma ((AntItem.auto.text ++ t).drop 1) = dropComma t :=
        skip_tail (kw := "uto".toList) (by decide) ht
      rw [this]; rfl
    · rename_i heq; rw [h1] at heq; cases heq
  | cross =>
    rw [parseAntsLoop]
    have h1 : takeBl (AntItem.cross.text ++ t) = none := takeBl_letter (by decide) (by decide) (by decide)
    have h2 : startsWith "cross".toList (AntItem.cross.text ++ t) = true := isPrefixOf_append _ _
    have h3 : startsWith "all".toList (AntItem.cross.text ++ t) = false := rfl
    have h4 : startsWith "auto".toList (AntItem.cross.text ++ t) = false := rfl
    rw [dif_neg (by simp [AntItem.text])]
    split
    · rw [if_neg (by rw [h3]; decide), if_neg (by rw [h4]; decide), if_pos h2]
      have : skipPastComma ((AntItem.cross.text ++ t).drop 1) = dropComma t :=
        skip_tail (kw := "ross".toList) (by decide) ht
      rw [this]; rfl
    · rename_i heq; rw [h1] at heq; cases heq
  | single a =>
    rw [parseAntsLoop]
    have h1 := takeBl_single a ht
    obtain ⟨c, u, hc, _⟩ := text_head a
    show (if _ : a.text ++ t = [] then _ else _) = _
    rw [dif_neg (by rw [hc]; simp)]
    split
    · rename_i heq
      have heq' : takeBl (a.text ++ t) = none := heq
      rw [h1] at heq'; cases heq'
    · rename_i m rest heq
      have heq' : takeBl (a.text ++ t) = some (m, rest) := heq
      rw [h1] at heq'; cases heq'
      rw [blEntries_single]
      rfl
  | pair s r =>
    rw [parseAntsLoop]
    have h1 := takeBl_pair s r ht
    show (if _ : (s.text ++ '_' :: r.text) ++ t = [] then _ else _) = _
    rw [dif_neg (by simp)]
    split
    · rename_i heq
      have heq' : takeBl (s.text ++ '_' :: r.text ++ t) = none := heq
      rw [h1] at heq'; cases heq'
    · rename_i m rest heq
      have heq' : takeBl (s.text ++ '_' :: r.text ++ t) = some (m, rest) := heq
      rw [h1] at heq'; cases heq'
      rw [blEntries_pair]
      rfl

theorem loop_items (nants : Nat) (items : List AntItem) (rv : List Entry) :
    parseAntsLoop nants (antText items) rv = some (items.foldl (itemStep nants) rv) := by
  induction items generalizing rv with
  | nil => rw [parseAntsLoop]; rfl
  | cons it items ih =>
    cases items with
    | nil =>
      have : antText [it] = it.text ++ [] := by rw [List.append_nil]; rfl
      rw [this, loop_item nants it (Or.inl rfl)]
      show parseAntsLoop nants [] _ = _
      rw [parseAntsLoop]; rfl
    | cons jt items =>
      have : antText (it :: jt :: items) = it.text ++ ',' :: antText (jt :: items) := rfl
      rw [this, loop_item nants it (Or.inr ⟨_, rfl⟩)]
      exact ih _

theorem fold_meaning (nants : Nat) (items : List AntItem) :
    items.foldl (itemStep nants) [] = meaning nants items := by
  suffices h : ∀ l : List AntItem, l.foldr (fun it rv => itemStep nants rv it) [] =
      ((l.takeWhile (fun i => !i.isAll)).reverse).flatMap (AntItem.entries nants) by
    rw [List.foldl_eq_foldr_reverse, h]; rfl
  intro l
  induction l with
  | nil => rfl
  | cons it l ih =>
    rw [List.foldr_cons, ih, itemStep, List.takeWhile_cons]
    by_cases hit : it.isAll = true
    · simp [hit]
    · simp [hit]

/-! ## Property theorems -/

/-- C06: `parse_ants` computes the meaning of every antenna expression. -/
theorem c06_parse_meaning (items : List AntItem) (nants : Nat) :
    parseAnts (antText items) nants = some (meaning nants items) := by
  unfold parseAnts
  rw [loop_items, fold_meaning]

/-- the example of the help text: `(-0,1)_(2,-3)` excludes 0_2, 0_3, 1_3 and includes 1_2 -/
example : meaning 4 [.pair (.group ⟨true, 0, none⟩ [⟨false, 1, none⟩])
      (.group ⟨false, 2, none⟩ [⟨true, 3, none⟩])] =
    [⟨some (ij2bl 0 2), false, none⟩, ⟨some (ij2bl 0 3), false, none⟩,
     ⟨some (ij2bl 1 2), true, none⟩, ⟨some (ij2bl 1 3), false, none⟩] := by decide

/-- C06: a list of plain antennas selects exactly the baselines involving one of them. -/
theorem c06_antenna_list (ns : List Nat) (nants : Nat) (hn : nants ≤ 2047)
    (hns : ∀ n ∈ ns, n < nants) :
    ∃ es, parseAnts (joinWith ',' (ns.map printNat)) nants = some es ∧
      (∀ e ∈ es, e.incl = true ∧ e.pol = none) ∧
      ∀ i j : Nat, i < nants → j < nants →
        ((∃ e ∈ es, e.bl = some (ij2bl i j)) ↔ i ∈ ns ∨ j ∈ ns) := by
  have ht : joinWith ',' (ns.map printNat) =
      antText (ns.map (fun n => AntItem.single ⟨false, n, none⟩)) := by
    unfold antText
    rw [List.map_map]
    congr 1
    apply List.map_congr_left
    intro n _
    simp [AntItem.text, Ant.text, Feed.text]
  have hm : meaning nants (ns.map (fun n => AntItem.single ⟨false, n, none⟩)) =
      ns.flatMap (fun (n : Nat) => (List.range nants).map (fun (j : Nat) =>
        (⟨some (ij2bl n j), true, none⟩ : Entry))) := by
    unfold meaning
    have : ∀ l : List Nat, (l.map (fun n => AntItem.single ⟨false, n, none⟩)).takeWhile
        (fun i => !i.isAll) = l.map (fun n => AntItem.single ⟨false, n, none⟩) := by
      intro l
      induction l with
      | nil => rfl
      | cons a l ih => rw [List.map_cons, List.takeWhile_cons, ih]; rfl
    rw [← List.map_reverse, this, List.map_reverse, List.reverse_reverse, List.flatMap_map]
    congr 1
    funext n
    simp only [AntItem.entries, pairEntries, feedProducts]
    induction List.range nants with
    | nil => rfl
    | cons a l ih => rw [List.flatMap_cons, ih]; rfl
  refine ⟨_, by rw [ht, c06_parse_meaning, hm], ?_, ?_⟩
  · intro e he
    rw [List.mem_flatMap] at he
    obtain ⟨n, _, he⟩ := he
    rw [List.mem_map] at he
    obtain ⟨j, _, rfl⟩ := he
    exact ⟨rfl, rfl⟩
  · intro i j hi hj
    constructor
    · rintro ⟨e, he, hbl⟩
      rw [List.mem_flatMap] at he
      obtain ⟨n, hn1, he⟩ := he
      rw [List.mem_map] at he
      obtain ⟨k, hk, rfl⟩ := he
      rw [List.mem_range] at hk
      have hn2 := hns n hn1
      simp only [Option.some.injEq] at hbl
      have := c02_injective n k i j (by constructor <;> omega) (by constructor <;> omega)
        (by constructor <;> omega) (by constructor <;> omega) hbl
      rcases this with ⟨h1, h2⟩ | ⟨h1, h2⟩
      · left; have : n = i := by omega
        subst this; exact hn1
      · right; have : n = j := by omega
        subst this; exact hn1
    · intro h
      rcases h with h | h
      · exact ⟨⟨some (ij2bl i j), true, none⟩, List.mem_flatMap.2 ⟨i, h, List.mem_map.2
          ⟨j, List.mem_range.2 hj, rfl⟩⟩, rfl⟩
      · refine ⟨⟨some (ij2bl j i), true, none⟩, List.mem_flatMap.2 ⟨j, h, List.mem_map.2
          ⟨i, List.mem_range.2 hi, rfl⟩⟩, ?_⟩
        simp only [Option.some.injEq]
        exact c01_symmetric _ _

example : ∃ es, parseAnts (joinWith ',' ([0, 2].map printNat)) 4 = some es ∧
    ∃ e ∈ es, e.bl = some (ij2bl 3 2) := by
  obtain ⟨es, h, _, h3⟩ := c06_antenna_list [0, 2] 4 (by decide) (by decide)
  exact ⟨es, h, (h3 3 2 (by decide) (by decide)).2 (by decide)⟩

/-- C06: what does not start with an antenna, a group or a keyword is rejected. -/
theorem c06_unparsable_raises (c : Char) (t : List Char) (nants : Nat)
    (h1 : c ≠ '(') (h2 : c ≠ '-') (h3 : isDigit c = false)
    (h4 : startsWith "all".toList (c :: t) = false) (h5 : startsWith "auto".toList (c :: t) = false)
    (h6 : startsWith "cross".toList (c :: t) = false) (items : List AntItem) :
    parseAnts (joinWith ',' (items.map AntItem.text ++ [c :: t])) nants = none := by
  unfold parseAnts
  generalize ([] : List Entry) = rv
  have hbad : ∀ rv, parseAntsLoop nants (c :: t) rv = none := by
    intro rv
    have h1 : takeBl (c :: t) = none := takeBl_letter h1 h2 h3
    rw [parseAntsLoop, dif_neg (by simp)]
    split
    · rw [h4, h5, h6]; rfl
    · rename_i heq; rw [h1] at heq; cases heq
  induction items generalizing rv with
  | nil => exact hbad rv
  | cons it items ih =>
    have : joinWith ',' ((it :: items).map AntItem.text ++ [c :: t]) =
        it.text ++ ',' :: joinWith ',' (items.map AntItem.text ++ [c :: t]) := by
      cases items <;> rfl
    rw [this, loop_item nants it (Or.inr ⟨_, rfl⟩)]
    exact ih _

example : parseAnts "0_1,foo".toList 4 = none := by
  have := c06_unparsable_raises 'f' "oo".toList 4 (by decide) (by decide) (by decide) (by decide)
    (by decide) (by decide) [.pair (.one ⟨false, 0, none⟩) (.one ⟨false, 1, none⟩)]
  simpa [AntItem.text, Side.text, Ant.text, Feed.text, joinWith, printNat, digitChar] using this

/-- the entry (a<b, feeds `p q`) is a correlation in which feed `f` of antenna `k` takes part -/
def Involves (k : Nat) (f : Char) (a b : Nat) (p q : Char) : Prop :=
  (k = a ∧ p = f) ∨ (k = b ∧ q = f)

/-- C06, violated part: `2x` should select the correlations in which the x feed of antenna 2 takes
part.  On baseline (0,2), whose second antenna is 2, the code selects `xy` (x feed of antenna 0
with y feed of antenna 2) instead of `yx`: the antennas are swapped into ascending order but the
feeds are not. -/
theorem c06_feed_order_violated : ∃ es, parseAnts "2x".toList 3 = some es ∧
    (⟨some (ij2bl 0 2), true, some ['x', 'y']⟩ : Entry) ∈ es ∧ ¬ Involves 2 'x' 0 2 'x' 'y' ∧
    (⟨some (ij2bl 0 2), true, some ['y', 'x']⟩ : Entry) ∉ es ∧ Involves 2 'x' 0 2 'y' 'x' := by
  have h := c06_parse_meaning [.single ⟨false, 2, some .x⟩] 3
  have ht : antText [.single ⟨false, 2, some .x⟩] = "2x".toList := by
    simp [antText, joinWith, AntItem.text, Ant.text, Feed.text, printNat, digitChar, Feed.char]
  rw [ht] at h
  refine ⟨_, h, by decide, ?_, by decide, ?_⟩
  · rintro (⟨h, _⟩ | ⟨_, h⟩)
    · cases h
    · exact absurd h (by decide)
  · exact Or.inr ⟨rfl, rfl⟩

/-- C06: for antennas typed in ascending order the feeds are the right ones. -/
theorem c06_feed_order_ascending (a b : Ant) (hab : a.num ≤ b.num) (f : Feed) (e : Entry)
    (he : e ∈ pairEntries a b) (p q : Char) (hp : e.pol = some [p, q]) :
    (a.feed = some f → Involves a.num f.char a.num b.num p q) ∧
    (b.feed = some f → Involves b.num f.char a.num b.num p q) := by
  obtain ⟨na, i, fa⟩ := a
  obtain ⟨nb, j, fb⟩ := b
  unfold pairEntries at he
  rw [List.mem_map] at he
  obtain ⟨r, hr, rfl⟩ := he
  simp only at hp
  subst hp
  constructor
  · intro h
    simp only at h; subst h
    left
    refine ⟨rfl, ?_⟩
    cases fb with
    | none => simp [feedProducts] at hr; rcases hr with ⟨h, _⟩ | ⟨h, _⟩ <;> exact h
    | some g => simp [feedProducts] at hr; exact hr.1
  · intro h
    simp only at h; subst h
    right
    refine ⟨rfl, ?_⟩
    cases fa with
    | none => simp [feedProducts] at hr; rcases hr with ⟨_, h⟩ | ⟨_, h⟩ <;> exact h
    | some g => simp [feedProducts] at hr; exact hr.2

example : Involves 5 'x' 5 6 'x' 'y' :=
  (c06_feed_order_ascending ⟨false, 5, some .x⟩ ⟨false, 6, some .y⟩ (by decide) .x
    ⟨some (ij2bl 5 6), true, some ['x', 'y']⟩ (by decide) 'x' 'y' rfl).1 rfl

/-- C06, outside the grammar: a parenthesised list on its own is not a list of antennas; it is
read as antenna 0 with a "feed" called `,`. -/
theorem c06_lone_group_misread : parseAnts "(0,1)".toList 1 =
    some [⟨some 257, true, some [',', 'x']⟩, ⟨some 257, true, some [',', 'y']⟩] := by
  have hp : printNat 0 = ['0'] := by rw [printNat, if_pos (by decide)]; rfl
  unfold parseAnts
  rw [parseAntsLoop, dif_neg (by decide)]
  have hb : takeBl "(0,1)".toList = some (.single (.group ['0', ',', '1']), []) := by decide
  split
  · rename_i heq; rw [hb] at heq; cases heq
  · rename_i m rest heq
    rw [hb] at heq; cases heq
    have : blEntries 1 (.single (.group ['0', ',', '1'])) =
        some [⟨some 257, true, some [',', 'x']⟩, ⟨some 257, true, some [',', 'y']⟩] := by
      unfold blEntries
      simp only [List.range, List.range.loop, List.map, hp]
      decide
    rw [this]
    simp only [List.nil_append]
    rw [parseAntsLoop]; rfl

end Verif.Scripting
