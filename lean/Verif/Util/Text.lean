/-!
# Text utilities

Python strings are lists of characters.  This file has the decimal printer used in
specifications, the model of Python's `int(str)` and `str.split(sep)`, and their round-trip laws.
-/
namespace Verif.Util

/-- the decimal digit character of `d < 10` -/
def digitChar (d : Nat) : Char := Char.ofNat (48 + d)

/-- `str.isdigit` restricted to ASCII (simplification: other Unicode digits are not modelled). -/
def isDigit (c : Char) : Bool := 48 ≤ c.toNat && c.toNat ≤ 57

/-- Decimal rendering of a natural number (what Python's `str` gives). -/
def printNat (n : Nat) : List Char :=
  if n < 10 then [digitChar n] else printNat (n / 10) ++ [digitChar (n % 10)]

/-- Decimal rendering of an integer. -/
def printInt : Int → List Char
  | .ofNat n => printNat n
  | .negSucc n => '-' :: printNat (n + 1)

/-- value of a string of decimal digits -/
def digitsVal (cs : List Char) : Nat := cs.foldl (fun a c => 10 * a + (c.toNat - 48)) 0

/-- Python `int(s)` for an unsigned ASCII decimal string; `none` is `ValueError`. -/
def parseNat (cs : List Char) : Option Nat :=
  if cs ≠ [] ∧ cs.all isDigit then some (digitsVal cs) else none

/-- Python `int(s)`.  Simplification: surrounding white space and underscores between
digits, which Python also accepts, are rejected here. -/
def parseInt : List Char → Option Int
  | '-' :: cs => (parseNat cs).map (fun n => - (n : Int))
  | '+' :: cs => (parseNat cs).map (fun n => (n : Int))
  | cs => (parseNat cs).map (fun n => (n : Int))

/-- Python `s.split(sep)` for a one character separator: always at least one piece. -/
def splitOn (sep : Char) : List Char → List (List Char)
  | [] => [[]]
  | c :: cs =>
    if c = sep then [] :: splitOn sep cs
    else match splitOn sep cs with
      | [] => [[c]]
      | p :: ps => (c :: p) :: ps

/-- Python `sep.join(parts)`. -/
def joinWith (sep : Char) : List (List Char) → List Char
  | [] => []
  | [p] => p
  | p :: ps => p ++ sep :: joinWith sep ps

theorem digitChar_toNat {d : Nat} (h : d < 10) : (digitChar d).toNat = 48 + d := by
  have : ∀ d, d < 10 → (digitChar d).toNat = 48 + d := by decide
  exact this d h

theorem isDigit_digitChar {d : Nat} (h : d < 10) : isDigit (digitChar d) = true := by
  unfold isDigit; rw [digitChar_toNat h]; simp; omega

theorem printNat_ne_nil (n : Nat) : printNat n ≠ [] := by
  rw [printNat]; split <;> simp

theorem printNat_all (n : Nat) : ∀ c ∈ printNat n, isDigit c = true := by
  induction n using Nat.strongRecOn with
  | _ n ih =>
    rw [printNat]
    split
    · intro c hc; simp at hc; subst hc; exact isDigit_digitChar (by assumption)
    · intro c hc
      rw [List.mem_append] at hc
      rcases hc with hc | hc
      · exact ih (n / 10) (by omega) c hc
      · simp at hc; subst hc; exact isDigit_digitChar (by omega)

theorem digitsVal_append (a : List Char) (c : Char) :
    digitsVal (a ++ [c]) = 10 * digitsVal a + (c.toNat - 48) := by
  unfold digitsVal; rw [List.foldl_append]; rfl

theorem digitsVal_printNat (n : Nat) : digitsVal (printNat n) = n := by
  induction n using Nat.strongRecOn with
  | _ n ih =>
    rw [printNat]
    split
    · rename_i h
      unfold digitsVal
      simp only [List.foldl]
      rw [digitChar_toNat h]; omega
    · rw [digitsVal_append, ih (n / 10) (by omega), digitChar_toNat (by omega)]; omega

theorem parseNat_printNat (n : Nat) : parseNat (printNat n) = some n := by
  unfold parseNat
  rw [if_pos ⟨printNat_ne_nil n, List.all_eq_true.2 (printNat_all n)⟩, digitsVal_printNat]

theorem isDigit_ne {c d : Char} (h : isDigit c = true) (hd : isDigit d = false) : c ≠ d := by
  intro e; subst e; rw [h] at hd; cases hd

theorem printNat_head (n : Nat) : ∃ c cs, printNat n = c :: cs ∧ isDigit c = true := by
  cases h : printNat n with
  | nil => exact absurd h (printNat_ne_nil n)
  | cons c cs => exact ⟨c, cs, rfl, printNat_all n c (by rw [h]; simp)⟩

theorem parseInt_of_head {c : Char} {cs : List Char} (h : isDigit c = true) :
    parseInt (c :: cs) = (parseNat (c :: cs)).map (fun n => (n : Int)) := by
  have h1 : c ≠ '-' := isDigit_ne h (by decide)
  have h2 : c ≠ '+' := isDigit_ne h (by decide)
  unfold parseInt
  split
  · rename_i heq; cases heq; exact absurd rfl h1
  · rename_i heq; cases heq; exact absurd rfl h2
  · rfl

theorem parseInt_printInt (z : Int) : parseInt (printInt z) = some z := by
  cases z with
  | ofNat n =>
    unfold printInt
    obtain ⟨c, cs, h, hd⟩ := printNat_head n
    simp only [h]
    rw [parseInt_of_head hd, ← h, parseNat_printNat]; rfl
  | negSucc n =>
    unfold printInt
    simp only
    unfold parseInt
    simp only [parseNat_printNat]
    rfl

/-- a decimal number contains neither commas nor underscores etc.: only digits and `-`. -/
theorem printInt_chars (z : Int) : ∀ c ∈ printInt z, isDigit c = true ∨ c = '-' := by
  cases z with
  | ofNat n => intro c hc; exact Or.inl (printNat_all n c hc)
  | negSucc n =>
    intro c hc
    rw [printInt, List.mem_cons] at hc
    rcases hc with hc | hc
    · exact Or.inr hc
    · exact Or.inl (printNat_all _ c hc)

theorem printInt_not_mem (z : Int) {s : Char} (h1 : isDigit s = false) (h2 : s ≠ '-') :
    s ∉ printInt z := by
  intro h
  rcases printInt_chars z s h with h | h
  · rw [h1] at h; cases h
  · exact h2 h

theorem printInt_ne_nil (z : Int) : printInt z ≠ [] := by
  cases z with
  | ofNat n => exact printNat_ne_nil n
  | negSucc n => simp [printInt]

theorem splitOn_ne_nil (sep : Char) (cs : List Char) : splitOn sep cs ≠ [] := by
  induction cs with
  | nil => simp [splitOn]
  | cons c cs ih =>
    rw [splitOn]; split
    · simp
    · split <;> simp

theorem splitOn_no_sep {sep : Char} {cs : List Char} (h : sep ∉ cs) : splitOn sep cs = [cs] := by
  induction cs with
  | nil => rfl
  | cons c cs ih =>
    have h1 : c ≠ sep := by intro e; subst e; simp at h
    have h2 : sep ∉ cs := by intro e; exact h (List.mem_cons_of_mem _ e)
    rw [splitOn, if_neg h1, ih h2]

theorem splitOn_append_sep {sep : Char} {p rest : List Char} (h : sep ∉ p) :
    splitOn sep (p ++ sep :: rest) = p :: splitOn sep rest := by
  induction p with
  | nil => simp [splitOn]
  | cons c cs ih =>
    have h1 : c ≠ sep := by intro e; subst e; simp at h
    have h2 : sep ∉ cs := by intro e; exact h (List.mem_cons_of_mem _ e)
    rw [List.cons_append, splitOn, if_neg h1, ih h2]

theorem splitOn_joinWith {sep : Char} : ∀ {ps : List (List Char)}, ps ≠ [] →
    (∀ p ∈ ps, sep ∉ p) → splitOn sep (joinWith sep ps) = ps
  | [], h, _ => absurd rfl h
  | [p], _, h => by
    rw [joinWith]; exact splitOn_no_sep (h p (by simp))
  | p :: q :: ps, _, h => by
    rw [joinWith, splitOn_append_sep (h p (by simp)),
      splitOn_joinWith (by simp) (fun x hx => h x (List.mem_cons_of_mem _ hx))]
    simp

theorem joinWith_not_mem {sep s : Char} (hs : s ≠ sep) : ∀ {ps : List (List Char)},
    (∀ p ∈ ps, s ∉ p) → s ∉ joinWith sep ps
  | [], _ => by simp [joinWith]
  | [p], h => by rw [joinWith]; exact h p (by simp)
  | p :: q :: ps, h => by
    show s ∉ p ++ sep :: joinWith sep (q :: ps)
    intro hm
    rw [List.mem_append, List.mem_cons] at hm
    rcases hm with hm | hm | hm
    · exact h p (by simp) hm
    · exact hs hm
    · exact joinWith_not_mem hs (fun x hx => h x (List.mem_cons_of_mem _ hx)) hm

/-- joining what was split -/
theorem join_split (sep : Char) : ∀ s : List Char, joinWith sep (splitOn sep s) = s
  | [] => rfl
  | c :: cs => by
    have ih := join_split sep cs
    unfold splitOn
    by_cases hc : c = sep
    · rw [if_pos hc]
      cases h : splitOn sep cs with
      | nil => exact absurd h (splitOn_ne_nil sep cs)
      | cons p ps =>
        rw [h] at ih
        show [] ++ sep :: joinWith sep (p :: ps) = _
        rw [ih, hc]
        rfl
    · rw [if_neg hc]
      cases h : splitOn sep cs with
      | nil => exact absurd h (splitOn_ne_nil sep cs)
      | cons p ps =>
        rw [h] at ih
        cases ps with
        | nil =>
          show c :: p = _
          rw [← ih]
          rfl
        | cons q qs =>
          show (c :: p) ++ sep :: joinWith sep (q :: qs) = _
          rw [← ih]
          rfl

/-- the pieces have no separator -/
theorem split_no_sep (sep : Char) : ∀ s : List Char, ∀ p ∈ splitOn sep s, sep ∉ p
  | [] => by simp [splitOn]
  | c :: cs => by
    have ih := split_no_sep sep cs
    unfold splitOn
    by_cases hc : c = sep
    · rw [if_pos hc]
      intro p hp
      rcases List.mem_cons.1 hp with rfl | hp
      · simp
      · exact ih p hp
    · rw [if_neg hc]
      cases h : splitOn sep cs with
      | nil => exact absurd h (splitOn_ne_nil sep cs)
      | cons q qs =>
        rw [h] at ih
        intro p hp
        rcases List.mem_cons.1 hp with rfl | hp
        · intro hm
          rcases List.mem_cons.1 hm with hm | hm
          · exact hc hm.symm
          · exact ih q (by simp) hm
        · exact ih p (List.mem_cons_of_mem _ hp)

/-- Python `s.startswith(p)`. -/
def startsWith (p s : List Char) : Bool := p.isPrefixOf s

example : parseInt "-120".toList = some (-120) ∧ splitOn ',' "1,,2".toList =
    ["1".toList, [], "2".toList] := by decide
end Verif.Util
