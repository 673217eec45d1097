import Mathlib.Data.Nat.Notation
import Mathlib.Data.Int.Notation

/-!
# A fixed source as a line of text (C143)

`str(src)` of a source at a fixed place: `RadioBody.__str__` and `RadioFixedBody.__str__` of `/repo/aipy/phs.py` 47-48
and 83-85, and `RadioFixedBody.__str__` of `/repo/aipy/amp.py` 59-69, which adds the flux.  How Python and ephem write a
number is an arbitrary function `sh`.  Modelled: which attributes exist (`jys` and `afreqs` are made by `update_jys`,
amp.py 30-34, that is by `compute`), which failures are caught and which are not, and the columns.  Not modelled: fluxes
that are arrays of more than one index.
-/

namespace Verif.SrcText

/-- a line of text -/
abbrev Text := List Char

/-- the attributes `str` looks at; `none`: the attribute does not exist.  `jys` and `afreqs` are arrays. -/
structure Src (Q : Type) where
  name : Text
  ra : Q
  dec : Q
  flux : Option Q
  index : Option Q
  mfreq : Q
  jys : Option (List Q)
  afreqs : Option (List Q)

/-- how `str` fails -/
inductive Err where
  | attributeError
  | indexError
  deriving DecidableEq, Repr

variable {Q : Type}

/-- `phs.RadioFixedBody.__str__`, phs.py 83-85, on `RadioBody.__str__`, phs.py 47-48 -/
def phsStr (sh : Q → Text) (neg : Q → Bool) (s : Src Q) : Text :=
  if neg s.dec then s.name ++ ['\t'] ++ sh s.ra ++ ['\t'] ++ sh s.dec
  else s.name ++ ['\t'] ++ sh s.ra ++ ['\t'] ++ ['+'] ++ sh s.dec

/-- a column whose missing attribute is caught, amp.py 61-64: the column is left empty -/
def column (sh : Q → Text) : Option Q → Text
  | some q => ['\t'] ++ sh q
  | none => ['\t']

/-- `str(self.jys[0])`, amp.py 66-67: a missing attribute is caught, an empty array is not -/
def firstJys (sh : Q → Text) : Option (List Q) → Except Err Text
  | some (q :: _) => .ok (['\t'] ++ sh q)
  | some [] => .error .indexError
  | none => .ok ['\t']

/-- `'\t'+str(self.afreqs[0])`, amp.py 68: nothing is caught -/
def firstAfreq (sh : Q → Text) : Option (List Q) → Except Err Text
  | some (q :: _) => .ok (['\t'] ++ sh q)
  | some [] => .error .indexError
  | none => .error .attributeError

/-- `amp.RadioFixedBody.__str__`, amp.py 59-69 -/
def ampStr (sh : Q → Text) (neg : Q → Bool) (s : Src Q) : Except Err Text := do
  let out := phsStr sh neg s
  let out := out ++ column sh s.flux
  let out := out ++ column sh s.index
  let out := out ++ (['\t'] ++ sh s.mfreq)
  let j ← firstJys sh s.jys
  let a ← firstAfreq sh s.afreqs
  return out ++ j ++ a

/-- `amp.RadioFixedBody.__init__`, amp.py 46-58 with 23-29 -/
def make (name : Text) (ra dec flux index mfreq : Q) : Src Q := ⟨name, ra, dec, some flux, some index, mfreq, none, none⟩

/-- `update_jys`, amp.py 30-34, called by `compute`, amp.py 70-72: the fluxes at the frequencies of the observer -/
def updateJys (law : Q → Q → Q → Q → Q) (s : Src Q) (afreqs : List Q) : Option (Src Q) :=
  match s.flux, s.index with
  | some f, some i => some { s with afreqs := some afreqs, jys := some (afreqs.map (law f i s.mfreq)) }
  | _, _ => none

/-! ## Specification -/

/-- a line with tabs between its columns -/
def columns (cs : List Text) : Text := (cs.intersperse ['\t']).flatten

/-- what a reader of the columns expects of the declination: always with its sign -/
def signed (sh : Q → Text) (neg : Q → Bool) (q : Q) : Text := if neg q then sh q else '+' :: sh q

/-! ## Properties -/

theorem splitOn_columns (cs : List Text) (hne : cs ≠ []) (h : ∀ c ∈ cs, '\t' ∉ c) :
    (columns cs).splitOn '\t' = cs := by
  have := List.splitOn_intercalate (ls := cs) '\t' h hne
  simpa [List.intercalate, columns] using this

/-- **C143**: the text of a source that has been computed is eight columns, from which name, place, flux, index,
frequency of the flux, flux at the first channel and first channel can be read back -/
theorem c143_columns (sh : Q → Text) (neg : Q → Bool) (law : Q → Q → Q → Q → Q) (name : Text)
    (ra dec flux index mfreq f : Q) (fs : List Q) (hsh : ∀ q, '\t' ∉ sh q) (hname : '\t' ∉ name) :
    ∃ s, updateJys law (make name ra dec flux index mfreq) (f :: fs) = some s ∧
      ∃ t, ampStr sh neg s = .ok t ∧
        t.splitOn '\t' = [name, sh ra, signed sh neg dec, sh flux, sh index, sh mfreq,
          sh (law flux index mfreq f), sh f] := by
  refine ⟨_, rfl, _, rfl, ?_⟩
  have := splitOn_columns [name, sh ra, signed sh neg dec, sh flux, sh index, sh mfreq,
    sh (law flux index mfreq f), sh f] (by simp) (by
      intro c hc
      simp only [List.mem_cons, List.not_mem_nil, or_false] at hc
      rcases hc with h | h | h | h | h | h | h | h <;> subst h
      · exact hname
      · exact hsh _
      · unfold signed
        split
        · exact hsh _
        · simp [hsh]
      all_goals exact hsh _)
  rw [← this]
  congr 1
  unfold phsStr
  simp only [make]
  by_cases hd : neg dec <;> simp [hd, signed, columns, column, List.intersperse]

/-- **C143**: two computed sources with the same text have the same columns; so with a way of writing numbers that tells
them apart they are at the same place with the same flux -/
theorem c143_injective (sh : Q → Text) (neg : Q → Bool) (law : Q → Q → Q → Q → Q) (n n' : Text)
    (ra dec fl ix mf f ra' dec' fl' ix' mf' f' : Q) (fs fs' : List Q) (hsh : ∀ q, '\t' ∉ sh q) (hn : '\t' ∉ n)
    (hn' : '\t' ∉ n') (hinj : ∀ p q, sh p = sh q → p = q) (hplus : ∀ q, (sh q).head? ≠ some '+') (s s' : Src Q)
    (hs : updateJys law (make n ra dec fl ix mf) (f :: fs) = some s)
    (hs' : updateJys law (make n' ra' dec' fl' ix' mf') (f' :: fs') = some s')
    (he : ampStr sh neg s = ampStr sh neg s') :
    n = n' ∧ ra = ra' ∧ dec = dec' ∧ fl = fl' ∧ ix = ix' ∧ mf = mf' ∧ f = f' := by
  obtain ⟨s₁, h₁, t, ht, hc⟩ := c143_columns sh neg law n ra dec fl ix mf f fs hsh hn
  obtain ⟨s₂, h₂, t', ht', hc'⟩ := c143_columns sh neg law n' ra' dec' fl' ix' mf' f' fs' hsh hn'
  rw [hs] at h₁
  rw [hs'] at h₂
  cases h₁
  cases h₂
  rw [ht, ht'] at he
  injection he with he
  rw [he, hc'] at hc
  simp only [List.cons.injEq, and_true] at hc
  obtain ⟨e1, e2, e3, e4, e5, e6, -, e8⟩ := hc
  refine ⟨e1.symm, (hinj _ _ e2).symm, ?_, (hinj _ _ e4).symm, (hinj _ _ e5).symm, (hinj _ _ e6).symm, (hinj _ _ e8).symm⟩
  unfold signed at e3
  split at e3 <;> split at e3
  · exact (hinj _ _ e3).symm
  · exact absurd (by rw [e3]; rfl) (hplus dec')
  · exact absurd (by rw [← e3]; rfl) (hplus dec)
  · injection e3 with _ e3
    exact (hinj _ _ e3).symm

/-- **C143**: a source that was made but not computed has no text, although the flux at the first channel is looked for
with care: the frequency is not -/
theorem c143_before_violated (sh : Q → Text) (neg : Q → Bool) (name : Text) (ra dec flux index mfreq : Q) :
    ampStr sh neg (make name ra dec flux index mfreq) = .error .attributeError := by
  rfl

/-- **C143**: whatever is missing, no text has an empty seventh column: the case the code allows for (a frequency but no
flux) does not arise from making and computing -/
theorem c143_guard_unused (sh : Q → Text) (neg : Q → Bool) (law : Q → Q → Q → Q → Q) (name : Text)
    (ra dec flux index mfreq : Q) (comps : List (List Q)) (s : Src Q)
    (h : comps.foldlM (updateJys law) (make name ra dec flux index mfreq) = some s) :
    (s.jys = none ↔ s.afreqs = none) ∧ (s.afreqs = none ↔ comps = []) ∧
      (comps = [] → ampStr sh neg s = .error .attributeError) := by
  have key : ∀ (comps : List (List Q)) (s₀ s : Src Q), (s₀.jys = none ↔ s₀.afreqs = none) →
      comps.foldlM (updateJys law) s₀ = some s →
      (s.jys = none ↔ s.afreqs = none) ∧ (s.afreqs = none ↔ comps = [] ∧ s₀.afreqs = none) := by
    intro comps
    induction comps with
    | nil =>
      intro s₀ s h0 h
      simp only [List.foldlM_nil, Option.pure_def, Option.some.injEq] at h
      subst h
      exact ⟨h0, by simp⟩
    | cons c cs ih =>
      intro s₀ s h0 h
      simp only [List.foldlM_cons, Option.bind_eq_bind, Option.bind_eq_some_iff] at h
      obtain ⟨s₁, h1, h2⟩ := h
      unfold updateJys at h1
      cases hf : s₀.flux with
      | none => simp [hf] at h1
      | some fl =>
        cases hi : s₀.index with
        | none => simp [hf, hi] at h1
        | some ix =>
          simp only [hf, hi, Option.some.injEq] at h1
          subst h1
          have := ih _ s (by simp) h2
          refine ⟨this.1, ?_⟩
          rw [this.2]
          simp
  have k := key comps _ s (by simp [make]) h
  refine ⟨k.1, by rw [k.2]; simp [make], ?_⟩
  intro hc
  subst hc
  simp only [List.foldlM_nil, Option.pure_def, Option.some.injEq] at h
  subst h
  rfl

/-! ## Cases that meet the hypotheses -/

/-- numbers written in unary, with a sign -/
def toySh : ℤ → Text
  | .ofNat n => List.replicate n '1'
  | .negSucc n => '-' :: List.replicate (n + 1) '1'

/-- the text, or nothing if there is none -/
def textOf : Except Err Text → Option Text
  | .ok t => some t
  | .error _ => none

example : ((updateJys (fun f _ _ a => f * a) (make ['c', 'y', 'g'] 3 2 4 (-1) 1) ([2, 3] : List ℤ)).bind
    (fun s => textOf (ampStr toySh (fun q => decide (q < 0)) s))) =
    some "cyg\t111\t+11\t1111\t-1\t1\t11111111\t11".toList := by decide +kernel
example : ((updateJys (fun f _ _ a => f * a) (make ['c'] 3 (-2) 4 (-1) 1) ([2, 3] : List ℤ)).bind
    (fun s => textOf (ampStr toySh (fun q => decide (q < 0)) s))) =
    some "c\t111\t-11\t1111\t-1\t1\t11111111\t11".toList := by decide +kernel
example : textOf (ampStr toySh (fun q => decide (q < 0)) (make ['c'] 3 (-2) 4 (-1) 1)) = none := by decide

end Verif.SrcText
