import Verif.Scripting.Options
/-!
# Several letters in one word, and names that could be two (C145)
-/
namespace Verif.Options

theorem classify_cluster (c : Char) (hc : c ≠ '-') (cs : Str) : classify ('-' :: c :: cs) = .short (c :: cs) := by
  have h1 : ('-' :: c :: cs) ≠ ['-', '-'] := by
    intro h; injection h with _ h; injection h with h _; exact hc h
  have h2 : ('-' :: c :: cs).take 2 ≠ ['-', '-'] := by
    intro h
    rw [show ('-' :: c :: cs).take 2 = ['-', c] from rfl] at h
    injection h with _ h; injection h with h _; exact hc h
  rw [classify, if_neg h1, if_neg h2, if_pos ⟨rfl, by simp⟩]
  rfl

/-- **C145**: flags may share a word with what follows: `-xy...` means `-x -y...`, whatever `y...` is (flags, an option with its value, or an
option whose value is the next word) -/
theorem c145_cluster (num : Ty → Str → Bool) (p : Parser) (h : Sound p) (o : Opt) (ho : o ∈ p) (c : Char) (hn : ['-', c] ∈ o.names)
    (hk : o.kind = .flag) (c' : Char) (hc' : c' ≠ '-') (cs : Str) (rest : List Str) (s : St) :
    parse num p none (('-' :: c :: c' :: cs) :: rest) s = parse num p none (['-', c] :: ('-' :: c' :: cs) :: rest) s ∧
    parse num p none (['-', c] :: rest) s = parse num p none rest { s with vals := fun k => if k = o.dest then .yes else s.vals k } := by
  have hl := lookup_eq h.nodup ho hn
  have hc : c ≠ '-' := by
    have := h.names _ (List.mem_flatMap.2 ⟨o, ho, hn⟩)
    simpa [goodName] using this
  have e1 : ∀ r, parse num p none (['-', c] :: r) s = parse num p none r (put s o.dest .yes) := by
    intro r
    rw [parse, classify_cluster c hc]
    simp only [shorts, hl, hk]
  refine ⟨?_, e1 rest⟩
  rw [e1, parse, parse, classify_cluster c hc, classify_cluster c' hc']
  simp only
  rw [shorts, hl]
  simp only [hk]

/-- `-pC cal` of amp_close.py -/
example : ∃ p, build sAmpClose = some p ∧ Sound p ∧ ∃ o ∈ p, ['-', 'p'] ∈ o.names ∧ o.kind = .flag := by
  obtain ⟨p, h1, h2⟩ := c145_scripts sAmpClose (by simp [scripts])
  refine ⟨p, h1, h2, ?_⟩
  have : (build sAmpClose).map (fun p => p.any fun o => o.names.contains ['-', 'p'] && decide (o.kind = .flag)) = some true := by decide +kernel
  rw [h1] at this
  simp only [Option.map_some, Option.some.injEq, List.any_eq_true, Bool.and_eq_true, decide_eq_true_eq, List.contains_iff_mem] at this
  obtain ⟨o, ho, a, b⟩ := this
  exact ⟨o, ho, a, b⟩

/-- **C145**: a long name that is not declared is refused when it is the beginning of no name, and when it is the beginning of two, with a
value or without -/
theorem c145_ambiguous (num : Ty → Str → Bool) (p : Parser) (n : Str) (hd : n.take 2 = ['-', '-']) (h3 : 3 ≤ n.length) (heq : '=' ∉ n)
    (hn : n ∉ p.flatMap Opt.names)
    (hu : (∀ m ∈ p.flatMap Opt.names, ¬ n <+: m) ∨
      ∃ m ∈ p.flatMap Opt.names, ∃ m' ∈ p.flatMap Opt.names, m ≠ m' ∧ n <+: m ∧ n <+: m')
    (e : Str) (he : e = [] ∨ ∃ v, e = '=' :: v) (rest : List Str) (s : St) :
    parse num p none ((n ++ e) :: rest) s = .error .usage := by
  obtain ⟨d, ds, rfl⟩ := long_cases n hd (by omega)
  have hln : lookup p ('-' :: '-' :: d :: ds) = none := by
    unfold lookup
    rw [List.find?_eq_none]
    intro q hq hh
    exact hn (List.mem_flatMap.2 ⟨q, hq, by simpa using hh⟩)
  have hmn : matchLong p ('-' :: '-' :: d :: ds) = none := by
    unfold matchLong
    rw [hln]
    simp only
    cases hf : (p.flatMap Opt.names).filter fun m => isLong m && List.isPrefixOf ('-' :: '-' :: d :: ds) m with
    | nil => rfl
    | cons x l =>
      cases l with
      | cons _ _ => rfl
      | nil =>
        exfalso
        have hin : ∀ m, m ∈ p.flatMap Opt.names → ('-' :: '-' :: d :: ds) <+: m → m = x := by
          intro m hm hp
          have : m ∈ (p.flatMap Opt.names).filter fun m => isLong m && List.isPrefixOf ('-' :: '-' :: d :: ds) m := by
            refine List.mem_filter.2 ⟨hm, ?_⟩
            obtain ⟨t, rfl⟩ := hp
            simp [isLong]
          rw [hf] at this
          simpa using this
        rcases hu with h | ⟨m, hm, m', hm', hne, hp, hp'⟩
        · have hx : x ∈ (p.flatMap Opt.names).filter fun m => isLong m && List.isPrefixOf ('-' :: '-' :: d :: ds) m := by
            rw [hf]; simp
          obtain ⟨h1, h2⟩ := List.mem_filter.1 hx
          simp only [Bool.and_eq_true, List.isPrefixOf_iff_prefix] at h2
          exact h x h1 h2.2
        · exact hne ((hin m hm hp).trans (hin m' hm' hp').symm)
  have hl : long num p (('-' :: '-' :: d :: ds) ++ e) s = .error .usage := by
    unfold long
    rcases he with rfl | ⟨v, rfl⟩
    · rw [List.append_nil, splitEq_none _ heq, hmn]
    · rw [splitEq_some _ _ heq, hmn]
  rw [show ('-' :: '-' :: d :: ds) ++ e = '-' :: '-' :: d :: (ds ++ e) from rfl] at hl ⊢
  rw [parse, classify_long]
  simp only
  rw [hl]

/-- `--d` with the options of cl_img.py: it could be `--deconv` or `--div` -/
example : ∃ p, build sClImg = some p ∧ "--d".toList ∉ p.flatMap Opt.names ∧ "--deconv".toList ∈ p.flatMap Opt.names ∧
    "--div".toList ∈ p.flatMap Opt.names ∧ "--d".toList <+: "--deconv".toList ∧ "--d".toList <+: "--div".toList := by
  obtain ⟨p, h1, _⟩ := c145_scripts sClImg (by simp [scripts])
  have : (build sClImg).map (fun p => !(p.flatMap Opt.names).contains "--d".toList && (p.flatMap Opt.names).contains "--deconv".toList &&
    (p.flatMap Opt.names).contains "--div".toList) = some true := by decide +kernel
  rw [h1] at this
  simp only [Option.map_some, Option.some.injEq, Bool.and_eq_true, Bool.not_eq_true', List.contains_iff_mem] at this
  refine ⟨p, h1, ?_, this.1.2, this.2, by decide +kernel, by decide +kernel⟩
  intro h
  have h2 := this.1.1
  rw [List.contains_iff_mem.2 h] at h2
  cases h2

end Verif.Options
