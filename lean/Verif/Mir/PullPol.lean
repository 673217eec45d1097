import Verif.Mir.PipeStDir
import Verif.Codes.Props
import Verif.Util.Text

/-!
# Property C99 : pull_pol.py keeps the records of the polarisations asked for

`scripts/pull_pol.py` on directories, by `copy_state_dir`.
-/
namespace Verif.Mir.Uv

open Verif.Util (splitOn joinWith)
open Verif.Mir.Hio (Byte Item Tree)
open Verif.Mir.Mask (Mask)
open Verif.Mir.Head (rdhd Conv Val)

/-! ## The model -/

def nmPol : Name := ['p', 'o', 'l']

/-- `uv['pol']`: its type is the one in `vartable`, miriad.py 182-188 -/
def getPol (E : Env) (S : VisR) : Option PyVal :=
  (rlocvar S.r.vars nmPol).bind fun v => rdvr E.fo E.junk S.r nmPol (tyChar v.ty)

/-- `mfunc` of pull_pol.py 29-32.  `none` is the KeyError of `pol2str`.  (A number that is not an integer but equal to one
would be found as well; here it is a KeyError.) -/
def pullPol (E : Env) (pols2use : List (List Char)) : Proc Unit := fun _ S p =>
  match getPol E S with
  | some (.int v) =>
    match Codes.pol2str v with
    | none => none
    | some pol => some ((), if pol.toList ∈ pols2use then some p else none)
  | _ => none

/-- `histstr`, pull_pol.py 37-40 -/
def pullHist (pols2use : List (List Char)) : List Char :=
  pols2use.foldl (fun h pol => (h ++ (pol ++ [','])) ++ if some pol = pols2use.getLast? then ['\n'] else []) "PULL POLS: pols=".toList

/-- pull_pol.py 19-42 for one file; `pols` is the argument of `-p`, and without it `opts.pols` is the number 8, which has no
`split` -/
def pullPolRun (E : Env) (c : Conv) (g : Nat → Byte) (src : Tree) (m : Mask) (pols : Option (List Char)) (fuel : Nat) : Option (Tree × VisW) :=
  match pols with
  | none => none
  | some s => copyRunSt E c g src m (pullPol E (splitOn ',' s)) () [] [] [] ((pullHist (splitOn ',' s)).map Char.toNat) fuel

/-! ## Specification -/

/-- the polarisations of the records: with record `j` the variable `pol` is the integer `pv j` -/
structure PolsAre (W : VisW) (k : Nat) (pv : Nat → Int) : Prop where
  var : (['p', 'o', 'l'], Ty.int) ∈ table W.w
  range : ∀ j < k, -2 ^ 31 ≤ pv j ∧ pv j < 2 ^ 31
  value : ∀ j < k, valueAfter (upTo (j + 1) W.evs) ['p', 'o', 'l'] = some (word (pv j))

/-- the polarisation is one of those named in the list -/
def Asked (pols : List Char) (v : Int) : Prop := ∃ s, s ∈ splitOn ',' pols ∧ Codes.str2pol (String.ofList s) = some v

instance (pols : List Char) (v : Int) : Decidable (Asked pols v) :=
  decidable_of_iff (∃ s ∈ splitOn ',' pols, Codes.str2pol (String.ofList s) = some v) Iff.rfl

/-- the numbers of the records that are asked for -/
def wanted (pols : List Char) (pv : Nat → Int) (k : Nat) : List Nat := (List.range k).filter fun j => Asked pols (pv j)

/-! ## Lemmas -/

theorem rlocvar_of_getvr {r : Reader} {nm : Name} {ty : Ty} {d : List Byte} (h : getvr r nm ty = some d) :
    ∃ v, rlocvar r.vars nm = some v ∧ v.ty = ty := by
  unfold getvr at h
  cases hl : rlocvar r.vars nm with
  | none => rw [hl] at h; cases h
  | some v =>
    rw [hl] at h
    simp only at h
    by_cases ht : ty = v.ty
    · exact ⟨v, rfl, ht.symm⟩
    · rw [if_pos ht] at h; cases h

theorem getPol_int {E : Env} {S : VisR} {v : Int} (h1 : -2 ^ 31 ≤ v) (h2 : v < 2 ^ 31) (h : getvr S.r nmPol .int = some (word v))
    (hr : (word v).length / Ty.mem .int * Ty.ext .int ≤ BUFSIZE →
      rdvr E.fo E.junk S.r nmPol (tyChar .int) = decode E.fo E.junk (tyChar .int) (word v)) : getPol E S = some (.int v) := by
  obtain ⟨x, e1, e2⟩ := rlocvar_of_getvr h
  unfold getPol
  rw [e1, Option.bind_some, e2, hr (by rw [show (word v).length = 4 from rfl]; decide)]
  show some (unwrap _ _ (words (word v))) = _
  rw [words_word]
  show some (PyVal.int (signed32 _)) = _
  rw [signed32_word v h1 h2]

theorem asked_iff (pols : List Char) (v : Int) {s : String} (hs : Codes.pol2str v = some s) : s.toList ∈ splitOn ',' pols ↔ Asked pols v := by
  constructor
  · intro h
    exact ⟨_, h, by rw [String.ofList_toList]; exact (Codes.c04_pol_tables_inverse s v).2 hs⟩
  · rintro ⟨t, ht, hv⟩
    have := (Codes.c04_pol_tables_inverse _ v).1 hv
    rw [hs, Option.some.injEq] at this
    rw [this, String.toList_ofList]
    exact ht

/-- a function that keeps some records as they are -/
theorem run_keep {E : Env} {n : Nat} {pr : Proc Unit} {keep : Nat → Bool} : ∀ (k : Nat) (l : List (VisR × Out)),
    (∀ (j : Nat) (x : VisR × Out), l[j]? = some x → pr () x.1 (E.show n x.2) = some ((), if keep (k + j) then some (E.show n x.2) else none)) →
    ∃ ys, runProc E n pr () l = some ((), ys) ∧ ys.length = l.length ∧
      ∀ (j : Nat) (x : VisR × Out), l[j]? = some x → ys[j]? = some (if keep (k + j) then some (E.show n x.2) else none) := by
  intro k l
  induction l generalizing k with
  | nil => intro _; exact ⟨[], rfl, rfl, fun j x h => by cases h⟩
  | cons a l ih =>
    intro h
    obtain ⟨ys, e1, e2, e3⟩ := ih (k + 1) (fun j x hx => by
      have := h (j + 1) x (by rw [List.getElem?_cons_succ]; exact hx)
      rw [show k + 1 + j = k + (j + 1) by omega]
      exact this)
    have h0 := h 0 a rfl
    obtain ⟨S, out⟩ := a
    refine ⟨(if keep (k + 0) then some (E.show n out) else none) :: ys, ?_, by simp [e2], ?_⟩
    · rw [runProc]
      simp only at h0
      rw [h0]
      simp only
      rw [e1]
      rfl
    · intro j x hx
      cases j with
      | zero => cases hx; rfl
      | succ j =>
        rw [List.getElem?_cons_succ] at hx ⊢
        rw [e3 j x hx, show k + 1 + j = k + (j + 1) by omega]

theorem kept_keep {E : Env} {n : Nat} {mf : MFunc} {keep : Nat → Bool} : ∀ (k : Nat) (l : List (VisR × Out)),
    (∀ (j : Nat) (x : VisR × Out), l[j]? = some x → mf (k + j) (E.show n x.2) = if keep (k + j) then some (E.show n x.2) else none) →
    List.Forall₂ (fun j y => ∃ x, l[j]? = some x ∧ y = (x.1, E.show n x.2)) ((List.range l.length).filter fun j => keep (k + j))
      (kept E n mf k l) := by
  intro k l
  induction l generalizing k with
  | nil => intro _; exact .nil
  | cons a l ih =>
    intro h
    obtain ⟨S, out⟩ := a
    have ht := ih (k + 1) (fun j x hx => by
      have := h (j + 1) x (by rw [List.getElem?_cons_succ]; exact hx)
      rw [show k + 1 + j = k + (j + 1) by omega]
      exact this)
    have ht' : List.Forall₂ (fun j y => ∃ x, ((S, out) :: l)[j]? = some x ∧ y = (x.1, E.show n x.2))
        (((List.range l.length).filter fun j => keep (k + 1 + j)).map Nat.succ) (kept E n mf (k + 1) l) := by
      rw [List.forall₂_map_left_iff]
      exact ht
    have hr : (List.range ((S, out) :: l).length).filter (fun j => keep (k + j)) =
        (if keep (k + 0) then [0] else []) ++ ((List.range l.length).filter fun j => keep (k + 1 + j)).map Nat.succ := by
      rw [List.length_cons, List.range_succ_eq_map, List.filter_cons, List.filter_map]
      have hf : ((fun j => keep (k + j)) ∘ Nat.succ) = fun j => keep (k + 1 + j) := by
        funext j
        show keep (k + (j + 1)) = _
        rw [show k + 1 + j = k + (j + 1) by omega]
      rw [hf]
      split <;> rfl
    rw [hr]
    have h0 := h 0 (S, out) rfl
    simp only [Nat.add_zero] at h0 ⊢
    rw [kept, h0]
    by_cases hk : keep k = true
    · rw [if_pos hk, if_pos hk]
      exact .cons ⟨(S, out), rfl, rfl⟩ ht'
    · rw [if_neg hk, if_neg hk]
      exact ht'

theorem foldl_hist (pols : List (List Char)) (last : Option (List Char)) : ∀ (h : List Char) (l : List Char), (∀ p ∈ pols, ∀ ch ∈ p, ch ∈ l) →
    ∀ ch ∈ pols.foldl (fun h pol => (h ++ (pol ++ [','])) ++ if some pol = last then ['\n'] else []) h, ch ∈ h ∨ ch ∈ l ∨ ch = ',' ∨ ch = '\n' := by
  induction pols with
  | nil => intro h l _ ch hc; exact Or.inl hc
  | cons a pols ih =>
    intro h l hp ch hc
    rw [List.foldl_cons] at hc
    rcases ih _ l (fun p hp' => hp p (List.mem_cons_of_mem _ hp')) ch hc with h1 | h1
    · rw [List.mem_append, List.mem_append, List.mem_append] at h1
      rcases h1 with (h1 | h1 | h1) | h1
      · exact Or.inl h1
      · exact Or.inr (Or.inl (hp a List.mem_cons_self ch h1))
      · exact Or.inr (Or.inr (Or.inl (List.mem_singleton.1 h1)))
      · split at h1
        · exact Or.inr (Or.inr (Or.inr (List.mem_singleton.1 h1)))
        · cases h1
    · exact Or.inr h1

theorem mem_split (sep : Char) : ∀ s : List Char, ∀ p ∈ splitOn sep s, ∀ ch ∈ p, ch ∈ s
  | [], p, hp, ch, hc => by
    rw [splitOn, List.mem_singleton] at hp
    subst hp
    cases hc
  | a :: s, p, hp, ch, hc => by
    have ih := mem_split sep s
    rw [splitOn] at hp
    split at hp
    · rcases List.mem_cons.1 hp with rfl | hp
      · cases hc
      · exact List.mem_cons_of_mem _ (ih p hp ch hc)
    · split at hp
      · rw [List.mem_singleton] at hp
        subst hp
        rw [List.mem_singleton] at hc
        rw [hc]; exact List.mem_cons_self
      · rename_i q qs he
        rw [he] at ih
        rcases List.mem_cons.1 hp with rfl | hp
        · rcases List.mem_cons.1 hc with rfl | hc
          · exact List.mem_cons_self
          · exact List.mem_cons_of_mem _ (ih q List.mem_cons_self ch hc)
        · exact List.mem_cons_of_mem _ (ih p (List.mem_cons_of_mem _ hp) ch hc)

theorem foldl_len (last : Option (List Char)) : ∀ (pols : List (List Char)) (h : List Char),
    (pols.foldl (fun h pol => (h ++ (pol ++ [','])) ++ if some pol = last then ['\n'] else []) h).length ≤
      h.length + ((pols.map fun p => p.length + 1).sum + pols.length)
  | [], h => by simp
  | a :: pols, h => by
    have ih := foldl_len last pols ((h ++ (a ++ [','])) ++ if some a = last then ['\n'] else [])
    rw [List.foldl_cons, List.map_cons, List.sum_cons, List.length_cons]
    refine Nat.le_trans ih ?_
    rw [List.length_append, List.length_append, List.length_append]
    have : (if some a = last then ['\n'] else []).length ≤ 1 := by split <;> simp
    simp only [List.length_singleton]
    omega

theorem split_len (sep : Char) : ∀ s : List Char, ((splitOn sep s).map fun p => p.length + 1).sum = s.length + 1 ∧ (splitOn sep s).length ≤ s.length + 1
  | [] => by simp [splitOn]
  | a :: s => by
    have ih := split_len sep s
    rw [splitOn]
    split
    · simp only [List.map_cons, List.sum_cons, List.length_cons, List.length_nil]
      omega
    · split
      · rename_i he
        exact absurd he (Verif.Util.splitOn_ne_nil _ _)
      · rename_i q qs he
        rw [he] at ih
        simp only [List.map_cons, List.sum_cons, List.length_cons] at ih ⊢
        omega

theorem hist_len (pols : List Char) : (pullHist (splitOn ',' pols)).length ≤ 2 * pols.length + 18 := by
  have h1 := foldl_len (splitOn ',' pols).getLast? (splitOn ',' pols) "PULL POLS: pols=".toList
  have h2 := split_len ',' pols
  have h3 : "PULL POLS: pols=".toList.length = 16 := by decide
  unfold pullHist
  omega

theorem hist_ascii {pols : List Char} (h : ∀ ch ∈ pols, 0 < ch.toNat ∧ ch.toNat < 128) :
    ∀ n ∈ (pullHist (splitOn ',' pols)).map Char.toNat, 0 < n ∧ n < 128 := by
  intro n hn
  obtain ⟨ch, hc, rfl⟩ := List.mem_map.1 hn
  rcases foldl_hist _ _ _ pols (mem_split ',' pols) ch hc with h1 | h1 | rfl | rfl
  · exact (show ∀ ch ∈ "PULL POLS: pols=".toList, 0 < ch.toNat ∧ ch.toNat < 128 from by decide) ch h1
  · exact h ch h1
  · decide
  · decide

theorem foldl_distinct (last : List Char) : ∀ (pols : List (List Char)) (h : List Char), (pols ++ [last]).Nodup →
    ((pols ++ [last]).foldl (fun h pol => (h ++ (pol ++ [','])) ++ if some pol = some last then ['\n'] else []) h) =
      h ++ (joinWith ',' (pols ++ [last]) ++ [',', '\n'])
  | [], h, _ => by simp [joinWith]
  | a :: pols, h, hn => by
    rw [List.cons_append] at hn
    obtain ⟨h1, h2⟩ := List.nodup_cons.1 hn
    have ha : ¬ (some a = some last) := by
      intro he
      exact h1 (List.mem_append_right _ (by rw [Option.some.inj he]; exact List.mem_singleton_self _))
    rw [List.cons_append, List.foldl_cons, if_neg ha, foldl_distinct last pols _ h2]
    have hj : joinWith ',' (a :: (pols ++ [last])) = a ++ ',' :: joinWith ',' (pols ++ [last]) := by
      cases pols <;> rfl
    rw [hj]
    simp

theorem pullHist_eq {pols : List Char} (h : (splitOn ',' pols).Nodup) :
    pullHist (splitOn ',' pols) = "PULL POLS: pols=".toList ++ (pols ++ [',', '\n']) := by
  have hne := Verif.Util.splitOn_ne_nil ',' pols
  obtain ⟨init, last, he⟩ : ∃ init last, splitOn ',' pols = init ++ [last] :=
    ⟨_, _, (List.dropLast_append_getLast hne).symm⟩
  have hl : (splitOn ',' pols).getLast? = some last := by rw [he]; simp
  unfold pullHist
  rw [hl, he, foldl_distinct last init _ (he ▸ h), ← he, Verif.Util.join_split]

theorem forall2_get {α β : Type} {R : α → β → Prop} {a : List α} {b : List β} (h : List.Forall₂ R a b) :
    ∀ (i : Nat) (x : α), a[i]? = some x → ∃ y, b[i]? = some y ∧ R x y := by
  induction h with
  | nil => intro i x hx; cases hx
  | cons h1 _ ih =>
    intro i x hx
    cases i with
    | zero => cases hx; exact ⟨_, rfl, h1⟩
    | succ i => exact ih i x hx

/-! ## C99 -/

/-- **C99.**  `pull_pol.py -p pols`: the directory that is left behind has the records of the source whose polarisation is
named in `pols`, as they were and in the same order, and none else; with each record the variables have the values they have
with it in the source, also those that were set with records that are left out; the items of the header are those of the
source, but for the line that is added to the history. -/
theorem c99_pull (c : Conv) (hw : ∀ x < 2 ^ 32, c.round (c.widen x) = x) {E : Env} {o q junk bs W n names h old}
    (O : Origin E o q junk bs W n names h old) (hmode : E.mode = .real) (hl : FpLaws E.o)
    (hq : QuantOk E.q) (hbl : BlLaws E.bl o) (hun : ∀ t ints, (E.unscale t ints).length = ints.length)
    {m : Mask} (hm : FlagFile W m) (hv : VarsOk E W [] []) {obs : Option (List Byte)} (hobs : ObsOk obs)
    {pols : List Char} (hascii : ∀ ch ∈ pols, 0 < ch.toNat ∧ ch.toNat < 128) (hlen : old.length + (2 * pols.length + 18) ≤ 2 ^ 31)
    {pv : Nat → Int} (hp : PolsAre W bs.length pv) (hnamed : ∀ j < bs.length, ∃ s, Codes.str2pol s = some (pv j)) (g0 g : Nat → Byte) :
    ∃ src t1 W', directory c g0 h = some src ∧
      (∀ fuel, bs.length < fuel → pullPolRun E c g src m (some pols) fuel = some (t1, W')) ∧
      (wanted pols pv bs.length ≠ [] → W'.w.offset ≤ 2 ^ 31 → ∃ cpy, closeCopy c g obs (t1, W') = some cpy ∧
        ((splitOn ',' pols).Nodup → ∀ g', rdhd c cpy Hio.hist g' =
          .ok (.str (old ++ ("PULL POLS: pols=".toList ++ (pols ++ [',', '\n'])).map Char.toNat))) ∧
        (∀ (nm : Hio.Name) (k : Head.Kind) (g' : Nat → Byte), Head.itype nm = some k → nm ≠ Hio.hist → nm ≠ itVartable →
          (nm = Head.obstype → obs = none) → rdhd c cpy nm g' = rdhd c src nm g') ∧
        ∀ (g' : Nat → Byte) (m' : Mask), FlagFile W' m' → ∃ it r0, openOld cpy g' = some (it, r0) ∧
          (∃ it1 it2 R outs R', huvreadN g' n (wanted pols pv bs.length).length it ⟨r0, 0, m'⟩ = some (it1, R, outs) ∧
            huvread g' n it1 R = (it2, .eof R')) ∧
          ∀ (i j : Nat) (b : Block), (wanted pols pv bs.length)[i]? = some j → bs[j]? = some b → ∃ it1 R outs out,
            huvreadN g' n (i + 1) it ⟨r0, 0, m'⟩ = some (it1, R, outs ++ [out]) ∧ outs.length = i ∧ Matches o q .real out b.vis ∧
            ∀ nm ty d, (nm, ty) ∈ table W.w → nm ≠ nmCorr → valueAfter (upTo (j + 1) W.evs) nm = some d → getvr R.r nm ty = some d) := by
  have hi : ItemsOk [] [] old ((pullHist (splitOn ',' pols)).map Char.toNat) := by
    refine ⟨fun p _ q hq => (by cases hq), (by simp), rfl, hist_ascii hascii, ?_⟩
    have := hist_len pols
    rw [List.length_append, List.length_map]
    omega
  obtain ⟨src, l, e1, e2, e3, _, e4⟩ := copy_state_dir c hw O hmode hl hq hbl hun hm hv hi hobs (pullPol E (splitOn ',' pols)) () g0 g
  have hstep : ∀ (j : Nat) (x : VisR × Out), l[j]? = some x → pullPol E (splitOn ',' pols) () x.1 (E.show n x.2) =
      some ((), if decide (Asked pols (pv (0 + j))) then some (E.show n x.2) else none) := by
    intro j x hx
    have hj : j < bs.length := by rw [← e2]; exact (List.getElem?_eq_some_iff.1 hx).1
    obtain ⟨_, _, hvar⟩ := e3 j x.1 x.2 bs[j] hx (List.getElem?_eq_getElem hj)
    obtain ⟨v1, v2⟩ := hvar _ _ _ hp.var (hp.value j hj)
    have hpol := getPol_int (E := E) (hp.range j hj).1 (hp.range j hj).2 v1 v2
    obtain ⟨s, hs⟩ := hnamed j hj
    have hs2 := (Codes.c04_pol_tables_inverse s (pv j)).1 hs
    unfold pullPol
    rw [hpol]
    simp only [hs2, Nat.zero_add]
    by_cases ha : Asked pols (pv j)
    · rw [if_pos ((asked_iff pols _ hs2).2 ha), if_pos (decide_eq_true ha)]
    · rw [if_neg (fun hh => ha ((asked_iff pols _ hs2).1 hh)), if_neg (fun hh => ha (of_decide_eq_true hh))]
  obtain ⟨ys, r1, r2, r3⟩ := run_keep (keep := fun j => decide (Asked pols (pv j))) 0 l hstep
  have hmild : MildOn E n (pullPol E (splitOn ',' pols)) l := by
    intro x S out _ x1 q hq
    unfold pullPol at hq
    split at hq
    · split at hq
      · cases hq
      · rw [Option.some.injEq, Prod.mk.injEq] at hq
        obtain ⟨_, hq⟩ := hq
        split at hq
        · cases hq
          exact ⟨rfl, rfl, rfl, rfl, rfl, rfl, rfl, rfl⟩
        · cases hq
    · cases hq
  obtain ⟨t1, W', f1, f2⟩ := e4 () ys r1 hmild
  have hkept := kept_keep (E := E) (n := n) (mf := returned ys) (keep := fun j => decide (Asked pols (pv j))) 0 l (by
    intro j x hx
    refine returned_at (by rw [Nat.zero_add]; exact r3 j x hx) ?_ |>.trans (by rw [Nat.zero_add])
    intro q hq
    rw [Nat.zero_add] at hq
    split at hq
    · cases hq
      exact ⟨rfl, rfl, rfl, rfl, rfl, rfl, rfl, rfl⟩
    · cases hq)
  have hwant : (List.range l.length).filter (fun j => decide (Asked pols (pv (0 + j)))) = wanted pols pv bs.length := by
    unfold wanted
    rw [e2]
    simp only [Nat.zero_add]
  rw [hwant] at hkept
  refine ⟨src, t1, W', e1, f1, fun hne hb => ?_⟩
  have hk : kept E n (returned ys) 0 l ≠ [] := by
    intro h0
    rw [h0] at hkept
    generalize wanted pols pv bs.length = wl at hkept hne
    cases hkept
    exact hne rfl
  obtain ⟨cpy, c1, c2, c3⟩ := f2 hk hb
  refine ⟨cpy, c1, fun hnd g' => ?_, fun nm k g' h1 h2 h3 h4 => ?_, fun g' m' hm' => ?_⟩
  · rw [c2.history, pullHist_eq hnd]
  · exact (c2.others nm k g' h1 h2 h3 h4).2.1 (by simp) rfl
  · obtain ⟨it, r0, d1, d2, d3⟩ := c3 g' m' hm'
    refine ⟨it, r0, d1, ?_, ?_⟩
    · rw [← hkept.length_eq] at d2
      exact d2
    · intro i j b hij hb
      obtain ⟨y, hy, x, hx, rfl⟩ := forall2_get hkept i j hij
      obtain ⟨it1, R, outs, s1, s2, s3⟩ := d3 i _ _ hy
      obtain ⟨m1, m2, m3⟩ := e3 j x.1 x.2 b hx hb
      rw [m2] at s1
      refine ⟨it1, R, outs, x.2, s1, s2, m1, fun nm ty d ht hc hd => ?_⟩
      have hg := (m3 nm ty d ht hd).1
      obtain ⟨v, hv', rfl, rfl⟩ := getvr_mem_of hg
      rw [s3 v hv' ⟨hc, by simp, rfl, fun _ => by decide⟩, hg]

/-- **C99**, a polarisation that has no name: the script raises. -/
theorem c99_unknown (c : Conv) (hw : ∀ x < 2 ^ 32, c.round (c.widen x) = x) {E : Env} {o q junk bs W n names h old}
    (O : Origin E o q junk bs W n names h old) (hmode : E.mode = .real) (hl : FpLaws E.o)
    (hq : QuantOk E.q) (hbl : BlLaws E.bl o) (hun : ∀ t ints, (E.unscale t ints).length = ints.length)
    {m : Mask} (hm : FlagFile W m) (hv : VarsOk E W [] []) {pols : List Char} (hascii : ∀ ch ∈ pols, 0 < ch.toNat ∧ ch.toNat < 128)
    (hlen : old.length + (2 * pols.length + 18) ≤ 2 ^ 31)
    {pv : Nat → Int} (hp : PolsAre W bs.length pv) {j : Nat} (hj : j < bs.length) (hun' : ∀ s, Codes.str2pol s ≠ some (pv j)) (g0 g : Nat → Byte) :
    ∃ src, directory c g0 h = some src ∧ ∀ fuel, pullPolRun E c g src m (some pols) fuel = none := by
  have hi : ItemsOk [] [] old ((pullHist (splitOn ',' pols)).map Char.toNat) := by
    refine ⟨fun p _ q hq => (by cases hq), (by simp), rfl, hist_ascii hascii, ?_⟩
    have := hist_len pols
    rw [List.length_append, List.length_map]
    omega
  obtain ⟨src, l, e1, e2, e3, e4, _⟩ := copy_state_dir c hw O hmode hl hq hbl hun hm hv hi (obs := none) (fun s hs => by cases hs)
    (pullPol E (splitOn ',' pols)) () g0 g
  refine ⟨src, e1, e4 ?_⟩
  obtain ⟨x, hx⟩ : ∃ x, l[j]? = some x := ⟨_, List.getElem?_eq_getElem (by rw [e2]; exact hj)⟩
  have hbad : pullPol E (splitOn ',' pols) () x.1 (E.show n x.2) = none := by
    obtain ⟨_, _, hvar⟩ := e3 j x.1 x.2 bs[j] hx (List.getElem?_eq_getElem hj)
    obtain ⟨v1, v2⟩ := hvar _ _ _ hp.var (hp.value j hj)
    have hpol := getPol_int (E := E) (hp.range j hj).1 (hp.range j hj).2 v1 v2
    unfold pullPol
    rw [hpol]
    simp only
    cases hs : Codes.pol2str (pv j) with
    | none => rfl
    | some s => exact absurd ((Codes.c04_pol_tables_inverse s _).2 hs) (hun' s)
  have key : ∀ (l : List (VisR × Out)) (x : VisR × Out), x ∈ l → pullPol E (splitOn ',' pols) () x.1 (E.show n x.2) = none →
      runProc E n (pullPol E (splitOn ',' pols)) () l = none := by
    intro l x
    induction l with
    | nil => intro hx; cases hx
    | cons a l ih =>
      intro hx hb
      obtain ⟨S, out⟩ := a
      rw [runProc]
      rcases List.mem_cons.1 hx with rfl | hx
      · simp only at hb
        rw [hb]
      · cases hq : pullPol E (splitOn ',' pols) () S (E.show n out) with
        | none => rfl
        | some r =>
          simp only
          rw [show r.1 = () from rfl, ih hx hb]
          rfl
  exact key l x (List.mem_of_getElem? hx) hbad

/-! ## An example -/

/-- three records of two channels, of polarisations xx, yy and xx -/
def polSrc : List Block :=
  [⟨[⟨nmPol, .int, word (-5)⟩], ⟨1, 2, 3, 4, Codes.mkbl 0 1, List.replicate 16 9, [true, false]⟩⟩,
   ⟨[⟨nmPol, .int, word (-6)⟩], ⟨1, 2, 8, 6, Codes.mkbl 0 2, List.replicate 16 1, [true, true]⟩⟩,
   ⟨[⟨nmPol, .int, word (-5)⟩], ⟨1, 2, 8, 7, Codes.mkbl 0 1, List.replicate 16 3, [false, true]⟩⟩]

def polVals (j : Nat) : Int := if j = 1 then -6 else -5

theorem pol_archive : ∃ W, writeAll .real polSrc = some W ∧ Archive demoEnv demoOps demoQuant (fun _ => 0) .real polSrc W 2 ∧
    VarsOk demoEnv W [] [] ∧ PolsAre W 3 polVals ∧ ∃ m, FlagFile W m := by
  have hex : ∃ s0 s, openVis .real = some s0 ∧ writeBlocks demoOps demoQuant (fun _ => 0) .real s0 polSrc = some s ∧
      (table s.w).length ≤ 122 ∧
      s.flagOps = [.write 0 [true, false], .write 2 [true, true], .write 4 [false, true]] ∧
      table s.w = [(nmCorr, Ty.real), (nmPol, .int), (nmCoord, .dble), (nmTime, .dble), (nmBl, .real), (nmNchan, .int)] ∧
      (∀ j < 3, valueAfter (upTo (j + 1) s.evs) nmPol = some (word (polVals j))) ∧
      (valueAfter (upTo 1 s.evs) nmCoord).map List.length = some 24 ∧ (valueAfter (upTo 1 s.evs) nmTime).map List.length = some 8 ∧
      (valueAfter (upTo 1 s.evs) nmBl).map List.length = some 4 ∧ (valueAfter (upTo 1 s.evs) nmNchan).map List.length = some 4 :=
    ⟨_, _, rfl, rfl, by decide +kernel, rfl, by decide +kernel, by decide +kernel, by decide +kernel, by decide +kernel,
      by decide +kernel, by decide +kernel⟩
  obtain ⟨s0, s, h0, h1, h2, h4, h5, v1, v3, v4, v5, v6⟩ := hex
  have hassign : assignAll s [] = some s := by
    cases s
    simp [assignAll, wrun]
  have hbl : ∀ b ∈ polSrc, BlockOk b := by
    intro b hb
    simp only [polSrc, List.mem_cons, List.not_mem_nil, or_false] at hb
    rcases hb with rfl | rfl | rfl <;>
    · refine ⟨⟨by decide, by decide, by decide, by decide, by decide, by decide, by decide, by decide⟩, ?_, ?_⟩
      · intro p hp
        rw [List.mem_singleton.1 hp]
        exact ⟨by decide, by decide, by simp⟩
      · refine ⟨fun p hp _ => ?_, fun d hd => by simp [lastGiven, nmCoord, nmPol] at hd,
          fun d hd => by simp [lastGiven, nmTime, nmPol] at hd, fun d hd => by simp [lastGiven, nmBl, nmPol] at hd⟩
        rw [List.mem_singleton.1 hp]
        exact ⟨by decide, by decide, by decide⟩
  have hall : writeAll .real polSrc = some s := by
    unfold writeAll
    rw [h0]
    exact h1
  have key : ∀ nm n, (valueAfter (upTo 1 s.evs) nm).map List.length = some n →
      ∃ d, valueAfter (upTo 1 s.evs) nm = some d ∧ d.length = n := by
    intro nm n h
    cases hv : valueAfter (upTo 1 s.evs) nm with
    | none => rw [hv] at h; simp at h
    | some d => rw [hv] at h; exact ⟨d, rfl, Option.some.inj h⟩
  refine ⟨s, hall, ⟨⟨demo_laws, demo_quant, Or.inl rfl, ⟨s0, s, [], h0, h1, hassign, by simp⟩, hbl, ?_, by omega⟩, ?_, by decide, ?_, ?_, ?_,
    ?_, h2⟩, ⟨?_, ?_, ?_⟩, ⟨?_, ?_, v1⟩, ?_⟩
  · intro b hb
    simp only [polSrc, List.head?_cons, Option.some.injEq] at hb
    subst hb
    exact ⟨fun _ => by decide, fun _ => by decide, fun _ => by decide⟩
  · intro b hb
    simp only [polSrc, List.mem_cons, List.not_mem_nil, or_false] at hb
    rcases hb with rfl | rfl | rfl <;> rfl
  · intro b hb p hp hn
    simp only [polSrc, List.mem_cons, List.not_mem_nil, or_false] at hb
    rcases hb with rfl | rfl | rfl <;>
    · rw [List.mem_singleton.1 hp] at hn
      exact absurd hn (by decide)
  · intro b hb p hp
    simp only [polSrc, List.mem_cons, List.not_mem_nil, or_false] at hb
    rcases hb with rfl | rfl | rfl <;>
    · rw [List.mem_singleton.1 hp]
      decide
  · intro b hb
    simp only [polSrc, List.mem_cons, List.not_mem_nil, or_false] at hb
    rcases hb with rfl | rfl | rfl
    · exact ⟨0, 1, by decide, by decide, rfl⟩
    · exact ⟨0, 2, by decide, by decide, rfl⟩
    · exact ⟨0, 1, by decide, by decide, rfl⟩
  · intro x hx ty hxt
    rw [h5] at hx
    revert hxt
    simp only [List.mem_cons, List.not_mem_nil, or_false] at hx
    rcases hx with rfl | rfl | rfl | rfl | rfl | rfl <;> cases ty <;> decide
  · intro x hx hc _ _
    rw [h5] at hx
    simp only [List.mem_cons, List.not_mem_nil, or_false] at hx
    rcases hx with rfl | rfl | rfl | rfl | rfl | rfl
    · exact absurd rfl hc
    · exact ⟨_, v1 0 (by decide), by decide, Or.inr (Or.inr (Or.inr (Or.inl ⟨rfl, by decide⟩)))⟩
    · obtain ⟨d, d1, d2⟩ := key _ _ v3
      exact ⟨d, d1, by show d.length / 8 * 8 ≤ 32768; omega, Or.inr (Or.inr (Or.inl rfl))⟩
    · obtain ⟨d, d1, d2⟩ := key _ _ v4
      exact ⟨d, d1, by show d.length / 8 * 8 ≤ 32768; omega, Or.inr (Or.inr (Or.inl rfl))⟩
    · obtain ⟨d, d1, d2⟩ := key _ _ v5
      exact ⟨d, d1, by show d.length / 4 * 4 ≤ 32768; omega, Or.inr (Or.inl rfl)⟩
    · obtain ⟨d, d1, d2⟩ := key _ _ v6
      exact ⟨d, d1, by show d.length / 4 * 4 ≤ 32768; omega, Or.inr (Or.inr (Or.inr (Or.inl ⟨rfl, d2⟩)))⟩
  · intro x _ p hp
    cases hp
  · intro x _ _
    exact ⟨by simp, rfl⟩
  · rw [h5]; decide
  · intro j _
    unfold polVals
    split <;> decide
  · have hr : ∃ m, Mask.run (Mask.mkopen (fun _ => 0) (fun _ => 0) 1) (s.flagOps ++ []) = .ok m := by
      rw [h4]
      exact ⟨_, rfl⟩
    obtain ⟨m, hr⟩ := hr
    exact ⟨m, fun _ => 0, fun _ => 0, 1, [], by simp, hr⟩

theorem pol_origin : ∃ W m, Origin demoEnv demoOps demoQuant (fun _ => 0) polSrc W 2 demoItemNames
      (demoItems.map .item ++ (W.evs.map .ev ++ [.flags W.flagOff])) [104, 105, 10] ∧
    VarsOk demoEnv W [] [] ∧ PolsAre W 3 polVals ∧ FlagFile W m := by
  obtain ⟨W, h0, ha, hv, hp, m, hm⟩ := pol_archive
  have hfacts : (writeAll .real polSrc).any (fun W => decide (W.w.offset ≤ 2 ^ 31) && decide (W.flagOff < 2 ^ 63) &&
      ((table W.w).all fun p => decide ((p.1 ≠ [] ∧ ∀ c ∈ p.1, 33 ≤ c.toNat ∧ c.toNat ≤ 126) ∧ nameBytes p.1 ∉ demoItemNames ∧
        nameBytes p.1 ∉ otherFiles))) = true := by
    decide +kernel
  rw [h0] at hfacts
  simp only [Option.any_some, Bool.and_eq_true, decide_eq_true_eq] at hfacts
  obtain ⟨⟨f1, f2⟩, f3⟩ := hfacts
  exact ⟨W, m, demo_origin_of ha (by decide) f1 f2 f3, hv, hp, hm⟩

/-- `-p xx` keeps the first and the third record -/
example : wanted ['x', 'x'] polVals 3 = [0, 2] := by decide

example : ∃ h src m t1 W', directory Head.lowConv (fun _ => 0) h = some src ∧
    ∀ fuel, 3 < fuel → pullPolRun demoEnv Head.lowConv (fun _ => 0) src m (some ['x', 'x']) fuel = some (t1, W') := by
  obtain ⟨W, m, O, hv, hp, hm⟩ := pol_origin
  obtain ⟨src, t1, W', e1, e2, _⟩ := c99_pull Head.lowConv Head.srcOps_ok.2.2.2 O rfl demo_laws demo_quant demo_bl (fun _ _ => rfl) hm hv
    (obs := none) (fun s hs => by cases hs) (pols := ['x', 'x']) (by decide) (by decide) hp (by
      intro j _
      unfold polVals
      split
      · exact ⟨"yy", by decide⟩
      · exact ⟨"xx", by decide⟩) (fun _ => 0) (fun _ => 0)
  exact ⟨_, src, m, t1, W', e1, e2⟩

end Verif.Mir.Uv
