import Verif.Mir.Decimate
import Mathlib.Data.List.Nodup
import Mathlib.Tactic.Ring
import Mathlib.Algebra.Ring.Int.Defs
/-!
# C125: the snapshots of fitmdl.py

Model of `/repo/scripts/fitmdl.py` 265-297: which records each fit of `--snap` reads.  Reading with `select('decimate', ..)` is the model
of C50; `rs` are the records of the file that pass the selection of antennas and polarisations.  The fit itself is C124.
-/
set_option linter.unusedSectionVars false
namespace Verif.Fit.Snap
open Verif.Mir.Decimate

variable {τ α : Type} [DecidableEq τ]

/-- `times = [0]`, the loop, `times = times[1:]`, fitmdl.py 271-274 -/
def timesOf (zero : τ) (ts : List τ) : List τ :=
  (ts.foldl (fun acc t => if acc.getLast? ≠ some t then acc ++ [t] else acc) [zero]).drop 1

/-- the records read from a file opened anew, fitmdl.py 118-123 and 268-272 -/
def recs (start : τ) (junk : Nat → τ) (rs : List (τ × α)) (n p : Int) : List (τ × α) :=
  (readAll junk (rs.length + 1) (select n p (init start rs))).1

/-- the fits of `--snap`, fitmdl.py 266-289: the time printed and the records fitted; `n` and `p` are `opts.decimate` and `opts.decphs` -/
def snaps (start zero : τ) (junk : Nat → τ) (rs : List (τ × α)) (n p : Nat) : List (τ × List (τ × α)) :=
  let times := timesOf zero ((recs start junk rs n p).map Prod.fst)
  let decimate := times.length * n
  times.zipIdx.map fun x => (x.1, recs start junk rs (decimate : Nat) ((n * x.2 + p : Nat)))

/-! ## Specification -/

/-- the records of a file, given its integrations: a time and what was recorded then -/
def flat (g : List (τ × List α)) : List (τ × α) := g.flatMap fun x => x.2.map fun a => (x.1, a)

/-! ## Lemmas -/

theorem integ_block (t : τ) (b : List α) (rest : List (τ × α)) : ∀ k < b.length, integ (b.map (fun a => (t, a)) ++ rest) k = 0 := by
  intro k
  induction k with
  | zero => intro _; rfl
  | succ k ih =>
    intro h
    rw [integ_succ, ih (by omega)]
    have h1 : k < b.length := by omega
    have : Ends (b.map (fun a => (t, a)) ++ rest) k = false := by
      unfold Ends
      rw [List.getElem?_append_left (by simpa using h1), List.getElem?_append_left (by simpa using h)]
      simp [h1, h]
    simp [this]

theorem integ_rest (t : τ) (b : List α) (rest : List (τ × α)) (hb : b ≠ []) (hr : ∀ r, rest.head? = some r → r.1 ≠ t) :
    ∀ j, integ (b.map (fun a => (t, a)) ++ rest) (b.length + j) = integ rest j + 1 := by
  intro j
  induction j with
  | zero =>
    have hl : 0 < b.length := List.length_pos_of_ne_nil hb
    rw [Nat.add_zero, show b.length = (b.length - 1) + 1 by omega, integ_succ, integ_block t b rest _ (by omega)]
    have : Ends (b.map (fun a => (t, a)) ++ rest) (b.length - 1) = true := by
      unfold Ends
      rw [List.getElem?_append_left (by simp; omega), List.getElem?_append_right (by simp; omega)]
      have e : b.length - 1 + 1 - (b.map fun a => (t, a)).length = 0 := by simp; omega
      rw [e]
      have h2 : (b.map fun a => (t, a))[b.length - 1]?.map Prod.fst = some t := by
        have : b.length - 1 < b.length := by omega
        simp [this]
      rw [h2]
      cases rest with
      | nil => rfl
      | cons r rest =>
        have := hr r rfl
        simpa using Ne.symm this
    rw [this]
    rfl
  | succ j ih =>
    rw [← Nat.add_assoc, integ_succ, ih, integ_succ]
    have : Ends (b.map (fun a => (t, a)) ++ rest) (b.length + j) = Ends rest j := by
      unfold Ends
      rw [List.getElem?_append_right (by simp), List.getElem?_append_right (by simp; omega)]
      simp [Nat.add_assoc]
    rw [this]
    omega

theorem wanted_cons (t : τ) (b : List α) (rest : List (τ × α)) (hb : b ≠ []) (hr : ∀ r, rest.head? = some r → r.1 ≠ t) (n p : Int) :
    wanted (b.map (fun a => (t, a)) ++ rest) n p = (if n ∣ -p then b.map (fun a => (t, a)) else []) ++ wanted rest n (p - 1) := by
  unfold wanted
  rw [List.zipIdx_append, List.filter_append, List.map_append]
  congr 1
  · have hc : ∀ x ∈ (b.map (fun a => (t, a))).zipIdx, decide (Wanted (b.map (fun a => (t, a)) ++ rest) n p x.2) = decide (n ∣ -p) := by
      intro x hx
      have : x.2 < b.length := by
        have := List.snd_lt_of_mem_zipIdx hx
        simpa using this
      rw [decide_eq_decide]
      unfold Wanted
      rw [integ_block t b rest _ this]
      simp
    rw [List.filter_congr hc]
    by_cases h : n ∣ -p
    · simp [h]
    · simp [h]
  · rw [Nat.zero_add, List.length_map, List.zipIdx_eq_map_add (l := rest) (i := b.length), List.filter_map, List.map_map]
    have : ∀ x ∈ rest.zipIdx, ((fun x => decide (Wanted (b.map (fun a => (t, a)) ++ rest) n p x.2)) ∘ fun x : (τ × α) × Nat => (x.1, b.length + x.2)) x =
        decide (Wanted rest n (p - 1) x.2) := by
      intro x _
      simp only [Function.comp]
      rw [decide_eq_decide]
      unfold Wanted
      rw [integ_rest t b rest hb hr]
      push_cast
      rw [show (integ rest x.2 : Int) + 1 - p = (integ rest x.2 : Int) - (p - 1) by omega]
    rw [List.filter_congr this]; rfl

/-- counting down to the next integration wanted -/
def sel (n : Nat) : Nat → List (τ × List α) → List (τ × List α)
  | _, [] => []
  | 0, x :: g => x :: sel n (n - 1) g
  | p + 1, _ :: g => sel n p g

theorem wanted_period (rs : List (τ × α)) (n : Nat) (hn : 0 < n) : wanted rs n (-1) = wanted rs n ((n - 1 : Nat) : Int) := by
  unfold wanted
  congr 1
  apply List.filter_congr
  intro x _
  rw [decide_eq_decide]
  unfold Wanted
  rw [show (integ rs x.2 : Int) - -1 = ((integ rs x.2 : Int) - ((n - 1 : Nat) : Int)) + n by omega]
  constructor
  · intro h
    have := Int.dvd_sub h (Int.dvd_refl (n : Int))
    rwa [Int.add_sub_cancel] at this
  · intro h
    exact Int.dvd_add h (Int.dvd_refl _)

/-- different times one after the other, each with at least one record -/
structure Good (g : List (τ × List α)) : Prop where
  times : (g.map Prod.fst).Nodup
  full : ∀ x ∈ g, x.2 ≠ []

theorem Good.tail {x : τ × List α} {g : List (τ × List α)} (h : Good (x :: g)) : Good g :=
  ⟨(List.nodup_cons.1 h.times).2, fun y hy => h.full y (by simp [hy])⟩

theorem flat_head {g : List (τ × List α)} (h : ∀ x ∈ g, x.2 ≠ []) {r : τ × α} (hr : (flat g).head? = some r) : r.1 ∈ g.map Prod.fst := by
  cases g with
  | nil => simp [flat] at hr
  | cons x g =>
    have hx := h x (by simp)
    obtain ⟨t, b⟩ := x
    cases b with
    | nil => exact absurd rfl hx
    | cons a b =>
      simp only [flat, List.flatMap_cons, List.map_cons, List.cons_append, List.head?_cons, Option.some.injEq] at hr
      rw [← hr]; simp

theorem wanted_flat (n : Nat) (hn : 0 < n) : ∀ (g : List (τ × List α)), Good g → ∀ p < n, wanted (flat g) n (p : Nat) = flat (sel n p g) := by
  intro g
  induction g with
  | nil => intro _ p _; simp [flat, wanted, sel]
  | cons x g ih =>
    intro hg p hp
    obtain ⟨t, b⟩ := x
    have e : flat ((t, b) :: g) = b.map (fun a => (t, a)) ++ flat g := by simp [flat]
    have hr : ∀ r, (flat g).head? = some r → r.1 ≠ t := by
      intro r hr h
      exact (List.nodup_cons.1 hg.times).1 (h ▸ flat_head hg.tail.full hr)
    rw [e, wanted_cons t b (flat g) (hg.full (t, b) (by simp)) hr]
    cases p with
    | zero =>
      rw [if_pos (by simp)]
      have e2 : sel n 0 ((t, b) :: g) = (t, b) :: sel n (n - 1) g := rfl
      rw [e2, show ((0 : Nat) : Int) - 1 = -1 by simp, wanted_period _ n hn, ih hg.tail (n - 1) (by omega)]
      simp [flat]
    | succ p =>
      have hnd : ¬ ((n : Int) ∣ -((p + 1 : Nat) : Int)) := by
        rw [Int.dvd_neg]
        intro h
        have := Int.le_of_dvd (by omega) h
        omega
      rw [if_neg hnd, List.nil_append]
      have e2 : sel n (p + 1) ((t, b) :: g) = sel n p g := rfl
      rw [e2, show ((p + 1 : Nat) : Int) - 1 = (p : Int) by omega, ih hg.tail p (by omega)]

theorem sel_get (n : Nat) (hn : 0 < n) : ∀ (g : List (τ × List α)) (p c : Nat), p < n → (sel n p g)[c]? = g[n * c + p]? := by
  intro g
  induction g with
  | nil => intro p c _; cases p <;> simp [sel]
  | cons x g ih =>
    intro p c hp
    cases p with
    | zero =>
      have e2 : sel n 0 (x :: g) = x :: sel n (n - 1) g := rfl
      rw [e2]
      cases c with
      | zero => simp
      | succ c =>
        rw [List.getElem?_cons_succ, ih (n - 1) c (by omega), Nat.mul_succ, show n * c + n + 0 = (n * c + (n - 1)) + 1 by omega, List.getElem?_cons_succ]
    | succ p =>
      have e2 : sel n (p + 1) (x :: g) = sel n p g := rfl
      rw [e2, ih p c (by omega), show n * c + (p + 1) = (n * c + p) + 1 by omega, List.getElem?_cons_succ]

theorem sel_sublist (n : Nat) : ∀ (g : List (τ × List α)) (p : Nat), (sel n p g).Sublist g := by
  intro g
  induction g with
  | nil => intro p; cases p <;> exact List.Sublist.refl _
  | cons x g ih =>
    intro p
    cases p with
    | zero => exact (ih (n - 1)).cons_cons x
    | succ p => exact (ih p).cons x

theorem times_block (t : τ) (b : List α) (acc : List τ) (h : acc.getLast? = some t) :
    ((b.map fun a => (t, a)).map Prod.fst).foldl (fun acc t => if acc.getLast? ≠ some t then acc ++ [t] else acc) acc = acc := by
  induction b with
  | nil => rfl
  | cons a b ih =>
    simp only [List.map_cons, List.foldl_cons]
    rw [if_neg (by simp [h])]
    exact ih

theorem times_flat : ∀ (g : List (τ × List α)) (acc : List τ) (u : τ), acc.getLast? = some u → (u :: g.map Prod.fst).Nodup → (∀ x ∈ g, x.2 ≠ []) →
    ((flat g).map Prod.fst).foldl (fun acc t => if acc.getLast? ≠ some t then acc ++ [t] else acc) acc = acc ++ g.map Prod.fst := by
  intro g
  induction g with
  | nil => intro acc u _ _ _; simp [flat]
  | cons x g ih =>
    intro acc u hu hn hf
    obtain ⟨t, b⟩ := x
    have hb := hf (t, b) (by simp)
    cases b with
    | nil => exact absurd rfl hb
    | cons a b =>
      have e : (flat ((t, a :: b) :: g)).map Prod.fst = t :: ((b.map fun a => (t, a)).map Prod.fst ++ (flat g).map Prod.fst) := by simp [flat]
      rw [e, List.foldl_cons, List.foldl_append]
      have hut : u ≠ t := by
        intro e
        exact (List.nodup_cons.1 hn).1 (by rw [e]; simp)
      rw [if_pos (by rw [hu]; simpa using hut), times_block t b _ (by simp), ih _ t (by simp) (by simpa using (List.nodup_cons.1 hn).2) (fun y hy => hf y (by simp [hy]))]
      simp

theorem timesOf_flat (zero : τ) (g : List (τ × List α)) (hz : zero ∉ g.map Prod.fst) (hg : Good g) : timesOf zero ((flat g).map Prod.fst) = g.map Prod.fst := by
  unfold timesOf
  rw [times_flat g [zero] zero rfl (List.nodup_cons.2 ⟨hz, hg.times⟩) hg.full]
  simp

theorem sel_one (N : Nat) : ∀ (g : List (τ × List α)) (q : Nat), g.length ≤ q + N → sel N q g = (g.drop q).take 1 := by
  intro g
  induction g with
  | nil => intro q _; cases q <;> simp [sel]
  | cons x g ih =>
    intro q h
    cases q with
    | zero =>
      have e2 : sel N 0 (x :: g) = x :: sel N (N - 1) g := rfl
      rw [e2, List.drop_zero, List.take_succ_cons, List.take_zero]
      congr 1
      have key : ∀ (g : List (τ × List α)) (q : Nat), g.length ≤ q → sel N q g = [] := by
        intro g
        induction g with
        | nil => intro q _; cases q <;> rfl
        | cons y g ih2 =>
          intro q hq
          cases q with
          | zero => simp at hq
          | succ q => exact ih2 q (by simpa using hq)
      apply key
      simp at h
      omega
    | succ q =>
      have e2 : sel N (q + 1) (x :: g) = sel N q g := rfl
      rw [e2, ih q (by simp at h; omega), List.drop_succ_cons]

theorem recs_flat (start : τ) (junk : Nat → τ) (g : List (τ × List α)) (hg : Good g) (hs : start ∉ g.map Prod.fst) (n p : Nat) (hp : p < n) :
    recs start junk (flat g) n p = flat (sel n p g) := by
  unfold recs
  rw [c50_all start (flat g) (fun r hr h => hs (h ▸ flat_head hg.full hr)) n p (by omega) junk (by omega)]
  exact wanted_flat n (by omega) g hg p hp

/-- C125: with `--snap` fit number `c` is labelled with the time of integration number `n * c + p` of the file and reads exactly the records of
that integration, in order: every integration that decimation selects is fitted once, by itself.  (No two integrations have the same
time, no time is 0 or -1, and the phase is less than the decimation.) -/
theorem c125_snaps_partial (start zero : τ) (junk : Nat → τ) (g : List (τ × List α)) (ht : (g.map Prod.fst).Nodup) (hf : ∀ x ∈ g, x.2 ≠ [])
    (hs : start ∉ g.map Prod.fst) (hz : zero ∉ g.map Prod.fst) (n p : Nat) (hp : p < n) (c : Nat) :
    (snaps start zero junk (g.flatMap fun x => x.2.map fun a => (x.1, a)) n p)[c]? = (g[n * c + p]?).map fun x => (x.1, x.2.map fun a => (x.1, a)) := by
  have hg : Good g := ⟨ht, hf⟩
  have hn : 0 < n := by omega
  have e0 : (g.flatMap fun x => x.2.map fun a => (x.1, a)) = flat g := rfl
  rw [e0]
  have hsub := sel_sublist n g p
  have hsg : Good (sel n p g) := ⟨ht.sublist (hsub.map _), fun x hx => hf x (hsub.subset hx)⟩
  have htimes : timesOf zero ((recs start junk (flat g) n p).map Prod.fst) = (sel n p g).map Prod.fst := by
    rw [recs_flat start junk g hg hs n p hp]
    exact timesOf_flat zero _ (fun h => hz ((hsub.map _).subset h)) hsg
  unfold snaps
  simp only [htimes, List.length_map]
  rw [List.getElem?_map, List.getElem?_zipIdx, List.getElem?_map, Nat.zero_add, sel_get n hn g p c hp]
  cases hc : g[n * c + p]? with
  | none => rfl
  | some x =>
    have hlen : (sel n p g).length ≤ (sel n p g).length := le_refl _
    have hcm : c < (sel n p g).length := by
      by_contra h
      have : (sel n p g)[c]? = none := List.getElem?_eq_none (by omega)
      rw [sel_get n hn g p c hp, hc] at this
      cases this
    have hgl : g.length ≤ n * (sel n p g).length + p := by
      have : (sel n p g)[(sel n p g).length]? = none := List.getElem?_eq_none (le_refl _)
      rw [sel_get n hn g p _ hp] at this
      exact List.getElem?_eq_none_iff.1 this
    have hq : n * c + p < (sel n p g).length * n := by
      have : n * c + n ≤ n * (sel n p g).length := by
        rw [← Nat.mul_succ]; exact Nat.mul_le_mul_left n hcm
      rw [Nat.mul_comm _ n]
      omega
    have hcc : (n * c : Nat) ≥ 0 := Nat.zero_le _
    simp only [Option.map_some, Option.some.injEq, Prod.mk.injEq, true_and]
    rw [recs_flat start junk g hg hs _ _ hq, sel_one _ g _ (by rw [Nat.mul_comm _ n]; omega)]
    have : (g.drop (n * c + p)).take 1 = [x] := by
      obtain ⟨h1, h2⟩ := List.getElem?_eq_some_iff.1 hc
      rw [List.drop_eq_getElem_cons h1, h2]
      rfl
    rw [this]
    simp [flat]

/-- C125: with a phase that is not less than the decimation the fits carry the times of other integrations: here the fit labelled with time 20
reads the data of time 40, and the other way round. -/
theorem c125_phase_violated :
    snaps (-1 : Int) 0 (fun _ => 77) [(10, 'a'), (20, 'b'), (30, 'c'), (40, 'd')] 2 3 = [(20, [(40, 'd')]), (40, [(20, 'b')])] := by decide +kernel

/-- C125: two integrations with the same time that follow each other in the decimated file are fitted together. -/
theorem c125_same_time_violated :
    snaps (-1 : Int) 0 (fun _ => 77) [(10, 'a'), (20, 'b'), (10, 'c'), (20, 'd')] 2 0 = [(10, [(10, 'a'), (10, 'c')])] := by decide +kernel

example : snaps (-1 : Int) 0 (fun _ => 77) [(10, 'a'), (10, 'b'), (20, 'c'), (30, 'd'), (40, 'e'), (50, 'f'), (50, 'g')] 2 0 =
    [(10, [(10, 'a'), (10, 'b')]), (30, [(30, 'd')]), (50, [(50, 'f'), (50, 'g')])] := by decide +kernel

end Verif.Fit.Snap
