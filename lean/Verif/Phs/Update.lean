import Mathlib.Algebra.Ring.Defs
import Mathlib.Algebra.Ring.Int.Defs
import Mathlib.Data.List.Forall2
/-!
# Property C60 : derived gains, phase offsets and frequencies

`/repo/aipy/phs.py` 163-207, 268-274 (`Beam`, `Antenna`, `AntennaArray.update/select_chans`), `/repo/aipy/amp.py` 241-247
(`Antenna.update`) and `/repo/aipy/fit.py` 321-344, 369-376 (`set_params`).

Beams and phase polynomials are objects that several antennas may share (the default `phsoff=[0.,0.]` is one list for
all of them), so they live in a heap and antennas hold addresses.  `bp_r`, `bp_i` and `amp` are replaced, never changed
in place, and are kept by value.  Gains are pairs (real, imaginary).  Beam shapes and antenna positions have nothing
derived from them that outlives a call except what the beam itself keeps (C69 is about cached responses); of
`beam.set_params` only its `self.update()` is modelled, which recomputes the active frequencies.
-/
namespace Verif.Phs.Upd

set_option linter.unusedSectionVars false

variable {R : Type} [CommRing R]

/-- `np.polyval` -/
def polyval (p : List R) (x : R) : R := p.foldl (fun acc c => acc * x + c) 0

/-- indexing as numpy and python do it, negative numbers counting from the end -/
def pyGet {α : Type} (l : List α) (i : Int) : Option α :=
  if 0 ≤ i then l[i.toNat]? else if -(l.length : Int) ≤ i then l[(i + l.length).toNat]? else none

/-- `freqs.take(chans)`; `none` is the `IndexError` -/
def take {α : Type} (l : List α) : List Int → Option (List α)
  | [] => some []
  | i :: is => match pyGet l i, take l is with
    | some x, some xs => some (x :: xs)
    | _, _ => none

/-- `phs.Beam` -/
structure Beam (R : Type) where
  freqs : List R
  chans : List Int
  afreqs : List R

/-- `fit.Antenna` -/
structure Ant (R : Type) where
  pos : R × R × R
  beam : Nat
  phs : Nat
  bpR : List R
  bpI : List R
  amp : R
  phsoff : List R
  gain : List (R × R)

/-- everything: beams and phase polynomials by address, and the antennas of the array -/
structure St (R : Type) where
  beams : Nat → Beam R
  lists : Nat → List R
  ants : List (Ant R)

/-- store at an address -/
def upd {α : Type} (f : Nat → α) (k : Nat) (v : α) : Nat → α := fun n => if n = k then v else f n

/-- `_update_phsoff` and `_update_gain`, phs.py 204-205, amp.py 241-244 -/
def Ant.update (s : St R) (a : Ant R) : Ant R :=
  let f := (s.beams a.beam).afreqs
  { a with phsoff := f.map (polyval (s.lists a.phs)),
           gain := f.map (fun x => (a.amp * polyval a.bpR x, a.amp * polyval a.bpI x)) }

/-- `Antenna.update` of antenna `i`, phs.py 206-207, amp.py 245-247 -/
def updateAnt (s : St R) (i : Nat) : St R :=
  match s.ants[i]? with
  | none => s
  | some a => { s with ants := s.ants.set i (a.update s) }

/-- `AntennaArray.update`, phs.py 268-270 -/
def update (s : St R) : St R := { s with ants := s.ants.map (fun a => a.update s) }

/-- `Beam.update`, phs.py 173-176; the flag says that an exception was raised -/
def updateBeam (s : St R) (b : Nat) : St R × Bool :=
  match take (s.beams b).freqs (s.beams b).chans with
  | none => (s, true)
  | some f => ({ s with beams := upd s.beams b { s.beams b with afreqs := f } }, false)

/-- all channels: `np.arange(freqs.size)` -/
def allChans (n : Nat) : List Int := (List.range n).map Int.ofNat

/-- `Beam.select_chans`, phs.py 177-181 -/
def selectBeam (s : St R) (b : Nat) (chans : Option (List Int)) : St R × Bool :=
  let c := chans.getD (allChans (s.beams b).freqs.length)
  updateBeam { s with beams := upd s.beams b { s.beams b with chans := c } } b

/-- `Antenna.select_chans`, phs.py 200-203 -/
def selectAnt (s : St R) (i : Nat) (chans : Option (List Int)) : St R × Bool :=
  match s.ants[i]? with
  | none => (s, true)
  | some a =>
    match selectBeam s a.beam chans with
    | (s', true) => (s', true)
    | (s', false) => (updateAnt s' i, false)

/-- `for a in self: a.select_chans(active_chans)` -/
def selectLoop (chans : Option (List Int)) : List Nat → St R → St R × Bool
  | [], s => (s, false)
  | i :: is, s => match selectAnt s i chans with
    | (s', true) => (s', true)
    | (s', false) => selectLoop chans is s'

/-- `AntennaArray.select_chans`, phs.py 271-274 -/
def select (s : St R) (chans : Option (List Int)) : St R × Bool :=
  match selectLoop chans (List.range s.ants.length) s with
  | (s', true) => (s', true)
  | (s', false) => (update s', false)

/-- the parameters of one antenna given to `set_params`; `bm`: some beam parameter is among them; `phsoff` is an
address, because the list object itself is stored -/
structure Prm (R : Type) where
  bm : Bool
  x : Option R
  y : Option R
  z : Option R
  dly : Option R
  off : Option R
  phsoff : Option Nat
  bpR : Option (List R)
  bpI : Option (List R)
  amp : Option R

/-- does `set_params` find one of the antenna's own parameters? -/
def Prm.any (p : Prm R) : Bool :=
  p.x.isSome || p.y.isSome || p.z.isSome || p.dly.isSome || p.off.isSome || p.phsoff.isSome || p.bpR.isSome ||
    p.bpI.isSome || p.amp.isSome

/-- `l[-k] = v`; `none` is the `IndexError` -/
def setFromEnd {α : Type} (l : List α) (k : Nat) (v : α) : Option (List α) :=
  if k ≤ l.length then some (l.set (l.length - k) v) else none

/-- an optional `l[-k] = v` on the list at an address -/
def setList (s : St R) (addr k : Nat) : Option R → Option (St R)
  | none => some s
  | some v => match setFromEnd (s.lists addr) k v with
    | none => none
    | some l => some { s with lists := upd s.lists addr l }

/-- the assignments to the antenna's own attributes, fit.py 325-330 and 335-342 -/
def Prm.assign (p : Prm R) (a : Ant R) : Ant R :=
  { a with pos := (p.x.getD a.pos.1, p.y.getD a.pos.2.1, p.z.getD a.pos.2.2),
           phs := p.phsoff.getD a.phs, bpR := p.bpR.getD a.bpR, bpI := p.bpI.getD a.bpI, amp := p.amp.getD a.amp }

/-- `self.beam.set_params(prms)`, fit.py 324 -/
def setBeam (s : St R) (b : Nat) (bm : Bool) : St R × Bool := if bm then updateBeam s b else (s, false)

/-- `Antenna.set_params`, fit.py 321-344; the flags: raised, changed.  (When `dly` or `off` raises, `x`, `y`, `z` have
been assigned already; nothing is derived from them, and the state after an exception is not used below.) -/
def setAnt (s : St R) (i : Nat) (p : Prm R) : St R × Bool × Bool :=
  match s.ants[i]? with
  | none => (s, true, false)
  | some a =>
    match setBeam s a.beam p.bm with
    | (s1, true) => (s1, true, false)
    | (s1, false) =>
      match (setList s1 a.phs 2 p.dly).bind (fun s2 => setList s2 a.phs 1 p.off) with
      | none => (s1, true, false)
      | some s3 =>
        let s4 := { s3 with ants := s3.ants.set i (p.assign a) }
        if p.any then (updateAnt s4 i, false, true) else (s4, false, false)

/-- the loop of `AntennaArray.set_params`, fit.py 372-374 -/
def setLoop (prms : Nat → Option (Prm R)) : List Nat → St R → Bool → St R × Bool × Bool
  | [], s, ch => (s, false, ch)
  | i :: is, s, ch => match prms i with
    | none => setLoop prms is s ch
    | some p => match setAnt s i p with
      | (s', true, _) => (s', true, ch)
      | (s', false, c) => setLoop prms is s' (ch || c)

/-- `AntennaArray.set_params`, fit.py 369-376 -/
def set (s : St R) (prms : Nat → Option (Prm R)) : St R × Bool :=
  match setLoop prms (List.range s.ants.length) s false with
  | (s', true, _) => (s', true)
  | (s', false, ch) => (if ch then update s' else s', false)

/-- calls on the array -/
inductive Op (R : Type)
  | select (chans : Option (List Int))
  | set (prms : Nat → Option (Prm R))
  | update

/-- one call; `none` when it raises -/
def step (s : St R) : Op R → Option (St R)
  | .select c => match select s c with
    | (_, true) => none
    | (s', false) => some s'
  | .set p => match set s p with
    | (_, true) => none
    | (s', false) => some s'
  | .update => some (update s)

def run (s : St R) : List (Op R) → Option (St R)
  | [] => some s
  | o :: os => (step s o).bind (fun s' => run s' os)

/-! ## Specification -/

/-- the value of a polynomial, highest power first -/
def polyAt : List R → R → R
  | [], _ => 0
  | c :: cs, x => c * x ^ cs.length + polyAt cs x

/-- `out` are the entries of `l` with the numbers `is`; negative numbers count from the end -/
def Picks {α : Type} (l : List α) (is : List Int) (out : List α) : Prop :=
  List.Forall₂ (fun i x => ∃ j : Nat, l[j]? = some x ∧ ((j : Int) = i ∨ (j : Int) = i + l.length)) is out

/-- the active frequencies of an antenna are those of its selected channels, and its phase offsets and gains are
computed from its current parameters at these frequencies -/
structure CurrentAnt (s : St R) (a : Ant R) : Prop where
  freqs : Picks (s.beams a.beam).freqs (s.beams a.beam).chans (s.beams a.beam).afreqs
  phsoff : a.phsoff = (s.beams a.beam).afreqs.map fun x => polyAt (s.lists a.phs) x
  gain : a.gain = (s.beams a.beam).afreqs.map fun x => (a.amp * polyAt a.bpR x, a.amp * polyAt a.bpI x)

/-- nothing is left over from before -/
def Current (s : St R) : Prop := ∀ a ∈ s.ants, CurrentAnt s a

/-- an antenna has the parameters given, and where none was given those it had -/
structure Applied (p : Option (Prm R)) (a a' : Ant R) : Prop where
  x : a'.pos.1 = (p.bind Prm.x).getD a.pos.1
  y : a'.pos.2.1 = (p.bind Prm.y).getD a.pos.2.1
  z : a'.pos.2.2 = (p.bind Prm.z).getD a.pos.2.2
  phs : a'.phs = (p.bind Prm.phsoff).getD a.phs
  bpR : a'.bpR = (p.bind Prm.bpR).getD a.bpR
  bpI : a'.bpI = (p.bind Prm.bpI).getD a.bpI
  amp : a'.amp = (p.bind Prm.amp).getD a.amp
  beam : a'.beam = a.beam

/-- what the antennas `is` that hold the polynomial at address `addr` are given for the parameter `g` -/
def given (s : St R) (prms : Nat → Option (Prm R)) (g : Prm R → Option R) (addr : Nat) (is : List Nat) : List R :=
  is.filterMap fun k => if (s.ants[k]?).map Ant.phs = some addr then (prms k).bind g else none

/-- the same, as the lemmas have it -/
def FreshAnt (s : St R) (a : Ant R) : Prop :=
  take (s.beams a.beam).freqs (s.beams a.beam).chans = some (s.beams a.beam).afreqs ∧
  a.phsoff = (s.beams a.beam).afreqs.map (polyval (s.lists a.phs)) ∧
  a.gain = (s.beams a.beam).afreqs.map (fun x => (a.amp * polyval a.bpR x, a.amp * polyval a.bpI x))

def Fresh (s : St R) : Prop := ∀ a ∈ s.ants, FreshAnt s a

/-! ## Lemmas -/

theorem foldl_polyval (x : R) : ∀ (p : List R) (acc : R),
    p.foldl (fun acc c => acc * x + c) acc = acc * x ^ p.length + polyAt p x
  | [], acc => by simp [polyAt]
  | c :: cs, acc => by
    rw [List.foldl_cons, foldl_polyval x cs, polyAt, List.length_cons, pow_succ', add_mul, mul_assoc, add_assoc]

theorem polyval_eq (p : List R) (x : R) : polyval p x = polyAt p x := by
  unfold polyval
  rw [foldl_polyval, zero_mul, zero_add]

theorem pyGet_some {α : Type} (l : List α) (i : Int) (x : α) :
    pyGet l i = some x ↔ ∃ j : Nat, l[j]? = some x ∧ ((j : Int) = i ∨ (j : Int) = i + l.length) := by
  unfold pyGet
  constructor
  · intro h
    split at h
    · exact ⟨_, h, Or.inl (by omega)⟩
    · split at h
      · exact ⟨_, h, Or.inr (by omega)⟩
      · simp at h
  · rintro ⟨j, hj, hi⟩
    have hlt := (List.getElem?_eq_some_iff.1 hj).1
    rcases hi with hi | hi
    · rw [if_pos (by omega), ← hi, Int.toNat_natCast, hj]
    · rw [if_neg (by omega), if_pos (by omega), ← hi, Int.toNat_natCast, hj]

theorem take_some {α : Type} (l : List α) : ∀ (is : List Int) (out : List α), take l is = some out ↔ Picks l is out
  | [], out => by
    unfold Picks
    simp only [take, Option.some.injEq, List.forall₂_nil_left_iff]
    exact eq_comm
  | i :: is, out => by
    unfold Picks
    rw [List.forall₂_cons_left_iff]
    have ih := take_some l is
    unfold take
    constructor
    · intro h
      cases h1 : pyGet l i with
      | none => rw [h1] at h; simp at h
      | some x =>
        cases h2 : take l is with
        | none => rw [h1, h2] at h; simp at h
        | some xs =>
          rw [h1, h2] at h
          exact ⟨x, xs, (pyGet_some l i x).1 h1, (ih xs).1 h2, (Option.some.inj h).symm⟩
    · rintro ⟨x, xs, h1, h2, rfl⟩
      rw [(pyGet_some l i x).2 h1, (ih xs).2 h2]

theorem current_iff (s : St R) : Current s ↔ Fresh s := by
  have e : ∀ p : List R, polyval p = fun x => polyAt p x := fun p => funext fun x => polyval_eq p x
  refine forall_congr' fun a => forall_congr' fun _ => ⟨fun h => ?_, fun h => ?_⟩
  · refine ⟨(take_some _ _ _).2 h.freqs, ?_, ?_⟩
    · rw [e]; exact h.phsoff
    · rw [e, e]; exact h.gain
  · obtain ⟨h1, h2, h3⟩ := h
    rw [e] at h2
    rw [e, e] at h3
    exact ⟨(take_some _ _ _).1 h1, h2, h3⟩

theorem take_all {α : Type} (l : List α) (out : List α) (h : take l (allChans l.length) = some out) : out = l := by
  rw [take_some] at h
  unfold Picks allChans at h
  apply List.ext_getElem?
  intro k
  have hl := h.length_eq
  rw [List.length_map, List.length_range] at hl
  by_cases hk : k < l.length
  · have hk' : k < out.length := by omega
    obtain ⟨j, h1, h2⟩ := h.get (i := k) (by rw [List.length_map, List.length_range]; exact hk) hk'
    have hj := (List.getElem?_eq_some_iff.1 h1).1
    simp only [List.get_eq_getElem, List.getElem_map, List.getElem_range] at h1 h2
    have e : j = k := by
      rcases h2 with h2 | h2
      · exact Int.ofNat.inj h2
      · have : (j : Int) = (k : Int) + l.length := h2
        omega
    rw [e] at h1
    rw [List.getElem?_eq_getElem hk', h1]
  · rw [List.getElem?_eq_none (by omega), List.getElem?_eq_none (by omega)]

/-- the beams of a state are consistent -/
def BeamOk (s : St R) (b : Nat) : Prop := take (s.beams b).freqs (s.beams b).chans = some (s.beams b).afreqs

theorem upd_same {α : Type} (f : Nat → α) (k : Nat) (v : α) : upd f k v k = v := by simp [upd]

theorem upd_ne {α : Type} (f : Nat → α) (k n : Nat) (v : α) (h : n ≠ k) : upd f k v n = f n := by simp [upd, h]

theorem fresh_update (s : St R) (h : ∀ a ∈ s.ants, BeamOk s a.beam) : Fresh (update s) := by
  intro a ha
  obtain ⟨b, hb, rfl⟩ := List.mem_map.1 ha
  exact ⟨h b hb, rfl, rfl⟩

theorem updateAnt_heap (s : St R) (i : Nat) : (updateAnt s i).beams = s.beams ∧ (updateAnt s i).lists = s.lists := by
  unfold updateAnt
  cases s.ants[i]? <;> exact ⟨rfl, rfl⟩

theorem updateAnt_beams (s : St R) (i k : Nat) :
    ((updateAnt s i).ants[k]?).map Ant.beam = (s.ants[k]?).map Ant.beam := by
  unfold updateAnt
  cases h : s.ants[i]? with
  | none => rfl
  | some a =>
    show ((s.ants.set i (a.update s))[k]?).map Ant.beam = _
    by_cases hik : i = k
    · subst hik
      have hl : i < s.ants.length := by
        by_contra hn
        rw [List.getElem?_eq_none (by omega)] at h; cases h
      rw [List.getElem?_set_self hl, h]
      rfl
    · rw [List.getElem?_set_ne hik]

theorem updateBeam_spec (s : St R) (b : Nat) : (updateBeam s b).2 = false →
    ∃ f, take (s.beams b).freqs (s.beams b).chans = some f ∧
      (updateBeam s b).1 = { s with beams := upd s.beams b { s.beams b with afreqs := f } } := by
  unfold updateBeam
  cases h : take (s.beams b).freqs (s.beams b).chans with
  | none => intro h'; cases h'
  | some f => intro _; exact ⟨f, rfl, rfl⟩

theorem selectBeam_spec (s : St R) (b : Nat) (c : Option (List Int)) (h : (selectBeam s b c).2 = false) :
    ∃ f, take (s.beams b).freqs (c.getD (allChans (s.beams b).freqs.length)) = some f ∧
      (selectBeam s b c).1.lists = s.lists ∧ (selectBeam s b c).1.ants = s.ants ∧
      (selectBeam s b c).1.beams b = ⟨(s.beams b).freqs, c.getD (allChans (s.beams b).freqs.length), f⟩ ∧
      ∀ n, n ≠ b → (selectBeam s b c).1.beams n = s.beams n := by
  unfold selectBeam at h ⊢
  obtain ⟨f, h1, h2⟩ := updateBeam_spec _ _ h
  simp only [upd_same] at h1
  refine ⟨f, h1, ?_⟩
  rw [h2]
  refine ⟨rfl, rfl, ?_, ?_⟩
  · simp [upd_same]
  · intro n hn
    show upd (upd s.beams b _) b _ n = _
    rw [upd_ne _ _ _ _ hn, upd_ne _ _ _ _ hn]

/-- a beam has the channels `c` selected, consistently -/
def Has (s : St R) (c : Option (List Int)) (b : Nat) : Prop :=
  (s.beams b).chans = c.getD (allChans (s.beams b).freqs.length) ∧ BeamOk s b

theorem selectAnt_spec (s s' : St R) (i : Nat) (c : Option (List Int)) (h : selectAnt s i c = (s', false)) :
    (∀ n, Has s c n → Has s' c n) ∧ (∀ a, s.ants[i]? = some a → Has s' c a.beam) ∧
    (∀ k : Nat, (s'.ants[k]?).map Ant.beam = (s.ants[k]?).map Ant.beam) ∧
    (∀ n, (s'.beams n).freqs = (s.beams n).freqs) := by
  unfold selectAnt at h
  cases ha : s.ants[i]? with
  | none => rw [ha] at h; simp at h
  | some a =>
    rw [ha] at h
    simp only at h
    cases hb : selectBeam s a.beam c with
    | mk s1 r =>
      rw [hb] at h
      cases r with
      | true => simp at h
      | false =>
        simp only [Prod.mk.injEq, and_true] at h
        subst h
        obtain ⟨f, h1, h2, h3, h4, h5⟩ := selectBeam_spec s a.beam c (by rw [hb])
        rw [hb] at h2 h3 h4 h5
        simp only at h2 h3 h4 h5
        have hu := (updateAnt_heap s1 i).1
        have hself : Has (updateAnt s1 i) c a.beam := by
          unfold Has BeamOk
          rw [hu, h4]
          exact ⟨rfl, h1⟩
        refine ⟨?_, ?_, ?_, ?_⟩
        · intro n hn
          by_cases e : n = a.beam
          · rw [e]; exact hself
          · unfold Has BeamOk
            rw [hu, h5 n e]
            exact hn
        · intro a' ha'
          cases ha'
          exact hself
        · intro k
          rw [updateAnt_beams, h3]
        · intro n
          rw [hu]
          by_cases e : n = a.beam
          · rw [e, h4]
          · rw [h5 n e]

theorem selectLoop_spec (c : Option (List Int)) : ∀ (is : List Nat) (s s' : St R),
    selectLoop c is s = (s', false) →
    (∀ n, Has s c n → Has s' c n) ∧ (∀ i ∈ is, ∀ a, s.ants[i]? = some a → Has s' c a.beam) ∧
    (∀ k : Nat, (s'.ants[k]?).map Ant.beam = (s.ants[k]?).map Ant.beam) ∧
    (∀ n, (s'.beams n).freqs = (s.beams n).freqs)
  | [], s, s', h => by
    simp only [selectLoop, Prod.mk.injEq, and_true] at h
    subst h
    exact ⟨fun _ h => h, fun i hi => by simp at hi, fun _ => rfl, fun _ => rfl⟩
  | i :: is, s, s', h => by
    unfold selectLoop at h
    cases ha : selectAnt s i c with
    | mk s1 r =>
      rw [ha] at h
      cases r with
      | true => simp at h
      | false =>
        simp only at h
        obtain ⟨p1, p2, p3, p4⟩ := selectAnt_spec s s1 i c ha
        obtain ⟨q1, q2, q3, q4⟩ := selectLoop_spec c is s1 s' h
        refine ⟨fun n hn => q1 n (p1 n hn), ?_, fun k => by rw [q3, p3], fun n => by rw [q4, p4]⟩
        intro k hk a hak
        rcases List.mem_cons.1 hk with rfl | hk
        · exact q1 _ (p2 a hak)
        · have h3 := p3 k
          rw [hak] at h3
          cases hs1 : s1.ants[k]? with
          | none => rw [hs1] at h3; simp at h3
          | some a1 =>
            rw [hs1] at h3
            simp only [Option.map_some, Option.some.injEq] at h3
            rw [← h3]
            exact q2 k hk a1 hs1

theorem select_spec (s s' : St R) (c : Option (List Int)) (h : select s c = (s', false)) :
    Fresh s' ∧ (∀ a ∈ s'.ants, Has s' c a.beam) ∧ ∀ n, (s'.beams n).freqs = (s.beams n).freqs := by
  unfold select at h
  cases hl : selectLoop c (List.range s.ants.length) s with
  | mk s1 r =>
    rw [hl] at h
    cases r with
    | true => simp at h
    | false =>
      simp only [Prod.mk.injEq, and_true] at h
      subst h
      obtain ⟨_, q2, q3, q4⟩ := selectLoop_spec c _ s s1 hl
      have hall : ∀ a ∈ s1.ants, Has s1 c a.beam := by
        intro a ha
        obtain ⟨k, hk⟩ := List.getElem?_of_mem ha
        have h3 := q3 k
        rw [hk] at h3
        cases hs : s.ants[k]? with
        | none => rw [hs] at h3; simp at h3
        | some a0 =>
          rw [hs] at h3
          simp only [Option.map_some, Option.some.injEq] at h3
          rw [h3]
          refine q2 k ?_ a0 hs
          rw [List.mem_range]
          by_contra hn
          rw [List.getElem?_eq_none (by omega)] at hs; cases hs
      refine ⟨fresh_update s1 (fun a ha => (hall a ha).2), ?_, q4⟩
      intro a ha
      obtain ⟨b, hb, rfl⟩ := List.mem_map.1 ha
      exact hall b hb

/-! ### `set_params` -/

theorem setList_spec (s s' : St R) (addr k : Nat) (v : Option R) (h : setList s addr k v = some s') :
    s'.beams = s.beams ∧ s'.ants = s.ants ∧ (v = none → s' = s) := by
  unfold setList at h
  cases v with
  | none => simp only [Option.some.injEq] at h; subst h; exact ⟨rfl, rfl, fun _ => rfl⟩
  | some v =>
    simp only at h
    cases hl : setFromEnd (s.lists addr) k v with
    | none => rw [hl] at h; cases h
    | some l =>
      rw [hl] at h
      simp only [Option.some.injEq] at h
      subst h
      exact ⟨rfl, rfl, fun h => by cases h⟩

/-- the beams of `s'` are those of `s`, recomputed at most -/
def BeamsKept (s s' : St R) : Prop :=
  ∀ n, (s'.beams n).freqs = (s.beams n).freqs ∧ (s'.beams n).chans = (s.beams n).chans ∧
    (s'.beams n = s.beams n ∨ BeamOk s' n)

theorem setBeam_spec (s s' : St R) (b : Nat) (bm : Bool) (h : setBeam s b bm = (s', false)) :
    s'.lists = s.lists ∧ s'.ants = s.ants ∧ BeamsKept s s' ∧ (BeamOk s b → s'.beams = s.beams) := by
  unfold setBeam at h
  cases bm with
  | false =>
    simp only [Bool.false_eq_true, if_false, Prod.mk.injEq, and_true] at h
    subst h
    exact ⟨rfl, rfl, fun n => ⟨rfl, rfl, Or.inl rfl⟩, fun _ => rfl⟩
  | true =>
    simp only [if_true] at h
    obtain ⟨f, h1, h2⟩ := updateBeam_spec s b (by rw [h])
    rw [h] at h2
    simp only at h2
    subst h2
    refine ⟨rfl, rfl, ?_, ?_⟩
    · intro n
      show (upd s.beams b _ n).freqs = _ ∧ (upd s.beams b _ n).chans = _ ∧ _
      by_cases e : n = b
      · subst e
        rw [upd_same]
        refine ⟨rfl, rfl, Or.inr ?_⟩
        unfold BeamOk
        simp only [upd_same]
        exact h1
      · rw [upd_ne _ _ _ _ e]
        exact ⟨rfl, rfl, Or.inl (upd_ne _ _ _ _ e)⟩
    · intro hok
      unfold BeamOk at hok
      rw [h1] at hok
      have : f = (s.beams b).afreqs := Option.some.inj hok
      subst this
      funext n
      show upd s.beams b _ n = _
      by_cases e : n = b
      · subst e; rw [upd_same]
      · rw [upd_ne _ _ _ _ e]

theorem beamsKept_trans {s s' s'' : St R} (h1 : BeamsKept s s') (h2 : BeamsKept s' s'') : BeamsKept s s'' := by
  intro n
  obtain ⟨a1, a2, a3⟩ := h1 n
  obtain ⟨b1, b2, b3⟩ := h2 n
  refine ⟨b1.trans a1, b2.trans a2, ?_⟩
  rcases b3 with e | ok
  · rcases a3 with e' | ok'
    · exact Or.inl (e.trans e')
    · right; unfold BeamOk at ok' ⊢; rw [e]; exact ok'
  · exact Or.inr ok

theorem beamOk_kept {s s' : St R} (h : BeamsKept s s') {n : Nat} (ok : BeamOk s n) : BeamOk s' n := by
  rcases (h n).2.2 with e | ok'
  · unfold BeamOk at ok ⊢; rw [e]; exact ok
  · exact ok'

theorem assign_id (p : Prm R) (a : Ant R) (h : p.any = false) : p.assign a = a := by
  unfold Prm.any at h
  simp only [Bool.or_eq_false_iff, Option.isSome_eq_false_iff, Option.isNone_iff_eq_none] at h
  obtain ⟨⟨⟨⟨⟨⟨⟨⟨h1, h2⟩, h3⟩, h4⟩, h5⟩, h6⟩, h7⟩, h8⟩, h9⟩ := h
  unfold Prm.assign
  simp [h1, h2, h3, h6, h7, h8, h9]

theorem set_self {α : Type} (l : List α) (i : Nat) (a : α) (h : l[i]? = some a) : l.set i a = l := by
  apply List.ext_getElem?
  intro k
  by_cases e : i = k
  · subst e
    have hl : i < l.length := by
      by_contra hn
      rw [List.getElem?_eq_none (by omega)] at h; cases h
    rw [List.getElem?_set_self hl, h]
  · rw [List.getElem?_set_ne e]

theorem setAnt_spec (s s' : St R) (i : Nat) (p : Prm R) (ch : Bool) (h : setAnt s i p = (s', false, ch)) :
    BeamsKept s s' ∧ (∀ k : Nat, (s'.ants[k]?).map Ant.beam = (s.ants[k]?).map Ant.beam) ∧
    (ch = false → s'.lists = s.lists ∧ s'.ants = s.ants ∧
      ((∀ a ∈ s.ants, BeamOk s a.beam) → s'.beams = s.beams)) := by
  unfold setAnt at h
  cases ha : s.ants[i]? with
  | none => rw [ha] at h; simp at h
  | some a =>
    rw [ha] at h
    simp only at h
    cases hb : setBeam s a.beam p.bm with
    | mk s1 r =>
      rw [hb] at h
      cases r with
      | true => simp at h
      | false =>
        simp only at h
        obtain ⟨b1, b2, b3, b4⟩ := setBeam_spec s s1 a.beam p.bm hb
        cases hl : (setList s1 a.phs 2 p.dly).bind (fun s2 => setList s2 a.phs 1 p.off) with
        | none => rw [hl] at h; simp at h
        | some s3 =>
          rw [hl] at h
          simp only at h
          rw [Option.bind_eq_some_iff] at hl
          obtain ⟨s2, l1, l2⟩ := hl
          obtain ⟨c1, c2, c3⟩ := setList_spec _ _ _ _ _ l1
          obtain ⟨d1, d2, d3⟩ := setList_spec _ _ _ _ _ l2
          have hants : s3.ants = s.ants := by rw [d2, c2, b2]
          have hbeams : s3.beams = s1.beams := by rw [d1, c1]
          have hkept : BeamsKept s s3 := by
            intro n
            have := b3 n
            unfold BeamOk at this ⊢
            rw [hbeams]; exact this
          have hset : ∀ k : Nat, ((s3.ants.set i (p.assign a))[k]?).map Ant.beam = (s.ants[k]?).map Ant.beam := by
            intro k
            rw [hants]
            by_cases e : i = k
            · subst e
              have hl : i < s.ants.length := by
                by_contra hn
                rw [List.getElem?_eq_none (by omega)] at ha; cases ha
              rw [List.getElem?_set_self hl, ha]
              rfl
            · rw [List.getElem?_set_ne e]
          cases hany : p.any with
          | true =>
            rw [hany] at h
            simp only [if_true, Prod.mk.injEq, true_and] at h
            obtain ⟨rfl, rfl⟩ := h
            refine ⟨?_, ?_, fun h => by cases h⟩
            · intro n
              unfold BeamOk
              rw [(updateAnt_heap _ i).1]
              exact hkept n
            · intro k
              rw [updateAnt_beams]
              exact hset k
          | false =>
            rw [hany] at h
            simp only [Bool.false_eq_true, if_false, Prod.mk.injEq, true_and] at h
            obtain ⟨rfl, rfl⟩ := h
            refine ⟨hkept, hset, ?_⟩
            intro _
            have hany' := hany
            unfold Prm.any at hany
            simp only [Bool.or_eq_false_iff, Option.isSome_eq_false_iff, Option.isNone_iff_eq_none] at hany
            obtain ⟨⟨⟨⟨⟨⟨⟨⟨_, _⟩, _⟩, h4⟩, h5⟩, _⟩, _⟩, _⟩, _⟩ := hany
            refine ⟨?_, ?_, ?_⟩
            · show s3.lists = s.lists
              rw [d3 h5, c3 h4, b1]
            · show s3.ants.set i (p.assign a) = s.ants
              rw [assign_id p a hany', hants]
              exact set_self _ _ _ ha
            · intro hok
              show s3.beams = s.beams
              rw [hbeams]
              exact b4 (hok a (List.mem_of_getElem? ha))

theorem setLoop_spec (prms : Nat → Option (Prm R)) : ∀ (is : List Nat) (s s' : St R) (c0 ch : Bool),
    setLoop prms is s c0 = (s', false, ch) →
    BeamsKept s s' ∧ (∀ k : Nat, (s'.ants[k]?).map Ant.beam = (s.ants[k]?).map Ant.beam) ∧
    (ch = false → c0 = false ∧ s'.lists = s.lists ∧ s'.ants = s.ants ∧
      ((∀ a ∈ s.ants, BeamOk s a.beam) → s'.beams = s.beams))
  | [], s, s', c0, ch, h => by
    simp only [setLoop, Prod.mk.injEq, true_and] at h
    obtain ⟨rfl, rfl⟩ := h
    exact ⟨fun n => ⟨rfl, rfl, Or.inl rfl⟩, fun _ => rfl, fun h => ⟨h, rfl, rfl, fun _ => rfl⟩⟩
  | i :: is, s, s', c0, ch, h => by
    unfold setLoop at h
    cases hp : prms i with
    | none => rw [hp] at h; exact setLoop_spec prms is s s' c0 ch h
    | some p =>
      rw [hp] at h
      simp only at h
      rcases ha : setAnt s i p with ⟨s1, r, c⟩
      rw [ha] at h
      cases r with
      | true => simp at h
      | false =>
        simp only at h
        obtain ⟨p1, p2, p3⟩ := setAnt_spec s s1 i p c ha
        obtain ⟨q1, q2, q3⟩ := setLoop_spec prms is s1 s' (c0 || c) ch h
        refine ⟨beamsKept_trans p1 q1, fun k => by rw [q2, p2], ?_⟩
        intro hch
        obtain ⟨e1, e2, e3, e4⟩ := q3 hch
        rw [Bool.or_eq_false_iff] at e1
        obtain ⟨f1, f2, f3⟩ := p3 e1.2
        refine ⟨e1.1, e2.trans f1, e3.trans f2, ?_⟩
        intro hok
        have hb := f3 hok
        rw [e4, hb]
        intro a ha'
        rw [f2] at ha'
        unfold BeamOk
        rw [hb]
        exact hok a ha'

theorem set_spec (s s' : St R) (prms : Nat → Option (Prm R)) (h : set s prms = (s', false)) (hf : Fresh s) :
    Fresh s' ∧ ∀ n, (s'.beams n).freqs = (s.beams n).freqs ∧ (s'.beams n).chans = (s.beams n).chans := by
  unfold set at h
  rcases hl : setLoop prms (List.range s.ants.length) s false with ⟨s1, r, ch⟩
  rw [hl] at h
  cases r with
  | true => simp at h
  | false =>
    simp only [Prod.mk.injEq, and_true] at h
    obtain ⟨p1, p2, p3⟩ := setLoop_spec prms _ s s1 false ch hl
    have hk : ∀ n, (s1.beams n).freqs = (s.beams n).freqs ∧ (s1.beams n).chans = (s.beams n).chans :=
      fun n => ⟨(p1 n).1, (p1 n).2.1⟩
    cases ch with
    | false =>
      simp only [Bool.false_eq_true, if_false] at h
      subst h
      obtain ⟨_, e2, e3, e4⟩ := p3 rfl
      have e5 := e4 (fun a ha => (hf a ha).1)
      refine ⟨?_, hk⟩
      intro a ha
      rw [e3] at ha
      have := hf a ha
      unfold FreshAnt at this ⊢
      rw [e2, e5]
      exact this
    | true =>
      simp only [if_true] at h
      subst h
      refine ⟨fresh_update s1 ?_, hk⟩
      intro a ha
      obtain ⟨k, hk'⟩ := List.getElem?_of_mem ha
      have h3 := p2 k
      rw [hk'] at h3
      cases hs : s.ants[k]? with
      | none => rw [hs] at h3; simp at h3
      | some a0 =>
        rw [hs] at h3
        simp only [Option.map_some, Option.some.injEq] at h3
        rw [h3]
        exact beamOk_kept p1 (hf a0 (List.mem_of_getElem? hs)).1

/-! ### sequences of calls -/

theorem run_fresh (s s' : St R) (ops : List (Op R)) (hf : Fresh s) (h : run s ops = some s') : Fresh s' := by
  induction ops generalizing s with
  | nil => simp only [run, Option.some.injEq] at h; subst h; exact hf
  | cons o os ih =>
    unfold run at h
    rw [Option.bind_eq_some_iff] at h
    obtain ⟨s1, h1, h2⟩ := h
    refine ih s1 ?_ h2
    cases o with
    | select c =>
      simp only [step] at h1
      rcases hs : select s c with ⟨s2, r⟩
      rw [hs] at h1
      cases r with
      | true => simp at h1
      | false => simp only [Option.some.injEq] at h1; subst h1; exact (select_spec s s2 c hs).1
    | set p =>
      simp only [step] at h1
      rcases hs : set s p with ⟨s2, r⟩
      rw [hs] at h1
      cases r with
      | true => simp at h1
      | false => simp only [Option.some.injEq] at h1; subst h1; exact (set_spec s s2 p hs hf).1
    | update =>
      simp only [step, Option.some.injEq] at h1
      subst h1
      exact fresh_update s (fun a ha => (hf a ha).1)

/-- the channels selected last, if any selection was made -/
def lastSel : List (Op R) → Option (Option (List Int))
  | [] => none
  | .select c :: os => some ((lastSel os).getD c)
  | _ :: os => lastSel os

theorem run_selection (s s' : St R) (ops : List (Op R)) (hf : Fresh s) (h : run s ops = some s')
    (c : Option (List Int)) (hc : lastSel ops = some c) : ∀ a ∈ s'.ants,
      take (s'.beams a.beam).freqs (c.getD (allChans (s'.beams a.beam).freqs.length)) =
        some (s'.beams a.beam).afreqs := by
  have key : ∀ (ops : List (Op R)) (s : St R) (c0 : Option (Option (List Int))), Fresh s →
      (∀ c, c0 = some c → ∀ a ∈ s.ants, Has s c a.beam) → run s ops = some s' →
      ∀ c, (lastSel ops).or c0 = some c → ∀ a ∈ s'.ants, Has s' c a.beam := by
    intro ops
    induction ops with
    | nil =>
      intro s c0 _ h0 h c hc
      simp only [run, Option.some.injEq] at h
      subst h
      exact h0 c (by simpa [lastSel] using hc)
    | cons o os ih =>
      intro s c0 hf h0 h c hc
      unfold run at h
      rw [Option.bind_eq_some_iff] at h
      obtain ⟨s1, h1, h2⟩ := h
      have hf1 : Fresh s1 := run_fresh s s1 [o] hf (by simp [run, h1])
      cases o with
      | select c1 =>
        simp only [step] at h1
        rcases hs : select s c1 with ⟨s2, r⟩
        rw [hs] at h1
        cases r with
        | true => simp at h1
        | false =>
          simp only [Option.some.injEq] at h1
          subst h1
          refine ih s2 (some c1) hf1 ?_ h2 c ?_
          · intro c' hc'
            cases hc'
            exact (select_spec s s2 c1 hs).2.1
          · simp only [lastSel] at hc
            cases hl : lastSel os with
            | none => rw [hl] at hc; simpa using hc
            | some c2 => rw [hl] at hc; simpa using hc
      | set p =>
        simp only [step] at h1
        rcases hs : set s p with ⟨s2, r⟩
        rw [hs] at h1
        cases r with
        | true => simp at h1
        | false =>
          simp only [Option.some.injEq] at h1
          subst h1
          refine ih s2 c0 hf1 ?_ h2 c hc
          intro c' hc' a ha
          have hk := (set_spec s s2 p hs hf).2
          have hant : ∃ a0 ∈ s.ants, a0.beam = a.beam := by
            unfold set at hs
            rcases hl : setLoop p (List.range s.ants.length) s false with ⟨s3, r, ch⟩
            rw [hl] at hs
            cases r with
            | true => simp at hs
            | false =>
              simp only [Prod.mk.injEq, and_true] at hs
              obtain ⟨_, p2, _⟩ := setLoop_spec p _ s s3 false ch hl
              have h3 : ∃ a1 ∈ s3.ants, a1.beam = a.beam := by
                cases ch with
                | false => simp only [Bool.false_eq_true, if_false] at hs; subst hs; exact ⟨a, ha, rfl⟩
                | true =>
                  simp only [if_true] at hs
                  subst hs
                  obtain ⟨b, hb, rfl⟩ := List.mem_map.1 ha
                  exact ⟨b, hb, rfl⟩
              obtain ⟨a1, ha1, e1⟩ := h3
              obtain ⟨k, hk'⟩ := List.getElem?_of_mem ha1
              have h4 := p2 k
              rw [hk'] at h4
              cases hs0 : s.ants[k]? with
              | none => rw [hs0] at h4; simp at h4
              | some a0 =>
                rw [hs0] at h4
                simp only [Option.map_some, Option.some.injEq] at h4
                exact ⟨a0, List.mem_of_getElem? hs0, h4.symm.trans e1⟩
          obtain ⟨a0, ha0, e0⟩ := hant
          have h5 := h0 c' hc' a0 ha0
          rw [e0] at h5
          refine ⟨?_, (hf1 a ha).1⟩
          rw [(hk a.beam).1, (hk a.beam).2]
          exact h5.1
      | update =>
        simp only [step, Option.some.injEq] at h1
        subst h1
        refine ih _ c0 hf1 ?_ h2 c hc
        intro c' hc' a ha
        obtain ⟨b, hb, rfl⟩ := List.mem_map.1 ha
        exact h0 c' hc' b hb
  intro a ha
  have := key ops s none hf (by intro c h; cases h) h c (by rw [hc]; rfl) a ha
  rw [← this.1]
  exact this.2

/-! ### what `set_params` sets -/

/-- one polynomial, with new last and last but one coefficients -/
def NewPoly (old new : List R) (dly off : Option R) : Prop :=
  new.length = old.length ∧ ∀ j : Nat, new[j]? =
    if j + 1 = old.length then off.or old[j]? else if j + 2 = old.length then dly.or old[j]? else old[j]?

theorem newPoly_refl (l : List R) : NewPoly l l none none :=
  ⟨rfl, fun j => by simp⟩

theorem newPoly_trans {a b c : List R} {d1 o1 d2 o2 : Option R} (h1 : NewPoly a b d1 o1) (h2 : NewPoly b c d2 o2) :
    NewPoly a c (d2.or d1) (o2.or o1) := by
  refine ⟨h2.1.trans h1.1, fun j => ?_⟩
  rw [h2.2 j, h1.2 j, h1.1]
  split
  · rw [Option.or_assoc]
  · split
    · rw [Option.or_assoc]
    · rfl

theorem setFromEnd_two {l l1 l2 : List R} {dly off : Option R}
    (h1 : (match dly with | none => some l | some v => setFromEnd l 2 v) = some l1)
    (h2 : (match off with | none => some l1 | some v => setFromEnd l1 1 v) = some l2) : NewPoly l l2 dly off := by
  have a : NewPoly l l1 dly none := by
    cases dly with
    | none => cases h1; exact newPoly_refl l
    | some v =>
      simp only [setFromEnd] at h1
      split at h1
      · cases h1
        refine ⟨by simp, fun j => ?_⟩
        by_cases e : j + 2 = l.length
        · have e' : l.length - 2 = j := by omega
          rw [if_neg (by omega), if_pos e, e', List.getElem?_set_self (by omega)]
          rfl
        · rw [List.getElem?_set_ne (by omega), if_neg e]
          simp
      · simp at h1
  have b : NewPoly l1 l2 none off := by
    cases off with
    | none => cases h2; exact newPoly_refl l1
    | some v =>
      simp only [setFromEnd] at h2
      split at h2
      · cases h2
        refine ⟨by simp, fun j => ?_⟩
        by_cases e : j + 1 = l1.length
        · have e' : l1.length - 1 = j := by omega
          rw [if_pos e, e', List.getElem?_set_self (by omega)]
          rfl
        · rw [List.getElem?_set_ne (by omega), if_neg e]
          simp
      · simp at h2
  have := newPoly_trans a b
  simpa using this

theorem setList_lists {s s' : St R} {addr k : Nat} {v : Option R} (h : setList s addr k v = some s') :
    ∃ l, (match v with | none => some (s.lists addr) | some v => setFromEnd (s.lists addr) k v) = some l ∧
      s'.lists = upd s.lists addr l := by
  unfold setList at h
  cases v with
  | none =>
    simp only [Option.some.injEq] at h
    subst h
    refine ⟨_, rfl, ?_⟩
    funext n
    unfold upd
    split
    · rename_i e; rw [e]
    · rfl
  | some v =>
    simp only at h
    cases hl : setFromEnd (s.lists addr) k v with
    | none => rw [hl] at h; simp at h
    | some l =>
      rw [hl] at h
      simp only [Option.some.injEq] at h
      subst h
      exact ⟨l, hl, rfl⟩

theorem applied_update {p : Option (Prm R)} {a a' : Ant R} (s : St R) (h : Applied p a a') : Applied p a (a'.update s) :=
  ⟨h.x, h.y, h.z, h.phs, h.bpR, h.bpI, h.amp, h.beam⟩

theorem applied_none (a : Ant R) : Applied none a a := ⟨rfl, rfl, rfl, rfl, rfl, rfl, rfl, rfl⟩

theorem applied_assign (p : Prm R) (a : Ant R) : Applied (some p) a (p.assign a) := ⟨rfl, rfl, rfl, rfl, rfl, rfl, rfl, rfl⟩

theorem setAnt_sets {s s' : St R} {i : Nat} {p : Prm R} {ch : Bool} (h : setAnt s i p = (s', false, ch)) :
    ∃ a a', s.ants[i]? = some a ∧ s'.ants[i]? = some a' ∧ Applied (some p) a a' ∧ (∀ k, k ≠ i → s'.ants[k]? = s.ants[k]?) ∧
      ∀ addr, NewPoly (s.lists addr) (s'.lists addr) (if a.phs = addr then p.dly else none) (if a.phs = addr then p.off else none) := by
  unfold setAnt at h
  cases ha : s.ants[i]? with
  | none => rw [ha] at h; simp at h
  | some a =>
    rw [ha] at h
    simp only at h
    cases hb : setBeam s a.beam p.bm with
    | mk s1 r =>
      rw [hb] at h
      cases r with
      | true => simp at h
      | false =>
        simp only at h
        obtain ⟨b1, b2, -, -⟩ := setBeam_spec s s1 a.beam p.bm hb
        cases hl : (setList s1 a.phs 2 p.dly).bind (fun s2 => setList s2 a.phs 1 p.off) with
        | none => rw [hl] at h; simp at h
        | some s3 =>
          rw [hl] at h
          simp only at h
          rw [Option.bind_eq_some_iff] at hl
          obtain ⟨s2, l1, l2⟩ := hl
          obtain ⟨-, c2, -⟩ := setList_spec _ _ _ _ _ l1
          obtain ⟨-, d2, -⟩ := setList_spec _ _ _ _ _ l2
          have hants : s3.ants = s.ants := by rw [d2, c2, b2]
          have hil : i < s.ants.length := (List.getElem?_eq_some_iff.1 ha).1
          obtain ⟨m1, e1, e2⟩ := setList_lists l1
          obtain ⟨m2, f1, f2⟩ := setList_lists l2
          rw [b1] at e1 e2
          rw [e2, upd_same] at f1
          have hpoly : ∀ addr, NewPoly (s.lists addr) (s3.lists addr) (if a.phs = addr then p.dly else none)
              (if a.phs = addr then p.off else none) := by
            intro addr
            by_cases e : a.phs = addr
            · subst e
              rw [if_pos rfl, if_pos rfl, f2, upd_same]
              exact setFromEnd_two e1 f1
            · rw [if_neg e, if_neg e, f2, upd_ne _ _ _ _ (Ne.symm e), e2, upd_ne _ _ _ _ (Ne.symm e)]
              exact newPoly_refl _
          have hset : (s3.ants.set i (p.assign a))[i]? = some (p.assign a) := by
            rw [hants, List.getElem?_set_self hil]
          have hoth : ∀ k, k ≠ i → (s3.ants.set i (p.assign a))[k]? = s.ants[k]? := by
            intro k hk
            rw [hants, List.getElem?_set_ne (Ne.symm hk)]
          cases hany : p.any with
          | true =>
            rw [hany] at h
            simp only [if_true, Prod.mk.injEq, true_and] at h
            obtain ⟨rfl, rfl⟩ := h
            refine ⟨a, (p.assign a).update { s3 with ants := s3.ants.set i (p.assign a) }, rfl, ?_,
              applied_update _ (applied_assign p a), ?_, ?_⟩
            · unfold updateAnt
              simp only
              rw [hset]
              simp only
              rw [List.getElem?_set_self (by rw [List.length_set, hants]; exact hil)]
            · intro k hk
              unfold updateAnt
              simp only
              rw [hset]
              simp only
              rw [List.getElem?_set_ne (Ne.symm hk)]
              exact hoth k hk
            · intro addr
              rw [(updateAnt_heap _ i).2]
              exact hpoly addr
          | false =>
            rw [hany] at h
            simp only [Bool.false_eq_true, if_false, Prod.mk.injEq, true_and] at h
            obtain ⟨rfl, rfl⟩ := h
            exact ⟨a, _, rfl, hset, applied_assign p a, hoth, hpoly⟩

theorem given_cons (s : St R) (prms : Nat → Option (Prm R)) (g : Prm R → Option R) (addr i : Nat) (is : List Nat) :
    (given s prms g addr (i :: is)).getLast? =
      (given s prms g addr is).getLast?.or (if (s.ants[i]?).map Ant.phs = some addr then (prms i).bind g else none) := by
  unfold given
  rw [List.filterMap_cons]
  cases h : (if (s.ants[i]?).map Ant.phs = some addr then (prms i).bind g else none) with
  | none => simp
  | some v =>
    simp only
    cases List.filterMap (fun k => if (s.ants[k]?).map Ant.phs = some addr then (prms k).bind g else none) is with
    | nil => rfl
    | cons y ys => simp [List.getLast?_cons]

theorem given_congr {s s1 : St R} (prms : Nat → Option (Prm R)) (g : Prm R → Option R) (addr : Nat) (is : List Nat)
    (h : ∀ k ∈ is, s1.ants[k]? = s.ants[k]?) : given s1 prms g addr is = given s prms g addr is := by
  unfold given
  apply List.filterMap_congr
  intro k hk
  rw [h k hk]

theorem setLoop_sets (prms : Nat → Option (Prm R)) : ∀ (is : List Nat) (s s' : St R) (c0 ch : Bool), is.Nodup →
    setLoop prms is s c0 = (s', false, ch) →
    (∀ k, k ∉ is → s'.ants[k]? = s.ants[k]?) ∧
    (∀ k ∈ is, ∀ a, s.ants[k]? = some a → ∃ a', s'.ants[k]? = some a' ∧ Applied (prms k) a a') ∧
    ∀ addr, NewPoly (s.lists addr) (s'.lists addr) (given s prms Prm.dly addr is).getLast? (given s prms Prm.off addr is).getLast?
  | [], s, s', c0, ch, _, h => by
    simp only [setLoop, Prod.mk.injEq, true_and] at h
    obtain ⟨rfl, rfl⟩ := h
    exact ⟨fun k _ => rfl, fun k hk => absurd hk (by simp), fun addr => newPoly_refl _⟩
  | i :: is, s, s', c0, ch, hn, h => by
    rw [List.nodup_cons] at hn
    unfold setLoop at h
    cases hp : prms i with
    | none =>
      rw [hp] at h
      obtain ⟨h1, h2, h3⟩ := setLoop_sets prms is s s' c0 ch hn.2 h
      refine ⟨fun k hk => h1 k (fun hk' => hk (List.mem_cons_of_mem _ hk')), ?_, ?_⟩
      · intro k hk a ha
        rcases List.mem_cons.1 hk with rfl | hk
        · exact ⟨a, by rw [h1 k hn.1, ha], by rw [hp]; exact applied_none a⟩
        · exact h2 k hk a ha
      · intro addr
        rw [given_cons, given_cons, hp]
        simpa using h3 addr
    | some p =>
      rw [hp] at h
      simp only at h
      rcases ha : setAnt s i p with ⟨s1, r, c⟩
      rw [ha] at h
      cases r with
      | true => simp at h
      | false =>
        simp only at h
        obtain ⟨a0, a1, p1, p2, p3, p4, p5⟩ := setAnt_sets ha
        obtain ⟨h1, h2, h3⟩ := setLoop_sets prms is s1 s' (c0 || c) ch hn.2 h
        have hne : ∀ k ∈ is, k ≠ i := fun k hk e => hn.1 (e ▸ hk)
        refine ⟨?_, ?_, ?_⟩
        · intro k hk
          rw [h1 k (fun hk' => hk (List.mem_cons_of_mem _ hk')), p4 k (fun e => hk (e ▸ List.mem_cons_self))]
        · intro k hk a hka
          rcases List.mem_cons.1 hk with rfl | hk
          · rw [p1] at hka
            cases hka
            exact ⟨a1, by rw [h1 k hn.1, p2], by rw [hp]; exact p3⟩
          · exact h2 k hk a (by rw [p4 k (hne k hk), hka])
        · intro addr
          have := newPoly_trans (p5 addr) (h3 addr)
          rw [given_congr prms _ addr is (fun k hk => p4 k (hne k hk)), given_congr prms _ addr is (fun k hk => p4 k (hne k hk))] at this
          rw [given_cons, given_cons, hp, p1]
          simpa using this

/-! ## C60 -/

/-- C60: starting from an array whose derived values are up to date (as the constructors leave it), they are up to date
after every sequence of `select_chans`, `set_params` and `update` calls on the array that does not raise - even when
antennas share beams or phase polynomials. -/
theorem c60_fresh_partial (s s' : St R) (ops : List (Op R)) (hf : Current s) (h : run s ops = some s') : Current s' :=
  (current_iff s').2 (run_fresh s s' ops ((current_iff s).1 hf) h)

/-- C60: `select_chans` brings everything up to date from whatever state the array is in. -/
theorem c60_select_repairs (s s' : St R) (c : Option (List Int)) (h : select s c = (s', false)) : Current s' :=
  (current_iff s').2 (select_spec s s' c h).1

/-- C60: the active frequencies are those of the channels selected last (all of them for `None`), whatever parameters
have been set since. -/
theorem c60_selection (s s' : St R) (ops : List (Op R)) (hf : Current s) (h : run s ops = some s')
    (c : Option (List Int)) (hc : lastSel ops = some c) : ∀ a ∈ s'.ants,
      match c with
      | some is => Picks (s'.beams a.beam).freqs is (s'.beams a.beam).afreqs
      | none => (s'.beams a.beam).afreqs = (s'.beams a.beam).freqs := by
  intro a ha
  have := run_selection s s' ops ((current_iff s).1 hf) h c hc a ha
  cases c with
  | some is => exact (take_some _ _ _).1 this
  | none => exact take_all _ _ this

/-- C60: what `set_params` of the array does: every antenna has the parameters given to it and keeps the others; every
polynomial has the delay and offset given last to an antenna that holds it, and is otherwise as it was; and all derived
values are computed from these. -/
theorem c60_set_params (s s' : St R) (prms : Nat → Option (Prm R)) (hf : Current s) (h : set s prms = (s', false)) :
    Current s' ∧ s'.ants.length = s.ants.length ∧
    (∀ k a, s.ants[k]? = some a → ∃ a', s'.ants[k]? = some a' ∧ Applied (prms k) a a') ∧
    ∀ addr, (s'.lists addr).length = (s.lists addr).length ∧ ∀ j : Nat, (s'.lists addr)[j]? =
      if j + 1 = (s.lists addr).length then
        (given s prms Prm.off addr (List.range s.ants.length)).getLast?.or (s.lists addr)[j]?
      else if j + 2 = (s.lists addr).length then
        (given s prms Prm.dly addr (List.range s.ants.length)).getLast?.or (s.lists addr)[j]?
      else (s.lists addr)[j]? := by
  refine ⟨(current_iff s').2 (set_spec s s' prms h ((current_iff s).1 hf)).1, ?_⟩
  unfold set at h
  rcases hl : setLoop prms (List.range s.ants.length) s false with ⟨s1, r, ch⟩
  rw [hl] at h
  cases r with
  | true => simp at h
  | false =>
    simp only [Prod.mk.injEq, and_true] at h
    obtain ⟨p1, p2, p3⟩ := setLoop_sets prms _ s s1 false ch List.nodup_range hl
    have hlen : s1.ants.length = s.ants.length := by
      rcases Nat.lt_trichotomy s1.ants.length s.ants.length with e | e | e
      · obtain ⟨a', h1, _⟩ := p2 s1.ants.length (List.mem_range.2 e) _ (List.getElem?_eq_getElem e)
        rw [List.getElem?_eq_none (Nat.le_refl _)] at h1
        simp at h1
      · exact e
      · have := p1 s.ants.length (by simp)
        rw [List.getElem?_eq_getElem e, List.getElem?_eq_none (Nat.le_refl _)] at this
        simp at this
    have hp2 : ∀ k a, s.ants[k]? = some a → ∃ a', s1.ants[k]? = some a' ∧ Applied (prms k) a a' := fun k a ha =>
      p2 k (List.mem_range.2 (List.getElem?_eq_some_iff.1 ha).1) a ha
    cases ch with
    | false =>
      simp only [Bool.false_eq_true, if_false] at h
      subst h
      exact ⟨hlen, hp2, p3⟩
    | true =>
      simp only [if_true] at h
      subst h
      refine ⟨by rw [update, List.length_map, hlen], ?_, p3⟩
      intro k a ha
      obtain ⟨a', h1, h2⟩ := hp2 k a ha
      exact ⟨a'.update s1, by rw [update, List.getElem?_map, h1]; rfl, applied_update s1 h2⟩

/-- an array of two antennas that share the default phase polynomial and have beams of their own; frequencies 1, 2, 3 -/
def two : St Int :=
  ⟨fun _ => ⟨[1, 2, 3], [0, 1, 2], [1, 2, 3]⟩, fun _ => [0, 0],
    [⟨(0, 0, 0), 0, 0, [1], [0], 1, [0, 0, 0], [(1, 0), (1, 0), (1, 0)]⟩,
     ⟨(5, 0, 0), 1, 0, [1], [0], 1, [0, 0, 0], [(1, 0), (1, 0), (1, 0)]⟩]⟩

def noPrm : Prm Int := ⟨false, none, none, none, none, none, none, none, none, none⟩

example : Current two := by
  rw [current_iff]
  intro a ha
  simp only [two, List.mem_cons, List.not_mem_nil, or_false] at ha
  rcases ha with rfl | rfl <;> exact ⟨rfl, rfl, rfl⟩

/-- selecting channels and then setting a delay and an amplitude through the array -/
example : (run two [.select (some [2, -3]), .set (fun i => if i = 0 then some { noPrm with dly := some 7, amp := some 2 } else none)]).map
    (fun s => s.ants.map (fun a => (a.phsoff, a.gain))) =
    some [([21, 7], [(2, 0), (2, 0)]), ([21, 7], [(1, 0), (1, 0)])] := by decide

/-- C60 is false for `set_params` called on a single antenna: the delay set on antenna 0 changes the polynomial it
shares with antenna 1, whose phase offsets stay as they were. -/
theorem c60_antenna_violated :
    ((setAnt two 0 { noPrm with dly := some 7 }).1.ants.map Ant.phsoff,
     (setAnt two 0 { noPrm with dly := some 7 }).1.lists 0) = ([[7, 14, 21], [0, 0, 0]], [7, 0]) := by decide

/-- C60 is false after a `select_chans` that raises: the channel list is the new one, frequencies and offsets are
the old ones. -/
theorem c60_bad_channel_violated :
    let r := select two (some [3])
    (r.2, (r.1.beams 0).chans, (r.1.beams 0).afreqs, take (r.1.beams 0).freqs (r.1.beams 0).chans) =
      (true, [3], [1, 2, 3], none) := by decide

end Verif.Phs.Upd
