import Mathlib.Data.List.Basic

/-!
# Decimated reading (C50)

`UVObject_read`, `UVObject_rewind` and `UVObject_select` of `/repo/aipy/_miriad/miriad_wrap.cpp`.  What `uvread_c` returns
is given as the list of the records of the data set that pass the other selections (see C48 for that list); a record has a
time `τ` and further content `α`.

Simplified: records have at least one channel (`nread` is zero at the end of the file only; `uvread_c` refuses records
without channels); errors of `uvread_c` are not modelled; times are compared as values, so that no time is NaN.
-/
namespace Verif.Mir.Decimate

variable {τ α : Type} [DecidableEq τ]

/-! ## Model -/

/-- the fields `decimate`, `decphase`, `intcnt` and `curtime` of a `UVObject`, miriad_wrap.cpp 20-23, and the records that
`uvread_c` has still to return -/
structure UV (τ α : Type) where
  decimate : Int
  decphase : Int
  intcnt : Int
  curtime : τ
  rest : List (τ × α)

/-- what a call of `read` does: the process dies of a division by zero, the end of the file, or a record -/
inductive Res (τ α : Type) where
  | fault
  | eof
  | ok (r : τ × α)
  deriving DecidableEq, Repr

/-- `UVObject_init`, miriad_wrap.cpp 49-52; `start` is the number -1 -/
def init (start : τ) (rs : List (τ × α)) : UV τ α := ⟨1, 0, -1, start, rs⟩

/-- `UVObject_rewind`, miriad_wrap.cpp 85-91 -/
def rewind (start : τ) (rs : List (τ × α)) (s : UV τ α) : UV τ α :=
  { s with rest := rs, intcnt := -1, curtime := start }

/-- `UVObject_select` for names that begin with `decim`, miriad_wrap.cpp 375-393; `n1` and `n2` are converted to `long`,
here they are integers -/
def select (n1 n2 : Int) (s : UV τ α) : UV τ α := { s with decimate := n1, decphase := n2 }

/-- miriad_wrap.cpp 117-120: count the integrations; `t` is `preamble[3]` -/
def count (t : τ) (s : UV τ α) : UV τ α :=
  if t ≠ s.curtime then { s with intcnt := s.intcnt + 1, curtime := t } else s

/-- the loop of `UVObject_read`, miriad_wrap.cpp 108-124.  At the end of the file `uvread_c` does not touch `preamble`:
`junk` is what `preamble[3]` held, an uninitialised variable or the time of the record before. -/
def readLoop (junk : τ) (s : UV τ α) : List (τ × α) → Res τ α × UV τ α
  | [] =>
    let s := count junk { s with rest := [] }
    if s.decimate = 0 then (.fault, s) else (.eof, s)
  | (t, a) :: rest =>
    let s := count t { s with rest := rest }
    if s.decimate = 0 then (.fault, s)
    else if (s.intcnt - s.decphase).tmod s.decimate = 0 then (.ok (t, a), s)
    else readLoop t s rest

/-- `UVObject_read` -/
def read (junk : τ) (s : UV τ α) : Res τ α × UV τ α := readLoop junk s s.rest

/-- the calls of a user; `junk` of a read is what the uninitialised `preamble[3]` happens to be -/
inductive Op (τ : Type) where
  | read (junk : τ)
  | rewind
  | select (n1 n2 : Int)

/-- a call, and what `read` returns -/
def step (start : τ) (rs : List (τ × α)) (s : UV τ α) : Op τ → List (Res τ α) × UV τ α
  | .read junk => let (r, s) := read junk s; ([r], s)
  | .rewind => ([], rewind start rs s)
  | .select n1 n2 => ([], select n1 n2 s)

/-- a sequence of calls -/
def run (start : τ) (rs : List (τ × α)) (s : UV τ α) : List (Op τ) → List (Res τ α) × UV τ α
  | [] => ([], s)
  | op :: ops =>
    let (r, s) := step start rs s op
    let (r', s) := run start rs s ops
    (r ++ r', s)

/-- `UV.all`, /repo/aipy/miriad.py 226-232: read until the end of the file; `fuel` bounds the number of reads (the
iterator needs one more than there are records) -/
def readAll (junk : Nat → τ) : Nat → UV τ α → List (τ × α) × UV τ α
  | 0, s => ([], s)
  | fuel + 1, s =>
    match read (junk fuel) s with
    | (.ok r, s) => let (rs, s) := readAll junk fuel s; (r :: rs, s)
    | (_, s) => ([], s)

/-! ## Specification -/

/-- number `i` ends an integration: the next record has another time -/
def Ends (rs : List (τ × α)) (i : Nat) : Bool := (rs[i]?.map Prod.fst) != (rs[i + 1]?.map Prod.fst)

/-- the index of the integration of record number `k` -/
def integ (rs : List (τ × α)) (k : Nat) : Nat := ((List.range k).filter (Ends rs)).length

/-- record number `k` is to be returned -/
def Wanted (rs : List (τ × α)) (n p : Int) (k : Nat) : Prop := n ∣ (integ rs k : Int) - p

instance (rs : List (τ × α)) (n p : Int) (k : Nat) : Decidable (Wanted rs n p k) := by unfold Wanted; infer_instance

/-- what a user sees: the number of records read or skipped so far and the selection -/
structure View where
  pos : Nat
  n : Int
  p : Int

/-- a call does what it should -/
inductive Does (rs : List (τ × α)) : View → Op τ → List (Res τ α) → View → Prop
  /-- `read` returns the next record wanted -/
  | record {v : View} {junk : τ} (k : Nat) (r : τ × α) (hk : v.pos ≤ k) (hr : rs[k]? = some r)
      (hw : Wanted rs v.n v.p k) (hskip : ∀ i, v.pos ≤ i → i < k → ¬ Wanted rs v.n v.p i) :
      Does rs v (.read junk) [.ok r] { v with pos := k + 1 }
  /-- or reports the end of the file if there is none -/
  | eof {v : View} {junk : τ} (hskip : ∀ i, v.pos ≤ i → i < rs.length → ¬ Wanted rs v.n v.p i) :
      Does rs v (.read junk) [.eof] { v with pos := rs.length }
  | rewind {v : View} : Does rs v .rewind [] { v with pos := 0 }
  | select {v : View} (n p : Int) : Does rs v (.select n p) [] { v with n := n, p := p }

/-- a sequence of calls does what it should -/
inductive DoesAll (rs : List (τ × α)) : View → List (Op τ) → List (Res τ α) → Prop
  | nil {v : View} : DoesAll rs v [] []
  | cons {v v' : View} {op : Op τ} {ops : List (Op τ)} {r r' : List (Res τ α)} (h : Does rs v op r v')
      (h' : DoesAll rs v' ops r') : DoesAll rs v (op :: ops) (r ++ r')

/-- the decimation is by one or more, never by zero -/
def Divides : Op τ → Prop
  | .select n _ => n ≠ 0
  | _ => True

/-! ## Lemmas -/

theorem integ_succ (rs : List (τ × α)) (k : Nat) :
    integ rs (k + 1) = integ rs k + (if Ends rs k then 1 else 0) := by
  unfold integ
  rw [List.range_succ, List.filter_append, List.length_append]
  by_cases h : Ends rs k <;> simp [h]

/-- the counters before record number `k` is read -/
def Counted (start : τ) (rs : List (τ × α)) (s : UV τ α) : Nat → Prop
  | 0 => s.intcnt = -1 ∧ s.curtime = start
  | j + 1 => s.intcnt = integ rs j ∧ rs[j]?.map Prod.fst = some s.curtime

/-- the state agrees with the position `k`: the counters are those of the record before, unless the file is at its end -/
structure Inv (start : τ) (rs : List (τ × α)) (s : UV τ α) (k : Nat) : Prop where
  rest : s.rest = rs.drop k
  le : k ≤ rs.length
  counted : k < rs.length → Counted start rs s k

theorem count_rest (t : τ) (s : UV τ α) : (count t s).rest = s.rest := by unfold count; split <;> rfl
theorem count_decimate (t : τ) (s : UV τ α) : (count t s).decimate = s.decimate := by unfold count; split <;> rfl
theorem count_decphase (t : τ) (s : UV τ α) : (count t s).decphase = s.decphase := by unfold count; split <;> rfl

theorem count_ok {start : τ} {rs : List (τ × α)} (hs : ∀ r, rs.head? = some r → r.1 ≠ start) {s : UV τ α} {k : Nat}
    (h : Inv start rs s k) {t : τ} {a : α} (hk : rs[k]? = some (t, a)) (rest : List (τ × α)) :
    (count t { s with rest := rest }).intcnt = integ rs k ∧ (count t { s with rest := rest }).curtime = t := by
  have hlt : k < rs.length := (List.getElem?_eq_some_iff.1 hk).1
  have hc := h.counted hlt
  unfold count
  cases k with
  | zero =>
    obtain ⟨h1, h2⟩ := hc
    have : t ≠ s.curtime := by
      rw [h2]
      refine hs (t, a) ?_
      rw [List.head?_eq_getElem?]
      exact hk
    rw [if_pos this]
    simp [h1, integ]
  | succ j =>
    obtain ⟨h1, h2⟩ := hc
    rw [integ_succ]
    by_cases hh : t = s.curtime
    · have : Ends rs j = false := by
        unfold Ends
        rw [h2, hk]
        simp [hh]
      rw [if_neg (by simpa using hh), this]
      simp [h1, hh]
    · have : Ends rs j = true := by
        unfold Ends
        rw [h2, hk]
        simpa using fun e => hh e.symm
      rw [if_pos hh, this]
      simp [h1]

theorem tmod_zero (a n : Int) : a.tmod n = 0 ↔ n ∣ a := (Int.dvd_iff_tmod_eq_zero).symm

theorem loop_ok {start : τ} {rs : List (τ × α)} (hs : ∀ r, rs.head? = some r → r.1 ≠ start) :
    ∀ (m : Nat) (junk : τ) (s : UV τ α) (k : Nat), rs.length - k = m → Inv start rs s k → s.decimate ≠ 0 →
      ∃ r v', Does rs ⟨k, s.decimate, s.decphase⟩ (.read junk) [r] v' ∧ (readLoop junk s (rs.drop k)).1 = r ∧
        Inv start rs (readLoop junk s (rs.drop k)).2 v'.pos ∧
        (readLoop junk s (rs.drop k)).2.decimate = v'.n ∧ (readLoop junk s (rs.drop k)).2.decphase = v'.p ∧
        v'.n = s.decimate ∧ v'.p = s.decphase := by
  intro m
  induction m with
  | zero =>
    intro junk s k hm hI hd
    have hk : k = rs.length := by have := hI.le; omega
    subst hk
    have hnil : rs.drop rs.length = [] := by simp
    rw [hnil]
    unfold readLoop
    dsimp only
    rw [count_decimate, if_neg (show ¬ s.decimate = 0 from hd)]
    refine ⟨.eof, _, Does.eof (fun i hi hi' => ?_), rfl, ⟨?_, Nat.le_refl _, fun h => ?_⟩, ?_, ?_, rfl, rfl⟩
    · have : rs.length ≤ i := hi
      omega
    · rw [count_rest]; simp
    · have : rs.length < rs.length := h
      omega
    · rw [count_decimate]
    · rw [count_decphase]
  | succ m ih =>
    intro junk s k hm hI hd
    have hlt : k < rs.length := by omega
    rcases hr : rs[k] with ⟨t, a⟩
    have hk : rs[k]? = some (t, a) := by rw [List.getElem?_eq_getElem hlt, hr]
    have hdrop : rs.drop k = (t, a) :: rs.drop (k + 1) := by rw [List.drop_eq_getElem_cons hlt, hr]
    obtain ⟨c1, c2⟩ := count_ok hs hI hk (rs.drop (k + 1))
    have c3 : (count t { s with rest := rs.drop (k + 1) }).rest = rs.drop (k + 1) := count_rest _ _
    have c4 : (count t { s with rest := rs.drop (k + 1) }).decimate = s.decimate := count_decimate _ _
    have c5 : (count t { s with rest := rs.drop (k + 1) }).decphase = s.decphase := count_decphase _ _
    rw [hdrop]
    unfold readLoop
    dsimp only
    generalize count t { s with rest := rs.drop (k + 1) } = s' at *
    have hI' : Inv start rs s' (k + 1) := ⟨c3, by omega, fun _ => ⟨c1, by rw [hk, c2]; rfl⟩⟩
    rw [if_neg (by rw [c4]; exact hd)]
    by_cases hw : (s'.intcnt - s'.decphase).tmod s'.decimate = 0
    · rw [if_pos hw]
      have hw' : Wanted rs s.decimate s.decphase k := by
        unfold Wanted
        rw [← c1, ← c4, ← c5]
        exact (tmod_zero _ _).1 hw
      refine ⟨.ok (t, a), _, Does.record k (t, a) (Nat.le_refl _) hk hw' (fun i hi hi' => ?_), rfl, hI', c4, c5, rfl, rfl⟩
      have : k ≤ i := hi
      omega
    · rw [if_neg hw]
      have hw' : ¬ Wanted rs s.decimate s.decphase k := by
        unfold Wanted
        rw [← c1, ← c4, ← c5]
        exact fun h => hw ((tmod_zero _ _).2 h)
      obtain ⟨r, v', h1, h2, h3, h4, h5, h6, h7⟩ := ih t s' (k + 1) (by omega) hI' (by rw [c4]; exact hd)
      rw [c4, c5] at h1
      have hskip : ∀ i, k ≤ i → i < k + 1 → ¬ Wanted rs s.decimate s.decphase i := by
        intro i hi hi'
        obtain rfl : i = k := by omega
        exact hw'
      refine ⟨r, v', ?_, h2, h3, h4, h5, by rw [h6, c4], by rw [h7, c5]⟩
      cases h1 with
      | record j r hj hr hwj hsk =>
        refine Does.record j r (Nat.le_of_succ_le hj) hr hwj (fun i hi hi' => ?_)
        by_cases hik : i = k
        · rw [hik]; exact hw'
        · have hik' : k ≤ i := hi
          exact hsk i (by show k + 1 ≤ i; omega) hi'
      | eof hsk =>
        refine Does.eof (fun i hi hi' => ?_)
        by_cases hik : i = k
        · rw [hik]; exact hw'
        · have hik' : k ≤ i := hi
          exact hsk i (by show k + 1 ≤ i; omega) hi'

theorem run_ok {start : τ} {rs : List (τ × α)} (hs : ∀ r, rs.head? = some r → r.1 ≠ start) (ops : List (Op τ))
    (hops : ∀ op ∈ ops, Divides op) : ∀ (s : UV τ α) (k : Nat), Inv start rs s k → s.decimate ≠ 0 →
      DoesAll rs ⟨k, s.decimate, s.decphase⟩ ops (run start rs s ops).1 := by
  induction ops with
  | nil => intro s k _ _; exact .nil
  | cons op ops ih =>
    intro s k hI hd
    have hrest := ih (fun o ho => hops o (List.mem_cons_of_mem _ ho))
    have hop := hops op List.mem_cons_self
    unfold run
    cases op with
    | read junk =>
      obtain ⟨r, v', h1, h2, h3, h4, h5, h6, h7⟩ := loop_ok hs _ junk s k rfl hI hd
      dsimp only [step]
      unfold read
      rw [hI.rest]
      generalize readLoop junk s (rs.drop k) = z at *
      obtain ⟨z1, z2⟩ := z
      dsimp only at *
      subst h2
      have := hrest z2 v'.pos h3 (by rw [h4, h6]; exact hd)
      rw [h4, h5] at this
      exact DoesAll.cons h1 this
    | rewind =>
      dsimp only [step]
      refine DoesAll.cons (v' := ⟨0, s.decimate, s.decphase⟩) Does.rewind ?_
      exact hrest (rewind start rs s) 0 ⟨by simp [rewind], by omega, fun _ => ⟨rfl, rfl⟩⟩ hd
    | select n p =>
      dsimp only [step]
      refine DoesAll.cons (v' := ⟨k, n, p⟩) (Does.select n p) ?_
      exact hrest (select n p s) k ⟨hI.rest, hI.le, fun h => by
        have := hI.counted h
        cases k <;> exact this⟩ hop

/-! ## C50 -/

/-- **C50**: in any sequence of reads, rewinds and selections every read returns the next record of an integration whose
index is congruent to the phase, or reports the end of the file if there is none left. -/
theorem c50_history (start : τ) (rs : List (τ × α)) (hs : ∀ r, rs.head? = some r → r.1 ≠ start) (ops : List (Op τ))
    (hops : ∀ op ∈ ops, Divides op) : DoesAll rs ⟨0, 1, 0⟩ ops (run start rs (init start rs) ops).1 :=
  run_ok hs ops hops (init start rs) 0 ⟨rfl, Nat.zero_le _, fun _ => ⟨rfl, rfl⟩⟩ (show (1 : Int) ≠ 0 by decide)

/-- the records wanted -/
def wanted (rs : List (τ × α)) (n p : Int) : List (τ × α) :=
  (rs.zipIdx.filter fun x => Wanted rs n p x.2).map Prod.fst

def wantedFrom (rs : List (τ × α)) (n p : Int) (k : Nat) : List (τ × α) :=
  ((rs.zipIdx.drop k).filter fun x => Wanted rs n p x.2).map Prod.fst

omit [DecidableEq τ] in
theorem zipIdx_drop {rs : List (τ × α)} {k : Nat} {r : τ × α} (h : rs[k]? = some r) :
    rs.zipIdx.drop k = (r, k) :: rs.zipIdx.drop (k + 1) := by
  have hlt : k < rs.length := (List.getElem?_eq_some_iff.1 h).1
  rw [List.drop_eq_getElem_cons (by simpa using hlt)]
  congr 1
  rw [List.getElem_zipIdx]
  simp [(List.getElem?_eq_some_iff.1 h).2]

theorem wantedFrom_skip {rs : List (τ × α)} {n p : Int} (k d : Nat) (hd : k + d ≤ rs.length)
    (h : ∀ i, k ≤ i → i < k + d → ¬ Wanted rs n p i) : wantedFrom rs n p k = wantedFrom rs n p (k + d) := by
  induction d with
  | zero => rfl
  | succ d ih =>
    rw [ih (by omega) (fun i hi hi' => h i hi (by omega))]
    have hlt : k + d < rs.length := by omega
    unfold wantedFrom
    rw [zipIdx_drop (List.getElem?_eq_getElem hlt), List.filter_cons_of_neg]
    · rfl
    · simpa using h (k + d) (by omega) (by omega)

theorem wantedFrom_end {rs : List (τ × α)} {n p : Int} : wantedFrom rs n p rs.length = [] := by
  unfold wantedFrom
  rw [List.drop_eq_nil_of_le (by simp)]
  rfl

theorem readAll_ok {start : τ} {rs : List (τ × α)} (hs : ∀ r, rs.head? = some r → r.1 ≠ start) (junk : Nat → τ) :
    ∀ (fuel : Nat) (s : UV τ α) (k : Nat), Inv start rs s k → s.decimate ≠ 0 → rs.length < k + fuel →
      (readAll junk fuel s).1 = wantedFrom rs s.decimate s.decphase k := by
  intro fuel
  induction fuel with
  | zero => intro s k hI _ h; have := hI.le; omega
  | succ fuel ih =>
    intro s k hI hd hf
    obtain ⟨r, v', h1, h2, h3, h4, h5, h6, h7⟩ := loop_ok hs _ (junk fuel) s k rfl hI hd
    unfold readAll read
    rw [hI.rest]
    generalize readLoop (junk fuel) s (rs.drop k) = z at *
    obtain ⟨z1, z2⟩ := z
    dsimp only at *
    subst h2
    cases h1 with
    | record j r hj hr hwj hsk =>
      dsimp only at *
      have hjl : j < rs.length := (List.getElem?_eq_some_iff.1 hr).1
      rw [ih z2 (j + 1) h3 (by rw [h4]; exact hd) (by omega)]
      rw [wantedFrom_skip k (j - k) (by omega) (fun i hi hi' => hsk i hi (by omega)), show k + (j - k) = j by omega]
      rw [h4, h5]
      conv_rhs => unfold wantedFrom
      rw [zipIdx_drop hr, List.filter_cons_of_pos (by simpa using hwj)]
      rfl
    | eof hsk =>
      dsimp only at *
      have := hI.le
      rw [wantedFrom_skip k (rs.length - k) (by omega) (fun i hi hi' => hsk i hi (by omega)),
        show k + (rs.length - k) = rs.length by omega, wantedFrom_end]

/-- **C50**: reading all of a data set after `select('decimate', n, p)` returns every record of the integrations whose
index is congruent to `p` modulo `n`, once and in the order of the file, and nothing else. -/
theorem c50_all (start : τ) (rs : List (τ × α)) (hs : ∀ r, rs.head? = some r → r.1 ≠ start) (n p : Int) (hn : n ≠ 0)
    (junk : Nat → τ) {fuel : Nat} (hf : rs.length < fuel) :
    (readAll junk fuel (select n p (init start rs))).1 = wanted rs n p :=
  readAll_ok hs junk fuel (select n p (init start rs)) 0 ⟨rfl, Nat.zero_le _, fun _ => ⟨rfl, rfl⟩⟩ hn (by omega)

/-- **C50**: the same after a rewind in any state. -/
theorem c50_rewind (start : τ) (rs : List (τ × α)) (hs : ∀ r, rs.head? = some r → r.1 ≠ start) (s : UV τ α) (n p : Int)
    (hn : n ≠ 0) (junk : Nat → τ) {fuel : Nat} (hf : rs.length < fuel) :
    (readAll junk fuel (select n p (rewind start rs s))).1 = wanted rs n p :=
  readAll_ok hs junk fuel (select n p (rewind start rs s)) 0 ⟨rfl, Nat.zero_le _, fun _ => ⟨rfl, rfl⟩⟩ hn (by omega)

/-- **C50**: the phases `0 .. n-1` share the records among them: each record is wanted for exactly one of them. -/
theorem c50_phases (rs : List (τ × α)) (n : Nat) (hn : 0 < n) (k : Nat) :
    ∃ p : Nat, p < n ∧ Wanted rs n p k ∧ ∀ q : Nat, q < n → Wanted rs n q k → q = p := by
  refine ⟨integ rs k % n, Nat.mod_lt _ hn, ?_, ?_⟩
  · unfold Wanted
    have := Nat.div_add_mod (integ rs k) n
    refine ⟨(integ rs k / n : Nat), ?_⟩
    push_cast
    have h := Int.mul_ediv_add_emod (integ rs k : Int) n
    omega
  · intro q hq hw
    unfold Wanted at hw
    have h1 : (integ rs k : Int) % n = q % n := 
      Int.emod_eq_emod_iff_emod_sub_eq_zero.2 (Int.emod_eq_zero_of_dvd hw)
    have h2 : ((integ rs k % n : Nat) : Int) = ((q % n : Nat) : Int) := by push_cast; exact h1
    have h3 : integ rs k % n = q % n := by exact_mod_cast h2
    rw [Nat.mod_eq_of_lt hq] at h3
    exact h3.symm

/-- two integrations of two records, one of one, one of two -/
def sample : List (Int × Nat) := [(10, 0), (10, 1), (20, 2), (20, 3), (30, 4), (10, 5), (10, 6)]

example : (∀ r, sample.head? = some r → r.1 ≠ -1) ∧ wanted sample 2 1 = [(20, 2), (20, 3), (10, 5), (10, 6)] ∧
    (readAll (fun _ => 77) 8 (select 2 1 (init (-1) sample))).1 = [(20, 2), (20, 3), (10, 5), (10, 6)] := by
  refine ⟨by simp [sample], by decide +kernel, by decide +kernel⟩

example : (run (-1) sample (init (-1) sample)
      [.read 0, .select 3 2, .read 0, .read 0, .select 1 0, .rewind, .read 7]).1 =
    [.ok (10, 0), .ok (30, 4), .eof, .ok (10, 0)] := by decide +kernel

/-- **C50, disagreement**: integrations are counted from a time of -1 on, so that a data set that begins with this time
is counted from -1 and not from 0. -/
theorem c50_first_time : ∃ rs : List (Int × Nat),
    (readAll (fun _ => 77) 3 (select 2 0 (init (-1) rs))).1 ≠ wanted rs 2 0 :=
  ⟨[(-1, 0), (5, 1)], by decide +kernel⟩

/-- **C50, disagreement**: decimation by zero is accepted, and the next read divides by it. -/
theorem c50_zero (start junk : τ) (rs : List (τ × α)) (p : Int) :
    (read junk (select 0 p (init start rs))).1 = .fault := by
  unfold read
  show (readLoop junk _ rs).1 = _
  cases rs with
  | nil => unfold readLoop; dsimp only; rw [count_decimate]; rfl
  | cons r rs => obtain ⟨t, a⟩ := r; unfold readLoop; dsimp only; rw [count_decimate]; rfl

end Verif.Mir.Decimate
