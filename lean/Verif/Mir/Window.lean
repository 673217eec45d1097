import Mathlib.Data.List.Basic
import Mathlib.Tactic.Linarith

/-!
# Selection of spectral windows (C132)

`uv.select('window', n, 0, include)` of uvio.c (2473-2489), the restrictions that reading puts on it (3909-3924), and what `UV.read` returns
for a record that is otherwise selected: `uvread_line` (4038-4082) copies the channels of the windows to the beginning of the arrays that
`UVObject_read` (miriad_wrap.cpp 96-140) has made without initialising them, and `UV.read` (miriad.py 217-225) ignores how many there are.

Simplified: the other selections are `other` (C07, C79); `nschan` are natural numbers; the numbers of windows are integers; `line` is the
default of aipy (all channels, no averaging).
-/
namespace Verif.Mir.Windows

/-! ## Model -/

/-- `MAXWIN`, maxdimc.h 20 -/
def maxWin : Nat := 16

/-- `WINDOW`, uvio.c 430-433, where `select` is true -/
structure Win where
  wins : Nat → Bool
  first : Nat
  last : Nat
  n : Nat

/-- what matters here of `SELECT`: `and`, and `win` if `win.select` -/
structure Clause where
  conj : Bool
  win : Option Win

inductive Call
  | clear
  | conj
  | disj
  | window (i : Int) (incl : Bool)
  | other

/-- one step of the loop that finds the first and the last window, uvio.c 2485-2489 -/
def scanStep (wins : Nat → Bool) (s : Nat × Nat × Nat) (i : Nat) : Nat × Nat × Nat :=
  if wins i then (if s.2.2 = 0 then i else s.1, i, s.2.2 + 1) else s

/-- the flags of the windows at a call, uvio.c 2476-2480 -/
def flagsOf (old : Option Win) (i : Nat) (incl : Bool) : Nat → Bool :=
  fun k => if k = i - 1 then incl else match old with
    | none => !incl
    | some w => w.wins k

/-- the window selection of the last clause, uvio.c 2475-2489; `none` is a fatal error.  (`first` and `last` are not initialised in a new
clause; they are set by the first call.) -/
def setWin (i : Int) (incl : Bool) (old : Option Win) : Option Win :=
  if i < 1 ∨ i > maxWin then none
  else
    let wins := flagsOf old i.toNat incl
    let s := (List.range maxWin).foldl (scanStep wins) ((old.map (·.first)).getD 0, (old.map (·.last)).getD 0, 0)
    some ⟨wins, s.1, s.2.1, s.2.2⟩

/-- the last clause, made if there is none, uvio.c 2316-2324 -/
def onLast (f : Option Win → Option Win) : List Clause → Option (List Clause)
  | [] => (f none).map fun w => [⟨true, some w⟩]
  | [c] => (f c.win).map fun w => [⟨c.conj, some w⟩]
  | c :: d :: l => (onLast f (d :: l)).map fun l' => c :: l'

/-- `uvselect_c`, uvio.c 2259-2526 -/
def select (sel : List Clause) : Call → Option (List Clause)
  | .clear => some []
  | .conj => some (if sel.isEmpty then [] else sel ++ [⟨true, none⟩])
  | .disj => some (if sel.isEmpty then [] else sel ++ [⟨false, none⟩])
  | .window i incl => onLast (setWin i incl) sel
  | .other => some (if sel.isEmpty then [⟨true, none⟩] else sel)

def selectAll (sel : List Clause) (cs : List Call) : Option (List Clause) := cs.foldlM select sel

/-- the windows selected -/
def windows (sel : List Clause) : List Win := sel.filterMap (·.win)

/-- the checks of `uvread_init`, uvio.c 3909-3924 -/
def initOk (sel : List Clause) : Bool :=
  (windows sel).all (fun w => decide (w.last - w.first < w.n)) &&
    !((sel.any (fun c => !c.conj) && decide ((windows sel).length > 0)) || decide ((windows sel).length > 1))

/-- which channels, uvio.c 4040-4060; `none` is a fatal error -/
def lineOf (nschan : List Nat) (nchan nsize : Nat) : Option Win → Option (Nat × Nat)
  | none => if nchan = 0 ∨ nsize < nchan then none else some (0, nchan)
  | some w =>
    if nschan.length ≤ w.last then none
    else
      let start := (nschan.take w.first).sum
      let n := ((nschan.drop w.first).take w.n).sum
      if n = 0 ∨ nsize < n then none else some (start, n)

/-- the outcome of a read -/
inductive Read (α : Type)
  | fatal
  /-- behind the end of a buffer -/
  | overrun
  | ok (arr : List α) (nread : Nat)

/-- a record that the other selections select: `chans` are its channels (value and flag), `mem` is what the arrays of `UVObject_read` hold
before, uvio.c 4078-4086 -/
def read {α : Type} (sel : List Clause) (nschan : Option (List Nat)) (chans mem : List α) : Read α :=
  match windows sel, nschan with
  | [], _ =>
    match lineOf [] chans.length mem.length none with
    | none => .fatal
    | some (s, n) => .ok ((chans.drop s).take n ++ mem.drop n) n
  | _ :: _, none => .fatal
  | w :: _, some nschan =>
    if initOk sel then
      match lineOf nschan chans.length mem.length (some w) with
      | none => .fatal
      | some (s, n) => if chans.length < s + n then .overrun else .ok ((chans.drop s).take n ++ mem.drop n) n
    else .fatal

/-! ## Specification -/

/-- is window `k` (counted from one) to be returned: the last call that names it, and the opposite of the first call if none does -/
def Kept (ws : List (Nat × Bool)) (k : Nat) : Bool :=
  match ws.reverse.find? (fun c => c.1 == k) with
  | some c => c.2
  | none => match ws with
    | [] => true
    | c :: _ => !c.2

/-- channel `c` belongs to window `k` (counted from one) -/
def InWin (nschan : List Nat) (k c : Nat) : Prop := 1 ≤ k ∧ k ≤ nschan.length ∧ (nschan.take (k - 1)).sum ≤ c ∧ c < (nschan.take k).sum

open Classical in
/-- the channels of the windows to be returned, in order -/
noncomputable def wantedChans {α : Type} (ws : List (Nat × Bool)) (nschan : List Nat) (chans : List α) : List α :=
  (chans.zipIdx.filter fun x => decide (∃ k, Kept ws k = true ∧ InWin nschan k x.2)).map (·.1)

/-- the windows to be returned (of the sixteen that there can be) are `a`, `a + 1`, … `b` -/
def Block (ws : List (Nat × Bool)) (a b : Nat) : Prop :=
  1 ≤ a ∧ a ≤ b ∧ b ≤ 16 ∧ ∀ k, 1 ≤ k → k ≤ 16 → (Kept ws k = true ↔ a ≤ k ∧ k ≤ b)

/-- calls that choose no window, and only narrow the selection -/
def Plain (c : Call) : Prop := c = .conj ∨ c = .other

/-- the calls: other selections, then windows, then other selections -/
def callsOf (pre : List Call) (ws : List (Nat × Bool)) (post : List Call) : List Call :=
  pre ++ ws.map (fun c => .window c.1 c.2) ++ post

/-! ## The windows of a clause -/

theorem kept_snoc (ws : List (Nat × Bool)) (c : Nat × Bool) (k : Nat) :
    Kept (ws ++ [c]) k = if c.1 = k then c.2 else if ws = [] then !c.2 else Kept ws k := by
  unfold Kept
  rw [List.reverse_append]
  simp only [List.reverse_cons, List.reverse_nil, List.nil_append, List.singleton_append, List.find?_cons]
  by_cases h : c.1 = k
  · have : (c.1 == k) = true := by simpa using h
    rw [this, if_pos h]
  · have : (c.1 == k) = false := by simpa using h
    rw [this, if_neg h]
    simp only
    cases ws with
    | nil => simp
    | cons d ws => simp

theorem scan_on (wins : Nat → Bool) : ∀ (L : List Nat) (f l n : Nat), 0 < n →
    L.foldl (scanStep wins) (f, l, n) = (f, ((L.filter wins).getLast?).getD l, n + (L.filter wins).length) := by
  intro L
  induction L with
  | nil => intro f l n _; rfl
  | cons a L ih =>
    intro f l n hn
    rw [List.foldl_cons]
    by_cases ha : wins a = true
    · have e : scanStep wins (f, l, n) a = (f, a, n + 1) := by
        unfold scanStep
        rw [if_pos ha]
        simp only
        rw [if_neg (by omega)]
      rw [e, ih _ _ _ (by omega), List.filter_cons_of_pos ha]
      have h1 : n + 1 + (L.filter wins).length = n + (a :: L.filter wins).length := by simp; omega
      have h2 : ((L.filter wins).getLast?).getD a = ((a :: L.filter wins).getLast?).getD l := by
        cases L.filter wins with
        | nil => rfl
        | cons b m => rw [List.getLast?_cons_cons, List.getLast?_eq_getLast_of_ne_nil (by simp)]; rfl
      rw [h1, h2]
    · have e : scanStep wins (f, l, n) a = (f, l, n) := by unfold scanStep; rw [if_neg ha]
      rw [e, ih _ _ _ hn, List.filter_cons_of_neg ha]

theorem scan_start (wins : Nat → Bool) : ∀ (L : List Nat) (f l : Nat), L.foldl (scanStep wins) (f, l, 0) =
    (((L.filter wins).head?).getD f, ((L.filter wins).getLast?).getD l, (L.filter wins).length) := by
  intro L
  induction L with
  | nil => intro f l; rfl
  | cons a L ih =>
    intro f l
    rw [List.foldl_cons]
    by_cases ha : wins a = true
    · have e : scanStep wins (f, l, 0) a = (a, a, 1) := by
        unfold scanStep
        rw [if_pos ha]
        rfl
      rw [e, scan_on wins L a a 1 (by omega), List.filter_cons_of_pos ha]
      have h1 : 1 + (L.filter wins).length = (a :: L.filter wins).length := by simp; omega
      have h2 : ((L.filter wins).getLast?).getD a = ((a :: L.filter wins).getLast?).getD l := by
        cases L.filter wins with
        | nil => rfl
        | cons b m => rw [List.getLast?_cons_cons, List.getLast?_eq_getLast_of_ne_nil (by simp)]; rfl
      rw [h1, h2]
      rfl
    · have e : scanStep wins (f, l, 0) a = (f, l, 0) := by unfold scanStep; rw [if_neg ha]
      rw [e, ih, List.filter_cons_of_neg ha]

/-- the windows that calls have made -/
structure Made (ws : List (Nat × Bool)) (w : Win) : Prop where
  wins : ∀ k, w.wins k = Kept ws (k + 1)
  n : w.n = ((List.range 16).filter w.wins).length
  first : ∀ a, ((List.range 16).filter w.wins).head? = some a → w.first = a
  last : ∀ a, ((List.range 16).filter w.wins).getLast? = some a → w.last = a

theorem setWin_made (ws : List (Nat × Bool)) (old : Option Win) (hold : (ws = [] ∧ old = none) ∨ (ws ≠ [] ∧ ∃ w, old = some w ∧ Made ws w)) (c : Nat × Bool)
    (h1 : 1 ≤ c.1) (h2 : c.1 ≤ 16) : ∃ w, setWin c.1 c.2 old = some w ∧ Made (ws ++ [c]) w := by
  unfold setWin
  rw [if_neg (by unfold maxWin; omega)]
  simp only [scan_start]
  refine ⟨_, rfl, ?_, rfl, ?_, ?_⟩
  · intro k
    show flagsOf old ((c.1 : Int).toNat) c.2 k = _
    rw [kept_snoc]
    unfold flagsOf
    by_cases hk : k = (c.1 : Int).toNat - 1
    · rw [if_pos hk, if_pos (by simp at hk; omega)]
    · rw [if_neg hk, if_neg (by simp at hk; omega)]
      rcases hold with ⟨e1, e2⟩ | ⟨e1, w, e2, e3⟩
      · rw [if_pos e1, e2]
      · rw [if_neg e1, e2]
        exact e3.wins k
  · intro a ha
    show ((List.filter _ (List.range maxWin)).head?).getD _ = a
    rw [show List.range maxWin = List.range 16 from rfl, ha]
    rfl
  · intro a ha
    show ((List.filter _ (List.range maxWin)).getLast?).getD _ = a
    rw [show List.range maxWin = List.range 16 from rfl, ha]
    rfl

theorem increasing : ∀ (l : List Nat) (a : Nat), (a :: l).Pairwise (· < ·) →
    a + l.length ≤ (a :: l).getLast (by simp) ∧
    ((a :: l).getLast (by simp) ≤ a + l.length → ∀ k, k ∈ a :: l ↔ a ≤ k ∧ k ≤ a + l.length) := by
  intro l
  induction l with
  | nil => intro a _; exact ⟨by simp, fun _ k => by simp; omega⟩
  | cons b l ih =>
    intro a h
    have hab : a < b := by
      have := (List.pairwise_cons.1 h).1 b List.mem_cons_self
      exact this
    obtain ⟨i1, i2⟩ := ih b (List.pairwise_cons.1 h).2
    have e : (a :: b :: l).getLast (by simp) = (b :: l).getLast (by simp) := List.getLast_cons (by simp)
    rw [e, List.length_cons]
    refine ⟨by omega, ?_⟩
    intro hle k
    have hb : b = a + 1 := by omega
    rw [List.mem_cons, i2 (by omega) k]
    omega

/-- the check that there is no gap -/
theorem gap_iff {ws : List (Nat × Bool)} {w : Win} (h : Made ws w) :
    w.last - w.first < w.n ↔ ∃ a b, Block ws a b ∧ w.first = a - 1 ∧ w.last = b - 1 ∧ w.n = b - a + 1 := by
  have hmem : ∀ k, k ∈ (List.range 16).filter w.wins ↔ k < 16 ∧ Kept ws (k + 1) = true := by
    intro k
    rw [List.mem_filter, List.mem_range, h.wins]
  have hsort : ((List.range 16).filter w.wins).Pairwise (· < ·) := List.Pairwise.filter _ List.pairwise_lt_range
  have hn := h.n
  have hf := h.first
  have hl := h.last
  generalize (List.range 16).filter w.wins = K at hmem hsort hn hf hl
  constructor
  · intro hlt
    cases K with
    | nil => rw [hn] at hlt; simp at hlt
    | cons a l =>
      have hf := hf a rfl
      have hl := hl _ (List.getLast?_eq_getLast_of_ne_nil (by simp))
      obtain ⟨i1, i2⟩ := increasing l a hsort
      rw [List.length_cons] at hn
      have hle : (a :: l).getLast (by simp) ≤ a + l.length := by omega
      have hmem2 := i2 hle
      have hlast : a + l.length < 16 := ((hmem _).1 ((hmem2 _).2 ⟨by omega, Nat.le_refl _⟩)).1
      refine ⟨a + 1, a + l.length + 1, ⟨by omega, by omega, by omega, ?_⟩, by omega, by omega, by omega⟩
      intro k h1 h2
      obtain ⟨k, rfl⟩ : ∃ j, k = j + 1 := ⟨k - 1, by omega⟩
      have := hmem k
      rw [hmem2 k] at this
      constructor
      · intro hk
        have := this.2 ⟨by omega, hk⟩
        omega
      · intro hk
        exact (this.1 ⟨by omega, by omega⟩).2
  · rintro ⟨a, b, hb, h1, h2, h3⟩
    have := hb.1
    have := hb.2.1
    omega

theorem made_block {ws : List (Nat × Bool)} {w : Win} (h : Made ws w) {a b : Nat} (hb : Block ws a b) :
    w.first = a - 1 ∧ w.last = b - 1 ∧ w.n = b - a + 1 := by
  obtain ⟨h1, h2, h3, h4⟩ := hb
  have e : (List.range 16).filter w.wins = List.range' (a - 1) (b - a + 1) := by
    have e1 : (List.range 16).filter w.wins = (List.range 16).filter fun k => decide (a ≤ k + 1 ∧ k + 1 ≤ b) := by
      refine List.filter_congr ?_
      intro k hk
      rw [List.mem_range] at hk
      rw [h.wins k, Bool.eq_iff_iff, decide_eq_true_eq]
      exact h4 (k + 1) (by omega) (by omega)
    rw [e1]
    have hall : ∀ b : Fin 17, ∀ a : Fin 17, 1 ≤ a.val → a.val ≤ b.val →
        ((List.range 16).filter fun k => decide (a.val ≤ k + 1 ∧ k + 1 ≤ b.val)) = List.range' (a.val - 1) (b.val - a.val + 1) := by
      decide +kernel
    exact hall ⟨b, by omega⟩ ⟨a, by omega⟩ h1 h2
  refine ⟨h.first _ ?_, h.last _ ?_, ?_⟩
  · rw [e]
    rw [List.range'_succ]
    rfl
  · rw [e, List.getLast?_range']
    simp
    omega
  · rw [h.n, e, List.length_range']

/-! ## The calls -/

theorem select_plain {sel : List Clause} {c : Call} (hc : Plain c) (hconj : ∀ x ∈ sel, x.conj = true) :
    ∃ sel', select sel c = some sel' ∧ (∀ x ∈ sel', x.conj = true) ∧ windows sel' = windows sel := by
  rcases hc with rfl | rfl
  · refine ⟨_, rfl, ?_, ?_⟩
    · intro x hx
      split at hx
      · simp at hx
      · rcases List.mem_append.1 hx with hx | hx
        · exact hconj x hx
        · rw [List.mem_singleton] at hx; rw [hx]
    · cases sel with
      | nil => rfl
      | cons x sel =>
        show List.filterMap _ ((x :: sel) ++ [⟨true, none⟩]) = List.filterMap _ (x :: sel)
        rw [List.filterMap_append]
        exact List.append_nil _
  · refine ⟨_, rfl, ?_, ?_⟩
    · intro x hx
      split at hx
      · rw [List.mem_singleton] at hx; rw [hx]
      · exact hconj x hx
    · cases sel with
      | nil => rfl
      | cons x sel => rfl

theorem selectAll_plain : ∀ (cs : List Call) (sel : List Clause), (∀ c ∈ cs, Plain c) → (∀ x ∈ sel, x.conj = true) →
    ∃ sel', selectAll sel cs = some sel' ∧ (∀ x ∈ sel', x.conj = true) ∧ windows sel' = windows sel := by
  intro cs
  induction cs with
  | nil => intro sel _ h; exact ⟨sel, rfl, h, rfl⟩
  | cons c cs ih =>
    intro sel hc h
    obtain ⟨s1, a1, a2, a3⟩ := select_plain (hc c List.mem_cons_self) h
    obtain ⟨s2, b1, b2, b3⟩ := ih s1 (fun x hx => hc x (List.mem_cons_of_mem _ hx)) a2
    refine ⟨s2, ?_, b2, b3.trans a3⟩
    unfold selectAll at b1 ⊢
    rw [List.foldlM_cons, a1]
    exact b1

/-- the last clause has these windows, the others have none -/
def LastHas (sel : List Clause) (w : Option Win) : Prop :=
  ∃ front c, sel = front ++ [c] ∧ windows front = [] ∧ c.win = w

theorem onLast_append (f : Option Win → Option Win) (front : List Clause) (c : Clause) :
    onLast f (front ++ [c]) = (f c.win).map fun w => front ++ [⟨c.conj, some w⟩] := by
  induction front with
  | nil => rfl
  | cons d front ih =>
    cases front with
    | nil =>
      simp only [List.cons_append, List.nil_append, onLast]
      cases f c.win <;> rfl
    | cons e front =>
      simp only [List.cons_append] at ih ⊢
      unfold onLast
      rw [ih]
      cases f c.win <;> rfl

theorem windows_last {front : List Clause} {c : Clause} (h : windows front = []) : windows (front ++ [c]) = c.win.toList := by
  unfold windows at h ⊢
  rw [List.filterMap_append, h]
  cases hc : c.win <;> simp [hc]

theorem selectAll_windows : ∀ (ws done : List (Nat × Bool)) (sel : List Clause), (∀ c ∈ ws, 1 ≤ c.1 ∧ c.1 ≤ 16) → (∀ x ∈ sel, x.conj = true) →
    ((done = [] ∧ windows sel = []) ∨ (done ≠ [] ∧ ∃ w, LastHas sel (some w) ∧ Made done w)) → done ++ ws ≠ [] →
    ∃ sel' w, selectAll sel (ws.map fun c => Call.window c.1 c.2) = some sel' ∧ (∀ x ∈ sel', x.conj = true) ∧ windows sel' = [w] ∧ Made (done ++ ws) w := by
  intro ws
  induction ws with
  | nil =>
    intro done sel _ hconj hd hne
    rw [List.append_nil] at hne
    rcases hd with ⟨e, _⟩ | ⟨_, w, ⟨front, c, e1, e2, e3⟩, hm⟩
    · exact absurd e hne
    · refine ⟨sel, w, rfl, hconj, ?_, by rw [List.append_nil]; exact hm⟩
      rw [e1, windows_last e2, e3]
      rfl
  | cons c ws ih =>
    intro done sel hc hconj hd _
    obtain ⟨c1, c2⟩ := hc c List.mem_cons_self
    -- the state after this call
    have hstep : ∃ sel' w, select sel (.window c.1 c.2) = some sel' ∧ (∀ x ∈ sel', x.conj = true) ∧ LastHas sel' (some w) ∧ Made (done ++ [c]) w := by
      rcases hd with ⟨e, hw⟩ | ⟨hne, w, ⟨front, l, e1, e2, e3⟩, hm⟩
      · obtain ⟨w, w1, w2⟩ := setWin_made done none (Or.inl ⟨e, rfl⟩) c c1 c2
        rcases List.eq_nil_or_concat sel with hs | ⟨front, l, hs⟩
        · subst hs
          refine ⟨[⟨true, some w⟩], w, ?_, by simp, ⟨[], _, rfl, rfl, rfl⟩, w2⟩
          show onLast _ [] = _
          unfold onLast
          rw [w1]
          rfl
        · have hs : sel = front ++ [l] := by rw [hs]; simp
          subst hs
          have hsplit : windows front = [] ∧ l.win = none := by
            unfold windows at hw ⊢
            rw [List.filterMap_append, List.append_eq_nil_iff] at hw
            refine ⟨hw.1, ?_⟩
            cases hl : l.win with
            | none => rfl
            | some w => simp [hl] at hw
          refine ⟨front ++ [⟨l.conj, some w⟩], w, ?_, ?_, ⟨front, _, rfl, hsplit.1, rfl⟩, w2⟩
          · show onLast _ _ = _
            rw [onLast_append, hsplit.2, w1]
            rfl
          · intro x hx
            rcases List.mem_append.1 hx with hx | hx
            · exact hconj x (List.mem_append_left _ hx)
            · rw [List.mem_singleton] at hx
              rw [hx]
              exact hconj l (by simp)
      · obtain ⟨w', w1, w2⟩ := setWin_made done (some w) (Or.inr ⟨hne, w, rfl, hm⟩) c c1 c2
        subst e1
        refine ⟨front ++ [⟨l.conj, some w'⟩], w', ?_, ?_, ⟨front, _, rfl, e2, rfl⟩, w2⟩
        · show onLast _ _ = _
          rw [onLast_append, e3, w1]
          rfl
        · intro x hx
          rcases List.mem_append.1 hx with hx | hx
          · exact hconj x (List.mem_append_left _ hx)
          · rw [List.mem_singleton] at hx
            rw [hx]
            exact hconj l (by simp)
    obtain ⟨s1, w, a1, a2, a3, a4⟩ := hstep
    obtain ⟨s2, w2, b1, b2, b3, b4⟩ := ih (done ++ [c]) s1 (fun x hx => hc x (List.mem_cons_of_mem _ hx)) a2
      (Or.inr ⟨by simp, w, a3, a4⟩) (by simp)
    refine ⟨s2, w2, ?_, b2, b3, by simpa using b4⟩
    unfold selectAll at b1 ⊢
    rw [List.map_cons, List.foldlM_cons, a1]
    exact b1

theorem selectAll_ok (pre : List Call) (ws : List (Nat × Bool)) (post : List Call) (hpre : ∀ c ∈ pre, Plain c) (hpost : ∀ c ∈ post, Plain c)
    (hws : ∀ c ∈ ws, 1 ≤ c.1 ∧ c.1 ≤ 16) (hne : ws ≠ []) :
    ∃ sel w, selectAll [] (callsOf pre ws post) = some sel ∧ (∀ x ∈ sel, x.conj = true) ∧ windows sel = [w] ∧ Made ws w := by
  obtain ⟨s1, a1, a2, a3⟩ := selectAll_plain pre [] hpre (by simp)
  obtain ⟨s2, w, b1, b2, b3, b4⟩ := selectAll_windows ws [] s1 hws a2 (Or.inl ⟨rfl, a3⟩) (by simpa using hne)
  obtain ⟨s3, c1, c2, c3⟩ := selectAll_plain post s2 hpost b2
  refine ⟨s3, w, ?_, c2, c3.trans b3, by simpa using b4⟩
  unfold selectAll callsOf at *
  rw [List.foldlM_append, List.foldlM_append, a1]
  simp only [Option.bind_eq_bind, Option.bind_some, b1, c1]

theorem initOk_iff {sel : List Clause} {w : Win} (hconj : ∀ x ∈ sel, x.conj = true) (hw : windows sel = [w]) :
    initOk sel = true ↔ w.last - w.first < w.n := by
  unfold initOk
  rw [hw]
  have : sel.any (fun c => !c.conj) = false := by
    rw [List.any_eq_false]
    intro x hx
    simp [hconj x hx]
  rw [this]
  simp

/-! ## The channels -/

theorem take_sum_mono (l : List Nat) {i j : Nat} (h : i ≤ j) : (l.take i).sum ≤ (l.take j).sum := by
  have : l.take i <+: l.take j := List.take_prefix_take_left h
  obtain ⟨t, ht⟩ := this
  rw [← ht, List.sum_append]
  omega

theorem find_window (nschan : List Nat) (c : Nat) : ∀ (m a : Nat), a + m ≤ nschan.length → (nschan.take a).sum ≤ c → c < (nschan.take (a + m)).sum →
    ∃ k, a + 1 ≤ k ∧ k ≤ a + m ∧ InWin nschan k c := by
  intro m
  induction m with
  | zero => intro a _ h1 h2; rw [Nat.add_zero] at h2; omega
  | succ m ih =>
    intro a hlen h1 h2
    by_cases h : c < (nschan.take (a + m)).sum
    · obtain ⟨k, k1, k2, k3⟩ := ih a (by omega) h1 h
      exact ⟨k, k1, by omega, k3⟩
    · exact ⟨a + m + 1, by omega, by omega, by omega, by omega, by simpa using h, h2⟩

theorem in_block {ws : List (Nat × Bool)} {nschan : List Nat} {a b : Nat} (hb : Block ws a b) (hlen : b ≤ nschan.length) (h16 : ∀ k, Kept ws k = true → k ≤ 16 ∨ nschan.length < k) (c : Nat) :
    (∃ k, Kept ws k = true ∧ InWin nschan k c) ↔ (nschan.take (a - 1)).sum ≤ c ∧ c < (nschan.take b).sum := by
  obtain ⟨h1, h2, h3, h4⟩ := hb
  constructor
  · rintro ⟨k, k1, k2, k3, k4, k5⟩
    have hk : k ≤ 16 := by
      rcases h16 k k1 with h | h
      · exact h
      · omega
    have := (h4 k k2 hk).1 k1
    exact ⟨Nat.le_trans (take_sum_mono nschan (by omega)) k4, Nat.lt_of_lt_of_le k5 (take_sum_mono nschan (by omega))⟩
  · rintro ⟨c1, c2⟩
    have e : a - 1 + (b - a + 1) = b := by omega
    obtain ⟨k, k1, k2, k3⟩ := find_window nschan c (b - a + 1) (a - 1) (by omega) c1 (by rw [e]; exact c2)
    exact ⟨k, (h4 k (by omega) (by omega)).2 ⟨by omega, by omega⟩, k3⟩

theorem filter_between {α : Type} (l : List α) (i j : Nat) : ∀ k, i ≤ j →
    ((l.zipIdx k).filter fun x => decide (i ≤ x.2 ∧ x.2 < j)).map (·.1) = (l.drop (i - k)).take (j - max i k) := by
  induction l with
  | nil => intro k _; simp
  | cons a l ih =>
    intro k hij
    rw [List.zipIdx_cons]
    by_cases h : i ≤ k ∧ k < j
    · rw [List.filter_cons_of_pos (by simpa using h), List.map_cons, ih (k + 1) hij]
      have e1 : i - k = 0 := by omega
      have e2 : i - (k + 1) = 0 := by omega
      have e3 : j - max i k = (j - max i (k + 1)) + 1 := by omega
      rw [e1, e2, e3]
      rfl
    · rw [List.filter_cons_of_neg (by simpa using h), ih (k + 1) hij]
      by_cases hk : k < i
      · have e1 : i - k = (i - (k + 1)) + 1 := by omega
        have e3 : j - max i k = j - max i (k + 1) := by omega
        rw [e1, e3]
        rfl
      · have e1 : j - max i k = 0 := by omega
        have e2 : j - max i (k + 1) = 0 := by omega
        rw [e1, e2]
        simp

theorem wanted_block {α : Type} {ws : List (Nat × Bool)} {nschan : List Nat} {a b : Nat} (hb : Block ws a b) (hlen : b ≤ nschan.length)
    (h16 : ∀ k, Kept ws k = true → k ≤ 16 ∨ nschan.length < k) (chans : List α) :
    wantedChans ws nschan chans = (chans.drop (nschan.take (a - 1)).sum).take ((nschan.take b).sum - (nschan.take (a - 1)).sum) := by
  classical
  unfold wantedChans
  have h2 := hb.2.1
  have hf := filter_between chans (nschan.take (a - 1)).sum (nschan.take b).sum 0 (take_sum_mono nschan (by omega))
  rw [Nat.sub_zero, Nat.max_eq_left (Nat.zero_le _)] at hf
  rw [← hf]
  congr 1
  refine List.filter_congr ?_
  intro x _
  rw [decide_eq_decide]
  exact in_block hb hlen h16 x.2

theorem block_sum {nschan : List Nat} {a b : Nat} (h1 : 1 ≤ a) (h2 : a ≤ b) :
    (nschan.take (a - 1)).sum + ((nschan.drop (a - 1)).take (b - a + 1)).sum = (nschan.take b).sum := by
  obtain ⟨n, hn⟩ : ∃ n, n = b - a + 1 := ⟨_, rfl⟩
  have e : b = (a - 1) + n := by omega
  rw [← hn]
  conv_rhs => rw [e]
  rw [List.take_add, List.sum_append]

/-! ## Theorems -/

section
variable {α : Type}

/-- **C132**: if the windows chosen are a contiguous block of windows that the file has (at most sixteen), a read puts their channels, in order,
at the beginning of the arrays, says how many they are, and leaves the rest of the arrays as it was. -/
theorem c132_read_partial (pre : List Call) (ws : List (Nat × Bool)) (post : List Call) (hpre : ∀ c ∈ pre, Plain c) (hpost : ∀ c ∈ post, Plain c)
    (hws : ∀ c ∈ ws, 1 ≤ c.1 ∧ c.1 ≤ 16) (hne : ws ≠ []) {a b : Nat} (hb : Block ws a b) (nschan : List Nat) (hlen : b ≤ nschan.length)
    (h16 : nschan.length ≤ 16) (chans mem : List α) (hsum : nschan.sum = chans.length) (hmem : chans.length ≤ mem.length)
    (hsome : wantedChans ws nschan chans ≠ []) :
    ∃ sel, selectAll [] (callsOf pre ws post) = some sel ∧
      read sel (some nschan) chans mem =
        .ok (wantedChans ws nschan chans ++ mem.drop (wantedChans ws nschan chans).length) (wantedChans ws nschan chans).length := by
  obtain ⟨sel, w, s1, s2, s3, s4⟩ := selectAll_ok pre ws post hpre hpost hws hne
  refine ⟨sel, s1, ?_⟩
  obtain ⟨f1, f2, f3⟩ := made_block s4 hb
  have hk16 : ∀ k, Kept ws k = true → k ≤ 16 ∨ nschan.length < k := by intro k _; omega
  have hw := wanted_block hb hlen hk16 chans
  obtain ⟨b1, b2, b3, b4⟩ := hb
  have hs := block_sum (nschan := nschan) b1 b2
  have htot : (nschan.take b).sum ≤ chans.length := by
    rw [← hsum]
    have := take_sum_mono nschan (i := b) (j := nschan.length) hlen
    rwa [List.take_length] at this
  have hcount : ((nschan.drop (a - 1)).take (b - a + 1)).sum = (nschan.take b).sum - (nschan.take (a - 1)).sum := by omega
  rw [← hcount] at hw
  have hlen2 : (wantedChans ws nschan chans).length = ((nschan.drop (a - 1)).take (b - a + 1)).sum := by
    rw [hw, List.length_take, List.length_drop]
    omega
  have hpos : ((nschan.drop (a - 1)).take (b - a + 1)).sum ≠ 0 := by
    intro h0
    rw [h0] at hlen2
    exact hsome (List.length_eq_zero_iff.1 hlen2)
  have hinit : initOk sel = true := (initOk_iff s2 s3).2 (by omega)
  unfold read
  rw [s3]
  simp only [hinit, if_true]
  unfold lineOf
  simp only [f1, f2, f3]
  rw [if_neg (by omega), if_neg (by omega)]
  simp only
  rw [if_neg (by omega), hlen2, ← hw]

/-- **C132**: in all other cases reading is a fatal error: there is a gap between the windows chosen, none is chosen, the file does not have
the last one, or the file does not say how many channels its windows have. -/
theorem c132_refused (pre : List Call) (ws : List (Nat × Bool)) (post : List Call) (hpre : ∀ c ∈ pre, Plain c) (hpost : ∀ c ∈ post, Plain c)
    (hws : ∀ c ∈ ws, 1 ≤ c.1 ∧ c.1 ≤ 16) (hne : ws ≠ []) (nschan : Option (List Nat))
    (hbad : ∀ l a b, nschan = some l → Block ws a b → l.length < b) (chans mem : List α) :
    ∃ sel, selectAll [] (callsOf pre ws post) = some sel ∧ read sel nschan chans mem = .fatal := by
  obtain ⟨sel, w, s1, s2, s3, s4⟩ := selectAll_ok pre ws post hpre hpost hws hne
  refine ⟨sel, s1, ?_⟩
  unfold read
  rw [s3]
  cases nschan with
  | none => rfl
  | some l =>
    simp only
    by_cases hi : initOk sel = true
    · obtain ⟨a, b, hb, h1, h2, h3⟩ := (gap_iff s4).1 ((initOk_iff s2 s3).1 hi)
      have := hbad l a b rfl hb
      have hb1 := hb.1
      have hb2 := hb.2.1
      rw [if_pos hi]
      unfold lineOf
      simp only
      rw [if_pos (by omega)]
    · rw [if_neg hi]

/-- **C132, disagreement**: channels of other windows are "flagged as bad, but returned anyway" (uvio.c 2273-2276): with two windows of two
channels, the second one selected, the channels of the second window are returned in the place of those of the first, followed by what the
arrays happened to hold. -/
theorem c132_place_violated (c0 c1 c2 c3 m0 m1 m2 m3 : α) : ∃ sel, selectAll [] [.window 2 true] = some sel ∧
    read sel (some [2, 2]) [c0, c1, c2, c3] [m0, m1, m2, m3] = .ok [c2, c3, m2, m3] 2 := ⟨_, rfl, rfl⟩

theorem kept_single (i k : Nat) (b : Bool) : Kept [(i, b)] k = if i = k then b else !b := by
  have := kept_snoc [] (i, b) k
  simpa using this

/-- **C132, disagreement**: discarding one window of a file with fewer than fifteen windows is a fatal error when it is read. -/
theorem c132_exclude_violated (i : Nat) (h1 : 1 ≤ i) (h2 : i ≤ 16) (nschan : List Nat) (hlen : nschan.length < 15) (chans mem : List α) :
    ∃ sel, selectAll [] [.window i false] = some sel ∧ read sel (some nschan) chans mem = .fatal := by
  have := c132_refused (α := α) [] [(i, false)] [] (by simp) (by simp) (by simpa using ⟨h1, h2⟩) (by simp) (some nschan) (by
    intro l a b hl hb
    rw [Option.some.injEq] at hl
    subst hl
    obtain ⟨b1, b2, b3, b4⟩ := hb
    by_cases hi : i = 16
    · have := (b4 15 (by omega) (by omega)).1 (by rw [kept_single, if_neg (by omega)]; rfl)
      omega
    · have := (b4 16 (by omega) (by omega)).1 (by rw [kept_single, if_neg (by omega)]; rfl)
      omega) chans mem
  exact this

/-- **C132, disagreement**: two windows with another one between them are a fatal error. -/
theorem c132_gap_violated (i j : Nat) (h1 : 1 ≤ i) (h2 : i + 1 < j) (h3 : j ≤ 16) (nschan : List Nat) (chans mem : List α) :
    ∃ sel, selectAll [] [.window i true, .window j true] = some sel ∧ read sel (some nschan) chans mem = .fatal := by
  have hk : ∀ k, Kept [(i, true), (j, true)] k = if j = k then true else if i = k then true else false := by
    intro k
    have := kept_snoc [(i, true)] (j, true) k
    rw [kept_single] at this
    simpa using this
  have := c132_refused (α := α) [] [(i, true), (j, true)] [] (by simp) (by simp) (by
    intro c hc
    simp only [List.mem_cons, List.not_mem_nil, or_false] at hc
    rcases hc with rfl | rfl
    · exact ⟨h1, by omega⟩
    · exact ⟨by omega, h3⟩) (by simp) (some nschan) (by
    intro l a b _ hb
    exfalso
    obtain ⟨b1, b2, b3, b4⟩ := hb
    have k1 := (b4 i (by omega) (by omega)).1 (by rw [hk]; simp)
    have k2 := (b4 j (by omega) (by omega)).1 (by rw [hk]; simp)
    have k3 := (b4 (i + 1) (by omega) (by omega)).2 (by omega)
    rw [hk, if_neg (by omega), if_neg (by omega)] at k3
    simp at k3) chans mem
  exact this

/-- **C132, disagreement**: selecting a window after an `or` is a fatal error. -/
theorem c132_or_violated (i : Nat) (h1 : 1 ≤ i) (h2 : i ≤ 16) (nschan : List Nat) (chans mem : List α) :
    ∃ sel, selectAll [] [.other, .disj, .window i true] = some sel ∧ read sel (some nschan) chans mem = .fatal := by
  obtain ⟨w, w1, w2⟩ := setWin_made [] none (Or.inl ⟨rfl, rfl⟩) (i, true) h1 h2
  refine ⟨[⟨true, none⟩, ⟨false, some w⟩], ?_, ?_⟩
  · show (onLast (setWin i true) [⟨true, none⟩, ⟨false, none⟩]).bind some = _
    unfold onLast onLast
    simp only [w1]
    rfl
  · have hi : initOk [⟨true, none⟩, ⟨false, some w⟩] = false := by
      unfold initOk windows
      simp
    unfold read
    have hw : windows [⟨true, none⟩, ⟨false, some w⟩] = [w] := rfl
    rw [hw]
    simp only [hi]
    rfl

end

/-! ## Example -/

/-- the second and the third of four windows -/
example : ∃ sel, selectAll [] (callsOf [.other] [(2, true), (3, true)] [.conj, .other]) = some sel ∧
    read sel (some [1, 2, 1, 1]) ["a", "b", "c", "d", "e"] ["-", "-", "-", "-", "-"] = .ok ["b", "c", "d", "-", "-"] 3 := ⟨_, rfl, rfl⟩

/-- the hypotheses can be met -/
example : Block [(2, true), (3, true)] 2 3 := by
  refine ⟨by omega, by omega, by omega, ?_⟩
  intro k h1 h2
  have hall : ∀ k : Fin 17, 1 ≤ k.val → (Kept [(2, true), (3, true)] k.val = true ↔ 2 ≤ k.val ∧ k.val ≤ 3) := by decide
  exact hall ⟨k, by omega⟩ h1

example : wantedChans [(2, true)] [2, 2] ["a", "b", "c", "d"] = ["c", "d"] := by
  rw [wanted_block (a := 2) (b := 2) ?_ (by decide) ?_]
  · rfl
  · refine ⟨by omega, by omega, by omega, ?_⟩
    intro k h1 h2
    rw [kept_single]
    by_cases h : 2 = k
    · simp [h]
    · simp [h]; omega
  · intro k hk
    rw [kept_single] at hk
    left
    by_contra h
    rw [if_neg (by omega)] at hk
    simp at hk

end Verif.Mir.Windows
