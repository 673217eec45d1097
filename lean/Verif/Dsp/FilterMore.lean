import Verif.Dsp.FilterC90
/-!
# Property C90 : flags, delay rates, and where the script raises
-/
noncomputable section
namespace Verif.Dsp
open Verif.Util Verif.Deconv Finset

/-! ## Kept and removed add up -/

/-- three lists of the same length, related place by place -/
def Zip3 {α : Type} (R : α → α → α → Prop) : List α → List α → List α → Prop
  | [], [], [] => True
  | a :: l, b :: m, c :: k => R a b c ∧ Zip3 R l m k
  | _, _, _ => False

theorem pass1_extract {n : Nat} (e : Env n) (b : Bool) : ∀ (recs : List (FRec n)) (s : Tab n × Bool),
    pass1 { e with extract := b } s recs = pass1 e s recs
  | [], _ => rfl
  | r :: rs, s => by
    simp only [pass1]
    have h : delayRow { e with extract := b } r = delayRow e r := rfl
    rw [h]
    split
    · cases delayRow e r with
      | error x => rfl
      | ok d => exact pass1_extract e b rs _
    · exact pass1_extract e b rs s

theorem filterTab_extract {n : Nat} (e : Env n) (b up : Bool) : ∀ (tab : Tab n), filterTab { e with extract := b } up tab = filterTab e up tab
  | [] => rfl
  | (k, rows) :: tab => by
    simp only [filterTab]
    have h : filterRows { e with extract := b } up k rows = filterRows e up k rows := rfl
    rw [h, filterTab_extract e b up tab]

/-- kept and removed data of a record -/
structure AddsUp {n : Nat} (r re rf : FRec n) : Prop where
  kept : SameHead r re
  left : SameHead r rf
  auto : r.i = r.j → re = r ∧ rf = r
  sum : r.i ≠ r.j → ∀ x, r.flags x = false → re.data x + rf.data x = r.data x
  flagged : ∀ x, r.flags x = true → rf.data x = r.data x

theorem emit_adds {n : Nat} (e : Env n) (r : FRec n) (row : Row n) (hij : r.i ≠ r.j) :
    AddsUp r (emit { e with extract := true } r row) (emit { e with extract := false } r row) := by
  refine ⟨emit_head _ _ _, emit_head _ _ _, fun h => absurd h hij, ?_, ?_⟩
  · intro _ x hx
    unfold emit
    simp only [if_true, Bool.false_eq_true, if_false, hx]
    have : ({ e with extract := true } : Env n).of r = ({ e with extract := false } : Env n).of r := rfl
    rw [this]
    ring
  · intro x hx
    unfold emit
    simp [hx]

theorem pass2_extract {n : Nat} (e : Env n) (tab : Tab n) : ∀ (recs : List (FRec n)) (cnt : List (Key × Nat)),
    (∃ re rf, pass2 { e with extract := true } tab cnt recs = .ok re ∧ pass2 { e with extract := false } tab cnt recs = .ok rf ∧
      Zip3 AddsUp recs re rf) ∨
    (∃ x, pass2 { e with extract := true } tab cnt recs = .error x ∧ pass2 { e with extract := false } tab cnt recs = .error x)
  | [], _ => .inl ⟨[], [], rfl, rfl, trivial⟩
  | r :: rs, cnt => by
    by_cases hij : r.i = r.j
    · rcases pass2_extract e tab rs cnt with ⟨re, rf, h1, h2, h3⟩ | ⟨x, h1, h2⟩
      · exact .inl ⟨r :: re, r :: rf, by simp only [pass2, hij, if_true, h1, bind, Except.bind], by simp only [pass2, hij, if_true, h2, bind, Except.bind],
          ⟨⟨rfl, ⟨rfl, rfl⟩, rfl, rfl⟩, ⟨rfl, ⟨rfl, rfl⟩, rfl, rfl⟩, fun _ => ⟨rfl, rfl⟩, fun h => absurd hij h, fun _ _ => rfl⟩, h3⟩
      · exact .inr ⟨x, by simp only [pass2, hij, if_true, h1, bind, Except.bind], by simp only [pass2, hij, if_true, h2, bind, Except.bind]⟩
    · cases h1 : dget r.key tab with
      | none => exact .inr ⟨.key, by simp only [pass2, hij, if_false, h1], by simp only [pass2, hij, if_false, h1]⟩
      | some rows =>
        cases h2 : dget r.key cnt with
        | none => exact .inr ⟨.key, by simp only [pass2, hij, if_false, h1, h2], by simp only [pass2, hij, if_false, h1, h2]⟩
        | some c =>
          cases h3 : rows[c]? with
          | none => exact .inr ⟨.index, by simp only [pass2, hij, if_false, h1, h2, h3], by simp only [pass2, hij, if_false, h1, h2, h3]⟩
          | some row =>
            rcases pass2_extract e tab rs (dset r.key (c + 1) cnt) with ⟨re, rf, q1, q2, q3⟩ | ⟨x, q1, q2⟩
            · exact .inl ⟨_ :: re, _ :: rf, by simp only [pass2, hij, if_false, h1, h2, h3, q1, bind, Except.bind],
                by simp only [pass2, hij, if_false, h1, h2, h3, q2, bind, Except.bind], emit_adds e r row hij, q3⟩
            · exact .inr ⟨x, by simp only [pass2, hij, if_false, h1, h2, h3, q1, bind, Except.bind],
                by simp only [pass2, hij, if_false, h1, h2, h3, q2, bind, Except.bind]⟩

/-- C90: with any options, flags and data, what the script extracts and what it leaves without `-e` add up to the data in all
channels that are not flagged; flagged channels stay as they are without `-e`.  If one of the runs raises, so does the other. -/
theorem c90_sum {n : Nat} (e : Env n) (recs : List (FRec n)) :
    (∃ re rf, filterFile { e with extract := true } recs = .ok re ∧ filterFile { e with extract := false } recs = .ok rf ∧
      Zip3 AddsUp recs re rf) ∨
    (∃ x, filterFile { e with extract := true } recs = .error x ∧ filterFile { e with extract := false } recs = .error x) := by
  simp only [filterFile, pass1_extract]
  cases h1 : pass1 e ([], false) recs with
  | error x => exact .inr ⟨x, rfl, rfl⟩
  | ok s =>
    simp only [bind, Except.bind, filterTab_extract]
    cases h2 : filterTab e s.2 s.1 with
    | error x => exact .inr ⟨x, rfl, rfl⟩
    | ok tab => exact pass2_extract e tab recs _

/-! ## What is under the flags does not matter -/

/-- the same record but for the flagged data of a cross-correlation -/
structure SameClear {n : Nat} (r r' : FRec n) : Prop where
  head : SameHead r r'
  data : ∀ x, r.flags x = false → r'.data x = r.data x

theorem delayRow_clear {n : Nat} (e : Env n) {r r' : FRec n} (h : SameClear r r') : delayRow e r' = delayRow e r := by
  have ho : e.of r' = e.of r := by
    unfold Env.of
    rw [h.head.time, h.head.ants.1, h.head.ants.2, h.head.pol]
  have h0 : (fun x => if r'.flags x then (0 : ℂ) else r'.data x) = fun x => if r.flags x then (0 : ℂ) else r.data x := by
    funext x
    rw [h.head.flags]
    cases hx : r.flags x
    · simp [h.data x hx]
    · rfl
  have h2 : ∀ ph : Row n, (fun x => if r'.flags x then (0 : ℂ) else r'.data x * ph x) = fun x => if r.flags x then (0 : ℂ) else r.data x * ph x := by
    intro ph
    funext x
    rw [h.head.flags]
    cases hx : r.flags x
    · simp [h.data x hx]
    · rfl
  rw [h.head.flags] at h0
  simp only [h.head.flags] at h2
  unfold delayRow
  simp only [ho, h0, h2, h.head.flags]

theorem key_clear {n : Nat} {r r' : FRec n} (h : SameHead r r') : r'.key = r.key := by
  unfold FRec.key
  rw [h.pol, h.ants.1, h.ants.2]

theorem pass1_clear {n : Nat} (e : Env n) : ∀ {recs recs' : List (FRec n)}, List.Forall₂ SameClear recs recs' →
    ∀ s : Tab n × Bool, pass1 e s recs' = pass1 e s recs
  | _, _, .nil, _ => rfl
  | r :: rs, r' :: rs', .cons h hs, s => by
    have ho : e.of r' = e.of r := by
      unfold Env.of
      rw [h.head.time, h.head.ants.1, h.head.ants.2, h.head.pol]
    simp only [pass1, h.head.pol, h.head.ants.1, h.head.ants.2, delayRow_clear e h, key_clear h.head, ho, pass1_clear e hs]

theorem emit_clear {n : Nat} (e : Env n) {r r' : FRec n} (h : SameClear r r') (row : Row n) (x : Fin (n + 1))
    (hx : e.extract = true ∨ r.flags x = false) : (emit e r' row).data x = (emit e r row).data x := by
  have ho : e.of r' = e.of r := by
    unfold Env.of
    rw [h.head.time, h.head.ants.1, h.head.ants.2, h.head.pol]
  unfold emit
  rw [ho, h.head.flags]
  cases he : e.extract
  · rw [he] at hx
    have hx := hx.resolve_left (by simp)
    simp [hx, h.data x hx]
  · simp

theorem pass2_clear {n : Nat} (e : Env n) (tab : Tab n) : ∀ {recs recs' : List (FRec n)}, List.Forall₂ SameClear recs recs' →
    ∀ (cnt : List (Key × Nat)) (out : List (FRec n)), pass2 e tab cnt recs = .ok out → ∃ out', pass2 e tab cnt recs' = .ok out' ∧
      List.Forall₂ (fun a b => SameHead a b ∧ ∀ x, (e.extract = true ∧ a.i ≠ a.j) ∨ a.flags x = false → b.data x = a.data x) out out'
  | _, _, .nil, _, out, h => by
    cases h
    exact ⟨[], rfl, .nil⟩
  | r :: rs, r' :: rs', .cons h hs, cnt, out, ho => by
    by_cases hij : r.i = r.j
    · have hij' : r'.i = r'.j := by rw [h.head.ants.1, h.head.ants.2, hij]
      simp only [pass2, hij, if_true, bind, Except.bind] at ho
      cases hq : pass2 e tab cnt rs with
      | error x => rw [hq] at ho; cases ho
      | ok o =>
        rw [hq] at ho
        cases ho
        obtain ⟨o', q1, q2⟩ := pass2_clear e tab hs cnt o hq
        exact ⟨r' :: o', by simp only [pass2, hij', if_true, q1, bind, Except.bind],
          .cons ⟨h.head, fun x hx => h.data x (hx.resolve_left fun y => y.2 hij)⟩ q2⟩
    · have hij' : ¬r'.i = r'.j := by rw [h.head.ants.1, h.head.ants.2]; exact hij
      simp only [pass2, hij, if_false] at ho
      cases h1 : dget r.key tab with
      | none => rw [h1] at ho; cases ho
      | some rows =>
        cases h2 : dget r.key cnt with
        | none => rw [h1, h2] at ho; cases ho
        | some c =>
          rw [h1, h2] at ho
          simp only at ho
          cases h3 : rows[c]? with
          | none => rw [h3] at ho; cases ho
          | some row =>
            rw [h3] at ho
            simp only [bind, Except.bind] at ho
            cases hq : pass2 e tab (dset r.key (c + 1) cnt) rs with
            | error x => rw [hq] at ho; cases ho
            | ok o =>
              rw [hq] at ho
              cases ho
              obtain ⟨o', q1, q2⟩ := pass2_clear e tab hs _ o hq
              have hh := emit_head e r row
              have hh' := emit_head e r' row
              refine ⟨emit e r' row :: o', by simp only [pass2, hij', if_false, key_clear h.head, h1, h2, h3, q1, bind, Except.bind], .cons ⟨?_, ?_⟩ q2⟩
              · exact ⟨by rw [hh'.time, hh.time, h.head.time], ⟨by rw [hh'.ants.1, hh.ants.1, h.head.ants.1], by rw [hh'.ants.2, hh.ants.2, h.head.ants.2]⟩,
                  by rw [hh'.pol, hh.pol, h.head.pol], by rw [hh'.flags, hh.flags, h.head.flags]⟩
              · intro x hx
                apply emit_clear e h row x
                rcases hx with hx | hx
                · exact .inl hx.1
                · exact .inr (by rw [← hh.flags]; exact hx)

/-- C90: what stands under the flags has no influence: two files that differ only there give the same results in the channels
that are not flagged, and the same extracted cross-correlations everywhere. -/
theorem c90_flagged {n : Nat} (e : Env n) (recs recs' out : List (FRec n)) (h : List.Forall₂ SameClear recs recs')
    (ho : filterFile e recs = .ok out) : ∃ out', filterFile e recs' = .ok out' ∧
      List.Forall₂ (fun a b => SameHead a b ∧ ∀ x, (e.extract = true ∧ a.i ≠ a.j) ∨ a.flags x = false → b.data x = a.data x) out out' := by
  simp only [filterFile, pass1_clear e h] at ho ⊢
  cases h1 : pass1 e ([], false) recs with
  | error x => rw [h1] at ho; cases ho
  | ok s =>
    rw [h1] at ho
    simp only [bind, Except.bind] at ho ⊢
    cases h2 : filterTab e s.2 s.1 with
    | error x => rw [h2] at ho; cases ho
    | ok tab =>
      rw [h2] at ho
      exact pass2_clear e tab h _ out ho

/-! ## Delay rates -/

theorem forAll_ok {m : Nat} {α : Type} (f : Fin (m + 1) → Except FErr α) (g : Fin (m + 1) → α) (h : ∀ k, f k = .ok (g k)) :
    forAll f = .ok g := by
  have key : ∀ l : List (Fin (m + 1)), l.mapM f = (.ok (l.map g) : Except FErr (List α)) := by
    intro l
    induction l with
    | nil => rfl
    | cons a l ih => rw [List.mapM_cons, h a, ih]; rfl
  unfold forAll
  rw [key]
  simp only [List.length_map, List.length_finRange]
  rw [dif_pos trivial]
  congr 1
  funext k
  simp

theorem rateCol_full {m : Nat} (drw : Int) (tol : ℝ) (zeroth col : Row m) (h : ∀ t, zeroth t ≠ 0) :
    rateCol drw tol zeroth col = .ok (fft (zeroSlice drw (if -drw + 1 = 0 then (m : Int) + 1 else -drw + 1) (ifft col))) := by
  unfold rateCol
  simp only
  rw [clean_ones _ _ _ (fun t => if_pos (h t))]

/-- a series that does not change -/
theorem zeroSlice_steady {m : Nat} {drw : Int} (h : 1 ≤ drw) (z : ℂ) :
    fft (zeroSlice drw (if -drw + 1 = 0 then (m : Int) + 1 else -drw + 1) (ifft fun _ : Fin (m + 1) => z)) = fun _ => z := by
  have hz : ∀ k : Fin (m + 1), k ≠ 0 → ifft (fun _ : Fin (m + 1) => z) k = 0 := by
    intro k hk
    have h1 := ifft_ones k
    rw [if_neg hk] at h1
    have : ifft (fun _ : Fin (m + 1) => z) k = z * ifft (fun _ : Fin (m + 1) => (1 : ℂ)) k := by
      unfold ifft
      rw [mul_div_assoc', Finset.mul_sum]
      simp
    rw [this, h1, mul_zero]
  have : zeroSlice drw (if -drw + 1 = 0 then (m : Int) + 1 else -drw + 1) (ifft fun _ : Fin (m + 1) => z) = ifft fun _ : Fin (m + 1) => z := by
    funext k
    unfold zeroSlice
    by_cases hk : k = 0
    · subst hk
      rw [if_neg]
      simp only [Fin.val_zero, not_and, not_lt]
      intro hb
      exfalso
      unfold bound at hb
      split at hb <;> omega
    · rw [hz k hk, ite_self]
  rw [this, fft_ifft]

theorem zeroSlice_rate0 {m : Nat} (z : ℂ) :
    fft (zeroSlice 0 (if -(0 : Int) + 1 = 0 then (m : Int) + 1 else -0 + 1) (ifft fun _ : Fin (m + 1) => z)) = fun _ => 0 := by
  have hz : ∀ k : Fin (m + 1), k ≠ 0 → ifft (fun _ : Fin (m + 1) => z) k = 0 := by
    intro k hk
    have h1 := ifft_ones k
    rw [if_neg hk] at h1
    have : ifft (fun _ : Fin (m + 1) => z) k = z * ifft (fun _ : Fin (m + 1) => (1 : ℂ)) k := by
      unfold ifft
      rw [mul_div_assoc', Finset.mul_sum]
      simp
    rw [this, h1, mul_zero]
  have : zeroSlice 0 (if -(0 : Int) + 1 = 0 then (m : Int) + 1 else -0 + 1) (ifft fun _ : Fin (m + 1) => z) = (0 : Row m) := by
    funext k
    unfold zeroSlice
    by_cases hk : k = 0
    · subst hk
      rw [if_pos]
      · rfl
      · simp [bound]
    · rw [hz k hk, ite_self]; rfl
  rw [this, fft_zero]
  rfl

theorem rateRows_steady {n : Nat} (drw : Int) (tol : ℝ) (row : Row n) (h0 : row 0 ≠ 0) (g : ℂ → ℂ) (k : Nat)
    (hg : ∀ z, fft (zeroSlice drw (if -drw + 1 = 0 then (k : Int) + 1 else -drw + 1) (ifft fun _ : Fin (k + 1) => z)) = fun _ => g z) :
    rateRows drw tol (List.replicate (k + 1) row) = .ok (List.replicate (k + 1) fun c => g (row c)) := by
  rw [List.replicate_succ]
  unfold rateRows
  simp only
  have hrow : ∀ t : Fin ((List.replicate k row).length + 1), (row :: List.replicate k row)[t.val] = row := by
    intro t
    have : row :: List.replicate k row = List.replicate (k + 1) row := rfl
    simp only [this, List.getElem_replicate]
  have hk : (List.replicate k row).length = k := by simp
  rw [forAll_ok _ (fun (c : Fin (n + 1)) (_ : Fin ((List.replicate k row).length + 1)) => g (row c))]
  · simp only
    congr 1
    rw [List.ofFn_const, hk]
  · intro c
    simp only [hrow]
    rw [rateCol_full _ _ _ _ (fun _ => h0)]
    congr 1
    have := hg (row c)
    rw [← hk] at this
    exact this

theorem padRows_replicate {α : Type} (p k : Nat) (x : α) (h : p ≤ k) : padRows p (List.replicate k x) = List.replicate (p + k + p) x := by
  unfold padRows
  simp only [List.take_replicate, List.drop_replicate, List.reverse_replicate, List.length_replicate, List.replicate_append_replicate]
  congr 1
  omega

theorem filterRows_steady {n : Nat} {e : Env n} (hdr : e.drw ≠ -1) (hdw : 0 ≤ e.dw) (hpad : ∀ l, 0 < l → 1 ≤ e.padlen l ∧ e.padlen l ≤ l)
    (k : Key) (row : Row n) (h0 : row 0 ≠ 0) (g : ℂ → ℂ)
    (hg : ∀ (m : Nat) z, fft (zeroSlice e.drw (if -e.drw + 1 = 0 then (m : Int) + 1 else -e.drw + 1) (ifft fun _ : Fin (m + 1) => z)) = fun _ => g z)
    (l : Nat) (hl : 0 < l) :
    filterRows e true k (List.replicate l row) = .ok (List.replicate l (fft (inside e.dw fun c => g (row c)))) := by
  obtain ⟨p1, p2⟩ := hpad l hl
  have hs : delaySlice e k = .ok (e.dw, if -e.dw = 0 then (n : Int) + 1 else -e.dw) := by
    unfold delaySlice
    rw [if_pos (by omega)]
  have hr : rateRows e.drw e.tol (List.replicate (e.padlen l + l + e.padlen l) row) =
      .ok (List.replicate (e.padlen l + l + e.padlen l) fun c => g (row c)) := by
    obtain ⟨q, hq⟩ : ∃ q, e.padlen l + l + e.padlen l = q + 1 := ⟨e.padlen l + l + e.padlen l - 1, by omega⟩
    rw [hq]
    exact rateRows_steady _ _ row h0 g q (hg q)
  simp only [filterRows, bind, Except.bind, Bool.true_eq_false, if_false, List.length_replicate, padRows_replicate _ _ _ p2, hdr, ne_eq,
    not_false_eq_true, if_true, hr, hs, List.map_replicate, zeroSlice_window hdw]
  unfold unpad
  rw [if_neg (by omega)]
  simp only [List.take_replicate, List.drop_replicate, List.length_replicate]
  congr 2
  omega

theorem rowsOf_steady {n : Nat} (e : Env n) (k : Key) (recs : List (FRec n)) (row : Row n)
    (h : ∀ r ∈ recs, r.i ≠ r.j → r.key = k → rowOf e r = row) : rowsOf e k recs = List.replicate (countOf k recs) row := by
  unfold rowsOf countOf
  rw [List.eq_replicate_iff]
  refine ⟨by simp, ?_⟩
  intro x hx
  obtain ⟨r, hr, rfl⟩ := List.mem_map.1 hx
  rw [List.mem_filter] at hr
  have := of_decide_eq_true hr.2
  exact h r hr.1 this.1 this.2

/-- the common part of the next two theorems: `g` is what the delay-rate filter makes of a constant -/
theorem file_steady {n : Nat} (e : Env n) (recs : List (FRec n)) (hw : Works e recs) (hdr : e.drw ≠ -1) (hdw : 0 ≤ e.dw)
    (g : ℂ → ℂ)
    (hg : ∀ (m : Nat) z, fft (zeroSlice e.drw (if -e.drw + 1 = 0 then (m : Int) + 1 else -e.drw + 1) (ifft fun _ : Fin (m + 1) => z)) = fun _ => g z)
    (a : Key → Fin (n + 1) → ℂ) (h0 : ∀ k, a k 0 ≠ 0)
    (hs : ∀ r ∈ recs, r.i ≠ r.j → (∀ x, r.flags x = false) ∧ e.sight r.time r.i r.j r.pol ≠ .down ∧ seen e r r.data = tones (a r.key)) :
    ∃ out, filterFile e recs = .ok out ∧ List.Forall₂ (fun r r' => SameHead r r' ∧ (r.i = r.j → r' = r) ∧
      (r.i ≠ r.j → seen e r r'.data = if e.extract then tones (inside e.dw fun c => g (a r.key c)) else
        tones (a r.key) - tones (inside e.dw fun c => g (a r.key c)))) recs out := by
  have hrow : ∀ k, ∀ r ∈ recs, r.i ≠ r.j → r.key = k → rowOf e r = a k := by
    intro k r hr hij hk
    obtain ⟨q1, q2, q3⟩ := hs r hr hij
    rw [rowOf_clear hw.pass r q1 q2, q3, ← fft_tones, ifft_fft, hk]
  have hup : ∀ k, rowsOf e k recs ≠ [] → anyUp e recs = true := by
    intro k hne
    unfold rowsOf at hne
    rw [Ne, List.map_eq_nil_iff, List.filter_eq_nil_iff] at hne
    push Not at hne
    obtain ⟨r, hr, hx⟩ := hne
    have hx := of_decide_eq_true hx
    exact up_any hr hx.1 (hs r hr hx.1).2.1
  apply file_ok hw (fun k rows => List.replicate rows.length (fft (inside e.dw fun c => g (a k c))))
  · intro k hne
    rw [hup k hne]
    have hc : 0 < countOf k recs := by
      have := List.length_pos_iff.2 hne
      simpa [rowsOf, countOf] using this
    rw [rowsOf_steady e k recs (a k) (hrow k), filterRows_steady hdr hdw hw.pad k (a k) (h0 k) g hg _ hc, List.length_replicate]
  · intro r _ hij
    exact ⟨⟨rfl, ⟨rfl, rfl⟩, rfl, rfl⟩, fun _ => rfl, fun h => absurd hij h⟩
  · intro pre r suf hsp hij
    have hat := rowsOf_at e pre r suf hij
    rw [← hsp] at hat
    have hlt : countOf r.key pre < (rowsOf e r.key recs).length := by
      by_contra hcon
      rw [List.getElem?_eq_none (by omega)] at hat
      cases hat
    have hr : r ∈ recs := by rw [hsp]; simp
    obtain ⟨q1, q2, q3⟩ := hs r hr hij
    refine ⟨fft (inside e.dw fun c => g (a r.key c)), by simp [hlt], emit_head e r _, fun h => absurd h hij, fun _ => ?_⟩
    rw [seen_emit hw.phs q1 q2, q3, fft_tones]

/-- C90: what does not change with time (as seen from the source) passes the delay-rate filter of any width: with `-r` 1 or more
the result is that of the delay filter alone. -/
theorem c90_steady {n : Nat} (e : Env n) (recs : List (FRec n)) (hw : Works e recs) (hdr : 1 ≤ e.drw) (hdw : 0 ≤ e.dw)
    (a : Key → Fin (n + 1) → ℂ) (h0 : ∀ k, a k 0 ≠ 0)
    (hs : ∀ r ∈ recs, r.i ≠ r.j → (∀ x, r.flags x = false) ∧ e.sight r.time r.i r.j r.pol ≠ .down ∧ seen e r r.data = tones (a r.key)) :
    ∃ out, filterFile e recs = .ok out ∧ List.Forall₂ (fun r r' => SameHead r r' ∧ (r.i = r.j → r' = r) ∧
      (r.i ≠ r.j → seen e r r'.data = tones (if e.extract then inside e.dw (a r.key) else outside e.dw (a r.key)))) recs out := by
  obtain ⟨out, h1, h2⟩ := file_steady e recs hw (by omega) hdw id (fun m z => zeroSlice_steady hdr z) a h0 hs
  refine ⟨out, h1, h2.imp fun r r' h => ⟨h.1, h.2.1, fun hij => ?_⟩⟩
  rw [h.2.2 hij]
  cases e.extract
  · simp only [Bool.false_eq_true, if_false, id]
    rw [← fft_tones, ← fft_tones, ← fft_sub, inside_add_outside, fft_tones]
  · rfl

/-- C90: `-r 0` is not the narrowest filter but the opposite: what does not change with time is not extracted at all -/
theorem c90_rate0 {n : Nat} (e : Env n) (recs : List (FRec n)) (hw : Works e recs) (hdr : e.drw = 0) (hdw : 0 ≤ e.dw)
    (a : Key → Fin (n + 1) → ℂ) (h0 : ∀ k, a k 0 ≠ 0) (hx : e.extract = true)
    (hs : ∀ r ∈ recs, r.i ≠ r.j → (∀ x, r.flags x = false) ∧ e.sight r.time r.i r.j r.pol ≠ .down ∧ seen e r r.data = tones (a r.key)) :
    ∃ out, filterFile e recs = .ok out ∧ List.Forall₂ (fun r r' => SameHead r r' ∧ (r.i = r.j → r' = r) ∧
      (r.i ≠ r.j → seen e r r'.data = 0)) recs out := by
  obtain ⟨out, h1, h2⟩ := file_steady e recs hw (by omega) hdw (fun _ => 0) (fun m z => by rw [hdr]; exact zeroSlice_rate0 z) a h0 hs
  refine ⟨out, h1, h2.imp fun r r' h => ⟨h.1, h.2.1, fun hij => ?_⟩⟩
  rw [h.2.2 hij, hx, if_pos rfl]
  have : (inside e.dw fun _ : Fin (n + 1) => (0 : ℂ)) = 0 := by
    funext k; unfold inside; simp
  rw [this, tones_zero]

/-! ## Where the script raises -/

theorem pass2_needs {n : Nat} (e : Env n) (tab : Tab n) : ∀ (recs : List (FRec n)) (cnt : List (Key × Nat)) (out : List (FRec n)),
    pass2 e tab cnt recs = .ok out → ∀ r ∈ recs, r.i ≠ r.j → (dget r.key tab).isSome = true
  | [], _, _, _, _, h => by cases h
  | x :: xs, cnt, out, ho, r, hr => by
    intro hij
    by_cases hx : x.i = x.j
    · have hne : r ≠ x := fun h => hij (by rw [h, hx])
      simp only [pass2, hx, if_true, bind, Except.bind] at ho
      cases hq : pass2 e tab cnt xs with
      | error y => rw [hq] at ho; cases ho
      | ok o => exact pass2_needs e tab xs cnt o hq r ((List.mem_cons.1 hr).resolve_left hne) hij
    · simp only [pass2, hx, if_false] at ho
      cases h1 : dget x.key tab with
      | none => rw [h1] at ho; cases ho
      | some rows =>
        rcases List.mem_cons.1 hr with rfl | hr
        · rw [h1]; rfl
        · cases h2 : dget x.key cnt with
          | none => rw [h1, h2] at ho; cases ho
          | some c =>
            rw [h1, h2] at ho
            simp only at ho
            cases h3 : rows[c]? with
            | none => rw [h3] at ho; cases ho
            | some row =>
              rw [h3] at ho
              simp only [bind, Except.bind] at ho
              cases hq : pass2 e tab (dset x.key (c + 1) cnt) xs with
              | error y => rw [hq] at ho; cases ho
              | ok o => exact pass2_needs e tab xs _ o hq r hr hij

theorem pass1_keys {n : Nat} (e : Env n) : ∀ (recs : List (FRec n)) (s s' : Tab n × Bool), pass1 e s recs = .ok s' →
    ∀ k, (dget k s'.1).isSome = true → (dget k s.1).isSome = true ∨ k.1 ∈ e.pols
  | [], s, s', h, k, hk => by cases h; exact .inl hk
  | r :: rs, s, s', h, k, hk => by
    simp only [pass1] at h
    split at h
    · rename_i hc
      cases hd : delayRow e r with
      | error x => rw [hd] at h; cases h
      | ok d =>
        rw [hd] at h
        simp only [bind, Except.bind] at h
        rcases pass1_keys e rs _ s' h k hk with h1 | h1
        · rw [dget_dset] at h1
          split at h1
          · rename_i hkk
            right
            rw [← hkk]
            exact hc.1
          · exact .inl h1
        · exact .inr h1
    · exact pass1_keys e rs s s' h k hk

theorem filterTab_keys {n : Nat} (e : Env n) (up : Bool) : ∀ (tab tab' : Tab n), filterTab e up tab = .ok tab' →
    ∀ k, (dget k tab').isSome = (dget k tab).isSome
  | [], tab', h, k => by cases h; rfl
  | (k', rows) :: tab, tab', h, k => by
    simp only [filterTab, bind, Except.bind] at h
    cases h1 : filterRows e up k' rows with
    | error x => rw [h1] at h; cases h
    | ok rows' =>
      rw [h1] at h
      simp only at h
      cases h2 : filterTab e up tab with
      | error x => rw [h2] at h; cases h
      | ok t =>
        rw [h2] at h
        cases h
        simp only [dget]
        split
        · rfl
        · exact filterTab_keys e up tab t h2 k

/-- C90 is false for files that hold other polarisations than those listed with `-p`: the script raises. -/
theorem c90_other_pol_raises {n : Nat} (e : Env n) (recs : List (FRec n)) (r : FRec n) (hr : r ∈ recs) (hij : r.i ≠ r.j)
    (hp : r.pol ∉ e.pols) : ∀ out, filterFile e recs ≠ .ok out := by
  intro out h
  simp only [filterFile, bind, Except.bind] at h
  cases h1 : pass1 e ([], false) recs with
  | error x => rw [h1] at h; cases h
  | ok s =>
    rw [h1] at h
    simp only at h
    cases h2 : filterTab e s.2 s.1 with
    | error x => rw [h2] at h; cases h
    | ok tab =>
      rw [h2] at h
      have h3 := pass2_needs e tab recs _ out h r hr hij
      rw [filterTab_keys e s.2 s.1 tab h2] at h3
      rcases pass1_keys e recs _ s h1 r.key h3 with h4 | h4
      · cases h4
      · exact hp h4

theorem pass1_passband {n : Nat} (e : Env n) (hpb : e.passband = true) (r : FRec n) (hij : r.i ≠ r.j) (hp : r.pol ∈ e.pols)
    (hu : e.sight r.time r.i r.j r.pol ≠ .down) : ∀ (recs : List (FRec n)), r ∈ recs → ∀ s s', pass1 e s recs ≠ .ok s'
  | [], h, _, _ => by cases h
  | x :: xs, h, s, s' => by
    have hr : delayRow e r = .error .type := by
      have hs : e.of r = e.sight r.time r.i r.j r.pol := rfl
      unfold delayRow
      rw [hs]
      cases hx : e.sight r.time r.i r.j r.pol with
      | down => exact absurd hx hu
      | nosrc => simp [hpb]
      | up ph => simp [hpb]
    intro ho
    simp only [pass1] at ho
    rcases List.mem_cons.1 h with rfl | h
    · rw [if_pos ⟨hp, hij⟩, hr] at ho
      cases ho
    · split at ho
      · cases hd : delayRow e x with
        | error y => rw [hd] at ho; cases ho
        | ok d =>
          rw [hd] at ho
          exact pass1_passband e hpb r hij hp hu xs h _ _ ho
      · exact pass1_passband e hpb r hij hp hu xs h _ _ ho

/-- C90 is false with `--passband`: the script raises at the first record it should work on -/
theorem c90_passband_raises {n : Nat} (e : Env n) (recs : List (FRec n)) (hpb : e.passband = true) (r : FRec n) (hr : r ∈ recs)
    (hij : r.i ≠ r.j) (hp : r.pol ∈ e.pols) (hu : e.sight r.time r.i r.j r.pol ≠ .down) : ∀ out, filterFile e recs ≠ .ok out := by
  intro out h
  simp only [filterFile, bind, Except.bind] at h
  cases h1 : pass1 e ([], false) recs with
  | error x => rw [h1] at h; cases h
  | ok s => exact pass1_passband e hpb r hij hp hu recs hr _ _ h1

/-! ## Examples -/

/-- two polarisations, two times, a source that is up with phases -1, three channels, one record flagged, one auto-correlation -/
def demoEnv : Env 2 := ⟨[('x', 'x'), ('y', 'y')], -1, 1, false, true, 1 / 1000, fun l => (l + 9) / 10, fun _ _ _ _ => .up fun _ => -1, none⟩

def demoRecs : List (FRec 2) :=
  [⟨0, 0, 1, ('x', 'x'), ![1, 2, 3], fun _ => false⟩, ⟨0, 0, 0, ('x', 'y'), ![1, 1, 1], fun _ => false⟩,
    ⟨0, 0, 1, ('y', 'y'), ![0, Complex.I, 0], fun _ => false⟩, ⟨1, 0, 1, ('x', 'x'), ![5, 6, 7], fun k => k = 1⟩]

theorem demo_works : Works demoEnv demoRecs := by
  refine ⟨?_, rfl, ?_, ?_⟩
  · intro r hr hij
    simp only [demoRecs, List.mem_cons, List.not_mem_nil, or_false] at hr
    rcases hr with rfl | rfl | rfl | rfl <;> first | exact absurd rfl hij | simp [demoEnv]
  · intro t i j p ph h x
    cases h
    simp
  · intro l hl
    show 1 ≤ (l + 9) / 10 ∧ (l + 9) / 10 ≤ l
    omega

example : ∃ out, filterFile demoEnv demoRecs = .ok out ∧
    List.Forall₂ (fun r r' => IsFiltered demoEnv (ifft (seen demoEnv r r.data)) r r') demoRecs out :=
  c90_tones demoEnv demoRecs demo_works rfl (by decide) _

/-- the hypotheses of `c90_twice`, `c90_steady` and `c90_rate0` -/
example : ∃ recs : List (FRec 2), recs.length = 2 ∧ Works { demoEnv with drw := 1 } recs ∧
    ∀ r ∈ recs, r.i ≠ r.j → (∀ x, r.flags x = false) ∧ demoEnv.sight r.time r.i r.j r.pol ≠ .down ∧ seen demoEnv r r.data = tones ![1, 2, 3] := by
  refine ⟨[⟨0, 0, 1, ('x', 'x'), -tones ![1, 2, 3], fun _ => false⟩, ⟨1, 0, 1, ('x', 'x'), -tones ![1, 2, 3], fun _ => false⟩], rfl, ⟨?_, rfl, ?_, ?_⟩, ?_⟩
  · intro r hr _
    simp only [List.mem_cons, List.not_mem_nil, or_false] at hr
    rcases hr with rfl | rfl <;> simp [demoEnv]
  · intro t i j p ph h x
    cases h
    simp
  · intro l hl
    show 1 ≤ (l + 9) / 10 ∧ (l + 9) / 10 ≤ l
    omega
  · intro r hr _
    simp only [List.mem_cons, List.not_mem_nil, or_false] at hr
    rcases hr with rfl | rfl <;> refine ⟨fun _ => rfl, fun h => (by cases h), ?_⟩ <;> (funext x; simp [seen, demoEnv])

end Verif.Dsp
