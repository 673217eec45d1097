import Verif.Dsp.FilterProps
/-!
# Property C90 : what `filter_src.py` keeps and removes
-/
noncomputable section
namespace Verif.Dsp
open Verif.Util Verif.Deconv Finset

/-! ## Windows -/

theorem inWindow_iff {n : Nat} {dw : ℤ} (hdw : 0 ≤ dw) (k : Fin (n + 1)) :
    InWindow n dw k ↔ (k.val : ℤ) < dw ∨ (n : ℤ) + 1 - dw ≤ k.val := by
  have hk := k.isLt
  constructor
  · rintro ⟨m, h1, h2, q, hq⟩
    rcases lt_or_ge q 0 with h | h
    · right
      have : ((n : ℤ) + 1) * q ≤ ((n : ℤ) + 1) * (-1) := mul_le_mul_of_nonneg_left (by omega) (by omega)
      omega
    · left
      have : 0 ≤ ((n : ℤ) + 1) * q := mul_nonneg (by omega) h
      omega
  · rintro (h | h)
    · exact ⟨k.val, by omega, h, by simp⟩
    · exact ⟨k.val - (n + 1), by omega, by omega, -1, by ring⟩

theorem zeroSlice_window {n : Nat} {dw : ℤ} (hdw : 0 ≤ dw) (a : Row n) :
    zeroSlice dw (if -dw = 0 then (n : Int) + 1 else -dw) a = inside dw a := by
  funext k
  have hk := k.isLt
  unfold zeroSlice inside
  by_cases hin : InWindow n dw k
  · rw [if_pos hin, if_neg]
    rw [inWindow_iff hdw] at hin
    unfold bound
    split <;> split <;> split at * <;> omega
  · rw [if_neg hin, if_pos]
    rw [inWindow_iff hdw] at hin
    unfold bound
    split <;> split <;> split at * <;> omega

theorem fft_tones {n : Nat} (a : Row n) : fft a = tones a := by
  funext x
  unfold fft tones tone
  apply Finset.sum_congr rfl
  intro k _
  push_cast
  rfl

/-- every set of channels is a sum of tones -/
theorem tones_ifft {n : Nat} (d : Row n) : d = tones (ifft d) := by rw [← fft_tones, fft_ifft]

theorem unpad_map_pad {α β : Type} (g : α → β) (p : Nat) (l : List α) (h1 : 1 ≤ p) (h2 : p ≤ l.length) :
    unpad p ((padRows p l).map g) = l.map g := by
  unfold unpad padRows
  rw [if_neg (by omega)]
  have hl : (l.take p).length = p := by simp; omega
  have hd : (l.drop (l.length - p)).length = p := by simp; omega
  simp only [List.map_append, List.map_reverse]
  have e1 : ((List.map g (l.take p)).reverse ++ List.map g l ++ (List.map g (l.drop (l.length - p))).reverse).length - p =
      ((List.map g (l.take p)).reverse ++ List.map g l).length := by
    simp only [List.length_append, List.length_reverse, List.length_map, hl, hd]
    omega
  rw [e1, List.take_left']
  · exact List.drop_left' (by rw [List.length_reverse, List.length_map, hl])
  · rfl

/-- what the script does to the rows without a delay-rate filter -/
theorem filterRows_plain {n : Nat} {e : Env n} (hdr : e.drw = -1) (hdw : 0 ≤ e.dw) (hpad : ∀ l, 0 < l → 1 ≤ e.padlen l ∧ e.padlen l ≤ l)
    (k : Key) {rows : List (Row n)} (hne : rows ≠ []) (up : Bool) :
    filterRows e up k rows = .ok (if up then rows.map fun row => fft (inside e.dw row) else rows) := by
  have hlen : 0 < rows.length := List.length_pos_iff.2 hne
  cases up
  · simp [filterRows]
  · have hs : delaySlice e k = .ok (e.dw, if -e.dw = 0 then (n : Int) + 1 else -e.dw) := by
      unfold delaySlice
      rw [if_pos (by omega)]
    simp only [filterRows, hdr, hs, bind, Except.bind, Bool.true_eq_false, if_false, if_true, ne_eq, not_true_eq_false]
    rw [unpad_map_pad _ _ _ (hpad _ hlen).1 (hpad _ hlen).2]
    simp only [zeroSlice_window hdw]

/-! ## C90 -/

open Classical in
/-- the tones outside of the window -/
def outside {n : Nat} (dw : ℤ) (a : Fin (n + 1) → ℂ) (k : Fin (n + 1)) : ℂ := if InWindow n dw k then 0 else a k

/-- a record of the result, for data (as seen from the source) that are the sum of the tones `a` -/
structure IsFiltered {n : Nat} (e : Env n) (a : Fin (n + 1) → ℂ) (r r' : FRec n) : Prop where
  head : SameHead r r'
  auto : r.i = r.j → r' = r
  up : r.i ≠ r.j → (∀ x, r.flags x = false) → e.sight r.time r.i r.j r.pol ≠ .down → seen e r r.data = tones a →
    seen e r r'.data = tones (if e.extract then inside e.dw a else outside e.dw a)
  down : r.i ≠ r.j → (∀ x, r.flags x = false) → e.sight r.time r.i r.j r.pol = .down → r'.data = if e.extract then 0 else r.data

theorem seen_emit {n : Nat} {e : Env n} {r : FRec n} (hph : ∀ t i j p ph, e.sight t i j p = .up ph → ∀ x, ph x ≠ 0)
    (hf : ∀ x, r.flags x = false) (hu : e.sight r.time r.i r.j r.pol ≠ .down) (row : Row n) :
    seen e r (emit e r row).data = if e.extract then row else seen e r r.data - row := by
  have hs : e.of r = e.sight r.time r.i r.j r.pol := rfl
  unfold seen emit
  rw [hs]
  cases hx : e.sight r.time r.i r.j r.pol with
  | down => exact absurd hx hu
  | nosrc =>
    cases e.extract
    · simp [hf]; rfl
    · rfl
  | up ph =>
    have h0 := hph _ _ _ _ _ hx
    cases e.extract
    · funext x
      simp only [hf, Bool.false_eq_true, if_false, Pi.sub_apply]
      have := h0 x
      field_simp
    · funext x
      simp only [if_true]
      rw [div_mul_cancel₀ _ (h0 x)]

theorem emit_head {n : Nat} (e : Env n) (r : FRec n) (row : Row n) : SameHead r (emit e r row) := by
  unfold emit
  cases e.extract <;> exact ⟨rfl, ⟨rfl, rfl⟩, rfl, rfl⟩

theorem up_any {n : Nat} {e : Env n} {recs : List (FRec n)} {r : FRec n} (hr : r ∈ recs) (hij : r.i ≠ r.j)
    (hu : e.sight r.time r.i r.j r.pol ≠ .down) : anyUp e recs = true := by
  unfold anyUp
  rw [List.any_eq_true]
  refine ⟨r, hr, ?_⟩
  have hs : e.of r = e.sight r.time r.i r.j r.pol := rfl
  rw [hs]
  cases hx : e.sight r.time r.i r.j r.pol with
  | down => exact absurd hx hu
  | nosrc => simp [hij, isDown]
  | up ph => simp [hij, isDown]

theorem inside_add_outside {n : Nat} (dw : ℤ) (a : Row n) : a - inside dw a = outside dw a := by
  funext k
  unfold inside outside
  by_cases h : InWindow n dw k <;> simp [h]

theorem emit_down {n : Nat} {e : Env n} {r : FRec n} (hf : ∀ x, r.flags x = false) (hd : e.sight r.time r.i r.j r.pol = .down) (row : Row n) :
    (emit e r row).data = if e.extract then 0 else r.data := by
  have hs : e.of r = e.sight r.time r.i r.j r.pol := rfl
  unfold emit
  rw [hs, hd]
  cases e.extract
  · simp [hf]
  · rfl

/-- C90: in every cross-correlation without flags the script keeps (`-e`) or takes away exactly the tones with delays
`-dw ≤ k < dw`, as seen from the source; each record gets its own, whatever their order.  A source below the horizon gives
nothing to keep or take away. -/
theorem c90_tones {n : Nat} (e : Env n) (recs : List (FRec n)) (hw : Works e recs) (hdr : e.drw = -1) (hdw : 0 ≤ e.dw)
    (a : FRec n → Fin (n + 1) → ℂ) : ∃ out, filterFile e recs = .ok out ∧ List.Forall₂ (fun r r' => IsFiltered e (a r) r r') recs out := by
  apply file_ok hw (fun _ rows => if anyUp e recs then rows.map fun row => fft (inside e.dw row) else rows)
  · intro k hne
    exact filterRows_plain hdr hdw hw.pad k hne _
  · intro r _ hij
    exact ⟨⟨rfl, ⟨rfl, rfl⟩, rfl, rfl⟩, fun _ => rfl, fun h => absurd hij h, fun h => absurd hij h⟩
  · intro pre r suf hs hij
    have hat := rowsOf_at e pre r suf hij
    rw [← hs] at hat
    by_cases hu : anyUp e recs = true
    · refine ⟨fft (inside e.dw (rowOf e r)), by simp [hu, hat], emit_head e r _, fun h => absurd h hij, ?_, ?_⟩
      · intro _ hf hn hse
        rw [seen_emit hw.phs hf hn, rowOf_clear hw.pass r hf hn, hse, ← fft_tones, ifft_fft]
        cases e.extract
        · simp only [Bool.false_eq_true, if_false]
          rw [← fft_sub, inside_add_outside, fft_tones]
        · simp only [if_true]
          rw [fft_tones]
      · intro _ hf hd
        exact emit_down hf hd _
    · refine ⟨rowOf e r, by simp [hu, hat], emit_head e r _, fun h => absurd h hij, ?_, ?_⟩
      · intro _ _ hn
        exact absurd (up_any (by rw [hs]; simp) hij hn) hu
      · intro _ hf hd
        exact emit_down hf hd _

/-! ### Twice -/

theorem forall2_mem {α β : Type} {R : α → β → Prop} : ∀ {l : List α} {m : List β}, List.Forall₂ R l m → ∀ b ∈ m, ∃ a ∈ l, R a b
  | _, _, .nil, _, hb => by cases hb
  | _, _, .cons h hs, b, hb => by
    rcases List.mem_cons.1 hb with rfl | hb
    · exact ⟨_, by simp, h⟩
    · obtain ⟨a, ha, hab⟩ := forall2_mem hs b hb
      exact ⟨a, by simp [ha], hab⟩

theorem forall2_chain {α : Type} {R S T : α → α → Prop} (h : ∀ x y z, R x y → S y z → T y z) : ∀ {l m n : List α},
    List.Forall₂ R l m → List.Forall₂ S m n → List.Forall₂ T m n
  | _, _, _, .nil, .nil => .nil
  | _, _, _, .cons h1 h2, .cons h3 h4 => .cons (h _ _ _ h1 h3) (forall2_chain h h2 h4)

theorem seen_inj {n : Nat} {e : Env n} (hph : ∀ t i j p ph, e.sight t i j p = .up ph → ∀ x, ph x ≠ 0) (r : FRec n) {d d' : Row n}
    (h : seen e r d = seen e r d') : d = d' := by
  unfold seen at h
  cases hx : e.sight r.time r.i r.j r.pol with
  | down => rw [hx] at h; exact h
  | nosrc => rw [hx] at h; exact h
  | up ph =>
    rw [hx] at h
    funext x
    have := congrFun h x
    exact mul_right_cancel₀ (hph _ _ _ _ _ hx x) this

theorem inside_inside {n : Nat} (dw : ℤ) (a : Row n) : inside dw (inside dw a) = inside dw a := by
  funext k; unfold inside; split <;> rfl

theorem outside_inside {n : Nat} (dw : ℤ) (a : Row n) : outside dw (inside dw a) = 0 := by
  funext k; unfold inside outside; split <;> simp_all

theorem tones_zero {n : Nat} : tones (0 : Row n) = 0 := by funext x; simp [tones]

theorem eq_of_head {n : Nat} {r r' : FRec n} (h : SameHead r r') (hd : r'.data = r.data) : r' = r := by
  obtain ⟨t, i, j, p, d, f⟩ := r
  obtain ⟨t', i', j', p', d', f'⟩ := r'
  obtain ⟨h1, ⟨h2, h3⟩, h4, h5⟩ := h
  simp only at h1 h2 h3 h4 h5 hd
  subst h1 h2 h3 h4 h5 hd
  rfl

theorem forall2_eq {α : Type} : ∀ {l m : List α}, List.Forall₂ (fun a b => b = a) l m → m = l
  | _, _, .nil => rfl
  | _, _, .cons h hs => by rw [h, forall2_eq hs]

theorem seen_head {n : Nat} {e : Env n} {r r' : FRec n} (h : SameHead r r') (d : Row n) : seen e r' d = seen e r d := by
  unfold seen
  rw [h.time, h.ants.1, h.ants.2, h.pol]

theorem forall2_mem_imp {α β : Type} {R S : α → β → Prop} : ∀ {l : List α} {m : List β}, List.Forall₂ R l m →
    (∀ a ∈ l, ∀ b, R a b → S a b) → List.Forall₂ S l m
  | _, _, .nil, _ => .nil
  | _, _, .cons h hs, hi => .cons (hi _ (by simp) _ h) (forall2_mem_imp hs fun a ha => hi a (by simp [ha]))

/-- C90: what was extracted is extracted again unchanged, and nothing of it is left when it is filtered. -/
theorem c90_twice {n : Nat} (e : Env n) (recs : List (FRec n)) (hw : Works e recs) (hdr : e.drw = -1) (hdw : 0 ≤ e.dw)
    (hf : ∀ r ∈ recs, r.i ≠ r.j → ∀ x, r.flags x = false) :
    ∃ out gone, filterFile { e with extract := true } recs = .ok out ∧ filterFile { e with extract := true } out = .ok out ∧
      filterFile { e with extract := false } out = .ok gone ∧
      List.Forall₂ (fun r r' => SameHead r r' ∧ (r.i = r.j → r' = r) ∧ (r.i ≠ r.j → r'.data = 0)) out gone := by
  obtain ⟨out, o1, o2⟩ := c90_tones { e with extract := true } recs ⟨hw.pols, hw.pass, hw.phs, hw.pad⟩ hdr hdw
    (fun r => ifft (seen e r r.data))
  have hw' : ∀ b, Works { e with extract := b } out := by
    intro b
    refine ⟨?_, hw.pass, hw.phs, hw.pad⟩
    intro r' hr' hij
    obtain ⟨r, hr, hrr⟩ := forall2_mem o2 r' hr'
    rw [hrr.head.pol]
    exact hw.pols r hr (by rw [← hrr.head.ants.1, ← hrr.head.ants.2]; exact hij)
  have hout : ∀ r' ∈ out, r'.i ≠ r'.j → (∀ x, r'.flags x = false) ∧ (e.sight r'.time r'.i r'.j r'.pol = .down → r'.data = 0) ∧
      (e.sight r'.time r'.i r'.j r'.pol ≠ .down → ∃ b, seen e r' r'.data = tones (inside e.dw b)) := by
    intro r' hr' hij
    obtain ⟨r, hr, hrr⟩ := forall2_mem o2 r' hr'
    have hij' : r.i ≠ r.j := by rw [← hrr.head.ants.1, ← hrr.head.ants.2]; exact hij
    have hfl := hf r hr hij'
    have hsight : e.sight r'.time r'.i r'.j r'.pol = e.sight r.time r.i r.j r.pol := by
      rw [hrr.head.time, hrr.head.ants.1, hrr.head.ants.2, hrr.head.pol]
    refine ⟨by rw [hrr.head.flags]; exact hfl, fun hd => ?_, fun hu => ?_⟩
    · exact hrr.down hij' hfl (by rw [← hsight]; exact hd)
    · refine ⟨ifft (seen e r r.data), ?_⟩
      have := hrr.up hij' hfl (by show e.sight _ _ _ _ ≠ _; rw [← hsight]; exact hu) (tones_ifft _)
      have e2 : seen e r' r'.data = seen { e with extract := true } r r'.data := by
        exact seen_head hrr.head _
      rw [e2, this]
      rfl
  classical
  let b : FRec n → Fin (n + 1) → ℂ := fun r => inside e.dw (ifft (seen e r r.data))
  have hb : ∀ r' ∈ out, r'.i ≠ r'.j → e.sight r'.time r'.i r'.j r'.pol ≠ .down → seen e r' r'.data = tones (b r') := by
    intro r' hr' hij hu
    obtain ⟨c, hc⟩ := (hout r' hr' hij).2.2 hu
    show _ = tones (inside e.dw (ifft (seen e r' r'.data)))
    rw [hc, ← fft_tones, ifft_fft, inside_inside, fft_tones]
  obtain ⟨again, a1, a2⟩ := c90_tones { e with extract := true } out (hw' true) hdr hdw b
  obtain ⟨gone, g1, g2⟩ := c90_tones { e with extract := false } out (hw' false) hdr hdw b
  have mem2 : ∀ {R S : FRec n → FRec n → Prop} {m : List (FRec n)}, List.Forall₂ R out m → (∀ r ∈ out, ∀ r', R r r' → S r r') →
      List.Forall₂ S out m := by
    intro R S m h1 h2
    exact forall2_mem_imp h1 h2
  refine ⟨out, gone, o1, ?_, g1, ?_⟩
  · rw [a1]
    have : again = out := by
      apply forall2_eq
      refine mem2 a2 ?_
      intro r hr r' h
      by_cases hij : r.i = r.j
      · exact h.auto hij
      · apply eq_of_head h.head
        obtain ⟨q1, q2, _⟩ := hout r hr hij
        by_cases hd : e.sight r.time r.i r.j r.pol = .down
        · rw [h.down hij q1 hd, q2 hd]; rfl
        · apply seen_inj hw.phs r
          have := h.up hij q1 hd (hb r hr hij hd)
          rw [show seen e r r'.data = seen { e with extract := true } r r'.data from rfl, this, hb r hr hij hd]
          show tones (inside e.dw (inside e.dw _)) = tones (inside e.dw _)
          rw [inside_inside]
    rw [this]
  · refine mem2 g2 ?_
    intro r hr r' h
    refine ⟨h.head, h.auto, fun hij => ?_⟩
    obtain ⟨q1, q2, _⟩ := hout r hr hij
    by_cases hd : e.sight r.time r.i r.j r.pol = .down
    · rw [h.down hij q1 hd]
      exact q2 hd
    · apply seen_inj hw.phs r
      have := h.up hij q1 hd (hb r hr hij hd)
      rw [show seen e r r'.data = seen { e with extract := false } r r'.data from rfl, this]
      show tones (outside e.dw (inside e.dw _)) = _
      rw [outside_inside, tones_zero]
      unfold seen
      split <;> first | rfl | (funext x; simp)

end Verif.Dsp
