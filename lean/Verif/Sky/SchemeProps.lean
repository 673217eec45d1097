import Verif.Sky.HealpixProps
import Mathlib.Algebra.BigOperators.Group.Finset.Basic
import Mathlib.Data.List.Range
/-!
# Properties C31 and C61 : changes of ordering and of resolution
-/
namespace Verif.Sky
open Verif.Img

/-! ## Specification -/

/-- the two conversions are inverse to each other on the pixels of resolution `n` -/
structure OrdersOk (o : Orders) (n : Nat) : Prop where
  n2r_lt : ∀ k, k < npix n → o.n2r n k < npix n
  r2n_lt : ∀ k, k < npix n → o.r2n n k < npix n
  n2r_r2n : ∀ k, k < npix n → o.n2r n (o.r2n n k) = k
  r2n_n2r : ∀ k, k < npix n → o.r2n n (o.n2r n k) = k

/-- what the map shows at sky pixel `r`; sky pixels are named by their RING number -/
def sky {V : Type} (o : Orders) (h : HMap V) (r : Nat) : Option V :=
  match h.scheme with
  | .ring => h.map[r]?
  | .nest => h.map[o.r2n h.nside r]?

/-- a map with the right number of pixels, fewer than 2^31 -/
def Whole {V : Type} (h : HMap V) : Prop := h.map.length = npix h.nside ∧ npix h.nside < 2147483648 ∧ 0 < h.nside

/-! ## Lemmas -/

theorem idx_nat (n k i : Nat) : Idx n (k : Int) i ↔ i < n ∧ k = i := by
  unfold Idx
  omega

theorem small_nat (n : Nat) (px : List Nat) (hn : n < 2147483648) (hp : ∀ p ∈ px, p < n) :
    Small n (px.map (fun (k : Nat) => (k : Int))) := by
  refine ⟨hn, ?_⟩
  intro p hp'
  rw [List.mem_map] at hp'
  obtain ⟨k, hk, rfl⟩ := hp'
  have := hp k hk
  omega

/-- assigning a list of values to distinct pixels, each by name -/
theorem set_nat {V : Type} [AddCommMonoid V] (map : List V) (f : Nat → Nat) (vals : List V) (hn : map.length < 2147483648)
    (hl : vals.length = map.length) (hlt : ∀ k, k < map.length → f k < map.length)
    (hinj : ∀ j k, j < map.length → k < map.length → f j = f k → j = k) :
    ∃ m', setPx map (((List.range map.length).map f).map (fun (k : Nat) => (k : Int))) (.arr vals) = some m' ∧
      m'.length = map.length ∧ ∀ k, k < map.length → m'[f k]? = vals[k]? := by
  classical
  have hs : Small map.length (((List.range map.length).map f).map (fun (k : Nat) => (k : Int))) := by
    apply small_nat _ _ hn
    intro p hp
    rw [List.mem_map] at hp
    obtain ⟨k, hk, rfl⟩ := hp
    exact hlt k (List.mem_range.1 hk)
  cases h : setPx map (((List.range map.length).map f).map (fun (k : Nat) => (k : Int))) (.arr vals) with
  | none =>
    exfalso
    rcases (c30_raises_iff map _ _ hs).1 h with h | ⟨p, hp, h⟩
    · simp [Val.toList, hl] at h
    · rw [List.map_map, List.mem_map] at hp
      obtain ⟨k, hk, rfl⟩ := hp
      exact h (f k) ((idx_nat _ _ _).2 ⟨hlt k (List.mem_range.1 hk), rfl⟩)
  | some m' =>
    obtain ⟨h1, h2, h3⟩ := c30_assign map m' _ _ hs h
    refine ⟨m', rfl, h1, ?_⟩
    intro k hk
    rw [h3 (f k) (hlt k hk), if_pos]
    · rw [List.getElem?_eq_getElem (by omega)]
      congr 1
      unfold sumFor
      have : (((List.map (fun (k : Nat) => (k : Int)) (List.map f (List.range map.length))).zip (Val.arr vals).toList).filter
          (fun e => decide (Idx map.length e.1 (f k)))) = [((f k : Int), vals[k])] := by
        have hz : ((List.map (fun (k : Nat) => (k : Int)) (List.map f (List.range map.length))).zip (Val.arr vals).toList) =
            (List.range map.length).pmap (fun j hj => ((f j : Int), vals[j]'(by rw [hl]; exact hj))) (fun j hj => List.mem_range.1 hj) := by
          apply List.ext_getElem
          · simp [Val.toList, hl]
          · intro n h1 h2
            simp [Val.toList]
        rw [hz]
        have hgen : ∀ (l : List Nat) (hlm : ∀ j ∈ l, j < map.length), l.Nodup → k ∈ l →
            (l.pmap (fun j hj => ((f j : Int), vals[j]'(by rw [hl]; exact hj))) hlm).filter
              (fun e => decide (Idx map.length e.1 (f k))) = [((f k : Int), vals[k])] := by
          intro l
          induction l with
          | nil => intro _ _ h; simp at h
          | cons a l ih =>
            intro hlm hnd hmem
            rw [List.pmap_cons, List.filter_cons]
            rw [List.nodup_cons] at hnd
            have ha := hlm a (by simp)
            by_cases hak : a = k
            · subst hak
              have : decide (Idx map.length (((f a : Int), vals[a]) : Int × V).1 (f a)) = true := by
                simp only [decide_eq_true_eq]
                exact (idx_nat _ _ _).2 ⟨hlt a hk, rfl⟩
              rw [if_pos this]
              congr 1
              rw [List.filter_eq_nil_iff]
              intro e he
              rw [List.mem_pmap] at he
              obtain ⟨j, hj, rfl⟩ := he
              simp only [decide_eq_true_eq, idx_nat]
              rintro ⟨_, hc⟩
              have := hinj j a (hlm j (by simp [hj])) hk hc
              subst this
              exact hnd.1 hj
            · have : ¬ decide (Idx map.length (((f a : Int), vals[a]) : Int × V).1 (f k)) = true := by
                simp only [decide_eq_true_eq, idx_nat]
                rintro ⟨_, hc⟩
                exact hak (hinj a k ha hk hc)
              rw [if_neg this]
              refine ih (fun j hj => hlm j (by simp [hj])) hnd.2 ?_
              rw [List.mem_cons] at hmem
              rcases hmem with h | h
              · exact absurd h.symm hak
              · exact h
        exact hgen _ _ List.nodup_range (List.mem_range.2 hk)
      rw [this]
      simp
    · refine ⟨(f k : Int), ?_, (idx_nat _ _ _).2 ⟨hlt k hk, rfl⟩⟩
      rw [List.map_map, List.mem_map]
      exact ⟨k, List.mem_range.2 hk, rfl⟩

theorem get_nat {V : Type} (map : List V) (f : Nat → Nat) (n : Nat) (hlt : ∀ k, k < n → f k < map.length) :
    ∃ vs, getPx map (((List.range n).map f).map (fun (k : Nat) => (k : Int))) = some vs ∧ vs.length = n ∧
      ∀ k, k < n → vs[k]? = map[f k]? := by
  cases n with
  | zero => exact ⟨[], rfl, rfl, fun k hk => by omega⟩
  | succ n =>
    have h0 := hlt 0 (by omega)
    have hd : 0 < map.length := by omega
    have := getPx_eq map (((List.range (n+1)).map f).map (fun (k : Nat) => (k : Int))) (fun p => map.getD p.toNat (map[0]))
      (by
        intro p hp
        rw [List.map_map, List.mem_map] at hp
        obtain ⟨k, hk, rfl⟩ := hp
        have hk' := hlt k (List.mem_range.1 hk)
        refine ⟨f k, (idx_nat _ _ _).2 ⟨hk', rfl⟩, ?_⟩
        simp [List.getD, hk'])
    refine ⟨_, this, by simp, ?_⟩
    intro k hk
    have hk' := hlt k hk
    rw [List.map_map, List.map_map, List.getElem?_map, List.getElem?_range hk]
    simp [List.getD, hk']

/-- `change_scheme` between different orderings, in terms of the translation of pixel numbers -/
theorem changeScheme_spec {V : Type} [AddCommMonoid V] (o : Orders) (h : HMap V) (s : Scheme) (hw : Whole h) (f : Nat → Nat)
    (hne : s ≠ h.scheme) (hf : f = convMode o h.nside s)
    (hlt : ∀ k, k < npix h.nside → f k < npix h.nside)
    (hinj : ∀ j k, j < npix h.nside → k < npix h.nside → f j = f k → j = k) :
    ∃ m', changeScheme o h s = some { h with map := m', scheme := s } ∧ m'.length = npix h.nside ∧
      ∀ k, k < npix h.nside → m'[f k]? = h.map[k]? := by
  obtain ⟨hl, hn, _⟩ := hw
  obtain ⟨m', e, e2, e3⟩ := set_nat h.map f h.map (by omega) rfl (by rw [hl]; exact hlt) (by rw [hl]; exact hinj)
  rw [hl] at e e2 e3
  refine ⟨m', ?_, e2, e3⟩
  unfold changeScheme nestRingConv
  simp only [hne, if_false, ne_eq, not_false_eq_true, if_true]
  rw [← hf, e]
  rfl

/-! ## C31 -/

/-- C31: `change_scheme` succeeds, leaves every sky pixel with its value and labels the map with the new ordering. -/
theorem c31_change_scheme {V : Type} [AddCommMonoid V] (o : Orders) (h : HMap V) (s : Scheme) (hw : Whole h)
    (ho : OrdersOk o h.nside) :
    ∃ h', changeScheme o h s = some h' ∧ h'.scheme = s ∧ h'.nside = h.nside ∧ Whole h' ∧
      ∀ r, r < npix h.nside → sky o h' r = sky o h r := by
  by_cases he : s = h.scheme
  · exact ⟨h, by unfold changeScheme; rw [if_pos he], he.symm, rfl, hw, fun _ _ => rfl⟩
  · cases s with
    | ring =>
      obtain ⟨m', e1, e2, e3⟩ := changeScheme_spec o h .ring hw (o.n2r h.nside) he rfl ho.n2r_lt
        (fun j k hj hk hjk => by rw [← ho.r2n_n2r j hj, hjk, ho.r2n_n2r k hk])
      refine ⟨_, e1, rfl, rfl, ⟨e2, hw.2⟩, ?_⟩
      intro r hr
      have hsc : h.scheme = .nest := by cases hx : h.scheme <;> simp_all
      unfold sky
      rw [hsc]
      show m'[r]? = h.map[o.r2n h.nside r]?
      rw [← e3 _ (ho.r2n_lt r hr), ho.n2r_r2n r hr]
    | nest =>
      obtain ⟨m', e1, e2, e3⟩ := changeScheme_spec o h .nest hw (o.r2n h.nside) he rfl ho.r2n_lt
        (fun j k hj hk hjk => by rw [← ho.n2r_r2n j hj, hjk, ho.n2r_r2n k hk])
      refine ⟨_, e1, rfl, rfl, ⟨e2, hw.2⟩, ?_⟩
      intro r hr
      have hsc : h.scheme = .ring := by cases hx : h.scheme <;> simp_all
      unfold sky
      rw [hsc]
      show m'[o.r2n h.nside r]? = h.map[r]?
      rw [e3 r hr]

/-- two maps of one resolution and ordering that show the same sky are the same -/
theorem sky_ext {V : Type} (o : Orders) (a b : HMap V) (ho : OrdersOk o a.nside) (hn : b.nside = a.nside)
    (hs : b.scheme = a.scheme) (ha : Whole a) (hb : Whole b) (h : ∀ r, r < npix a.nside → sky o b r = sky o a r) :
    b.map = a.map := by
  apply List.ext_getElem?
  intro k
  by_cases hk : k < npix a.nside
  · unfold sky at h
    rw [hs] at h
    cases hsc : a.scheme with
    | ring =>
      rw [hsc] at h
      exact h k hk
    | nest =>
      rw [hsc] at h
      have := h (o.n2r a.nside k) (ho.n2r_lt k hk)
      simp only at this
      rw [hn, ho.r2n_n2r k hk] at this
      exact this
  · rw [List.getElem?_eq_none (by rw [hb.1, hn]; omega), List.getElem?_eq_none (by rw [ha.1]; omega)]

/-- C31: changing the ordering and changing it back restores the map. -/
theorem c31_twice {V : Type} [AddCommMonoid V] (o : Orders) (h h1 h2 : HMap V) (s : Scheme) (hw : Whole h)
    (ho : OrdersOk o h.nside) (e1 : changeScheme o h s = some h1) (e2 : changeScheme o h1 h.scheme = some h2) :
    h2.map = h.map ∧ h2.scheme = h.scheme ∧ h2.nside = h.nside := by
  obtain ⟨a, ea, _, an, aw, as⟩ := c31_change_scheme o h s hw ho
  rw [ea, Option.some.injEq] at e1
  subst e1
  obtain ⟨b, eb, bs, bn, bw, bsky⟩ := c31_change_scheme o a h.scheme aw (by rw [an]; exact ho)
  rw [eb, Option.some.injEq] at e2
  subst e2
  refine ⟨?_, bs, by rw [bn, an]⟩
  apply sky_ext o h b ho (by rw [bn, an]) bs hw bw
  intro r hr
  rw [bsky r (by rw [an]; exact hr), as r hr]

/-- C31: `from_hpm` from a map of the same resolution and the same ordering copies the sky. -/
theorem c31_from_hpm_partial {V : Type} [AddCommMonoid V] (o : Orders) (g : Geometry V) (a b : HMap V)
    (hn : b.nside = a.nside) (hs : b.scheme = a.scheme) :
    ∃ a', fromHpm o g a b = some (a', b) ∧ a'.scheme = a.scheme ∧ ∀ r, sky o a' r = sky o b r := by
  refine ⟨{ a with map := b.map }, ?_, rfl, ?_⟩
  · unfold fromHpm
    simp [hn, hs]
  · intro r
    unfold sky
    simp only [hn, hs]

/-- what `from_hpm` does between different orderings at one resolution: the data come in the ordering `self` had before,
the label is that of the other map -/
theorem c31_from_hpm_mislabelled {V : Type} [AddCommMonoid V] (o : Orders) (g : Geometry V) (a b : HMap V) (hw : Whole b)
    (ho : OrdersOk o a.nside) (hn : b.nside = a.nside) (hs : b.scheme ≠ a.scheme) :
    ∃ a', fromHpm o g a b = some (a', b) ∧ a'.scheme = b.scheme ∧
      ∀ r, r < npix a.nside → sky o { a' with scheme := a.scheme } r = sky o b r := by
  have hl := hw.1
  rw [hn] at hl
  have conv : ∀ f : Nat → Nat, convMode o a.nside b.scheme = f →
      (∀ k, k < npix a.nside → f k < npix a.nside) →
      ∃ m, fromHpm o g a b = some ({ a with map := m, scheme := b.scheme }, b) ∧ ∀ k, k < npix a.nside → m[k]? = b.map[f k]? := by
    intro f hf hlt
    obtain ⟨vs, e1, _, e3⟩ := get_nat b.map f (npix a.nside) (by rw [hl]; exact hlt)
    refine ⟨vs, ?_, e3⟩
    unfold fromHpm nestRingConv
    simp only [hn, lt_irrefl, if_false, hs, ne_eq, not_false_eq_true, if_true]
    rw [hf, e1]
    rfl
  cases hb : b.scheme with
  | ring =>
    have ha : a.scheme = .nest := by cases hx : a.scheme <;> simp_all
    obtain ⟨m, e1, e2⟩ := conv (o.n2r a.nside) (by rw [hb]; rfl) ho.n2r_lt
    rw [hb] at e1
    refine ⟨_, e1, rfl, ?_⟩
    intro r hr
    unfold sky
    rw [ha, hb]
    show m[o.r2n a.nside r]? = b.map[r]?
    rw [e2 _ (ho.r2n_lt r hr), ho.n2r_r2n r hr]
  | nest =>
    have ha : a.scheme = .ring := by cases hx : a.scheme <;> simp_all
    obtain ⟨m, e1, e2⟩ := conv (o.r2n a.nside) (by rw [hb]; rfl) ho.r2n_lt
    rw [hb] at e1
    refine ⟨_, e1, rfl, ?_⟩
    intro r hr
    unfold sky
    rw [ha, hb]
    show m[r]? = b.map[o.r2n b.nside r]?
    rw [e2 r hr, hn]

/-- C31 fails for `from_hpm` between different orderings: whenever the orderings differ at some pixel there are maps for
which the copy shows another value there. -/
theorem c31_from_hpm_violated (o : Orders) (g : Geometry Nat) (n r : Nat) (ho : OrdersOk o n) (hp : 0 < n)
    (hn : npix n < 2147483648) (hr : r < npix n) (hd : o.r2n n r ≠ r) :
    ∃ a b a' : HMap Nat, Whole a ∧ Whole b ∧ b.nside = a.nside ∧ fromHpm o g a b = some (a', b) ∧
      sky o a' r ≠ sky o b r := by
  let a : HMap Nat := ⟨n, .ring, List.replicate (npix n) 0, false⟩
  let b : HMap Nat := ⟨n, .nest, List.range (npix n), false⟩
  have hb : Whole b := ⟨by simp [b], hn, hp⟩
  obtain ⟨a', e1, e2, e3⟩ := c31_from_hpm_mislabelled o g a b hb ho rfl (by simp [a, b])
  have hns : a'.nside = n := by
    unfold fromHpm nestRingConv at e1
    simp only [a, b, lt_irrefl, if_false, reduceCtorEq, ne_eq, not_false_eq_true, if_true,
      Option.map_eq_some_iff] at e1
    obtain ⟨m, _, hm⟩ := e1
    rw [Prod.mk.injEq] at hm
    rw [← hm.1]
  refine ⟨a, b, a', ⟨by simp [a], hn, hp⟩, hb, rfl, e1, ?_⟩
  have hs : a'.scheme = .nest := e2
  have h1 := e3 (o.r2n n r) (ho.r2n_lt r hr)
  have hlhs : sky o a' r = a'.map[o.r2n n r]? := by
    unfold sky; rw [hs, hns]
  have hrhs : sky o b r = some (o.r2n n r) := by
    show (List.range (npix n))[o.r2n n r]? = _
    rw [List.getElem?_range (ho.r2n_lt r hr)]
  have hmid : sky o b (o.r2n n r) = some (o.r2n n (o.r2n n r)) := by
    show (List.range (npix n))[o.r2n n (o.r2n n r)]? = _
    rw [List.getElem?_range (ho.r2n_lt _ (ho.r2n_lt r hr))]
  have h1' : a'.map[o.r2n n r]? = sky o b (o.r2n n r) := h1
  rw [hlhs, hrhs, h1', hmid]
  intro hc
  rw [Option.some.injEq] at hc
  have h2 := ho.n2r_r2n (o.r2n n r) (ho.r2n_lt r hr)
  rw [hc, ho.n2r_r2n r hr] at h2
  exact hd h2.symm

/-! ### The HEALPix orderings at nside 2, as an example -/

/-- NEST to RING at nside 2 (the numbering of the HEALPix papers) -/
def n2r2 : List Nat :=
  [13, 5, 4, 0, 15, 7, 6, 1, 17, 9, 8, 2, 19, 11, 10, 3, 28, 20, 27, 12, 30, 22, 21, 14, 32, 24, 23, 16, 34, 26, 25, 18,
   44, 37, 36, 29, 45, 39, 38, 31, 46, 41, 40, 33, 47, 43, 42, 35]

def exOrders : Orders := ⟨fun _ k => n2r2.getD k 0, fun _ k => n2r2.idxOf k⟩

theorem exOrders_ok : OrdersOk exOrders 2 := by
  refine ⟨?_, ?_, ?_, ?_⟩ <;> decide +kernel

/-- the hypotheses of the violation are met at nside 2 -/
example : OrdersOk exOrders 2 ∧ npix 2 < 2147483648 ∧ 0 < npix 2 ∧ exOrders.r2n 2 0 ≠ 0 :=
  ⟨exOrders_ok, by decide, by decide, by decide⟩

/-- a map meeting the hypotheses of the theorems, with all values different -/
example : Whole (⟨2, .nest, List.range 48, false⟩ : HMap Nat) ∧ OrdersOk exOrders 2 ∧
    ((changeScheme exOrders (⟨2, .nest, List.range 48, false⟩ : HMap Nat) .ring).map (fun h => h.map.take 3)) = some [3, 7, 11] :=
  ⟨⟨by decide, by decide, by decide⟩, exOrders_ok, by decide +kernel⟩

/-! ## C61 -/

theorem sum_filter_partition {V : Type} [AddCommMonoid V] (l : List (Int × V)) (n : Nat)
    (h : ∀ e ∈ l, ∃ i, Idx n e.1 i) (P : ∀ (e : Int × V) (i : Nat), Decidable (Idx n e.1 i)) :
    ((List.range n).map (fun i => ((l.filter (fun e => @decide _ (P e i))).map Prod.snd).sum)).sum = (l.map Prod.snd).sum := by
  induction l with
  | nil => simp
  | cons e l ih =>
    obtain ⟨i, hi⟩ := h e (by simp)
    have ih' := ih (fun e he => h e (by simp [he]))
    rw [List.map_cons, List.sum_cons, ← ih']
    have key : ∀ (ns : List Nat), ns.Nodup →
        (ns.map (fun j => (((e :: l).filter (fun e => @decide _ (P e j))).map Prod.snd).sum)).sum =
          (if i ∈ ns then e.2 else 0) + (ns.map (fun j => ((l.filter (fun e => @decide _ (P e j))).map Prod.snd).sum)).sum := by
      intro ns
      induction ns with
      | nil => simp
      | cons a ns ihn =>
        intro hnd
        rw [List.nodup_cons] at hnd
        rw [List.map_cons, List.sum_cons, ihn hnd.2, List.map_cons, List.sum_cons, List.filter_cons]
        by_cases hai : a = i
        · subst hai
          rw [if_pos (by simpa using hi), if_neg hnd.1, if_pos (by simp), List.map_cons, List.sum_cons, zero_add, add_assoc]
        · have : ¬ Idx n e.1 a := by
            intro hc
            unfold Idx at hi hc
            omega
          rw [if_neg (by simpa using this)]
          by_cases him : i ∈ ns
          · rw [if_pos him, if_pos (by simp [him])]
            exact add_left_comm _ _ _
          · rw [if_neg him, if_neg (by simp [him, Ne.symm hai]), zero_add, zero_add]
    rw [key _ List.nodup_range, if_pos (List.mem_range.2 hi.1)]

open Classical in
/-- C61: taking over a map of higher resolution puts into every pixel the sum of the finer pixels whose centres it contains;
pixels containing no centre keep their value; the finer map is left as it was. -/
theorem c61_downgrade {V : Type} [AddCommMonoid V] (o : Orders) (g : Geometry V) (a b : HMap V) (ha : Whole a) (hb : Whole b)
    (hn : a.nside < b.nside) (hg : ∀ k, k < npix b.nside → g.locate a b k < npix a.nside) :
    ∃ a', fromHpm o g a b = some (a', b) ∧ a'.scheme = a.scheme ∧ a'.nside = a.nside ∧ a'.map.length = npix a.nside ∧
      ∀ i, i < npix a.nside → a'.map[i]? =
        if ∃ k, k < npix b.nside ∧ g.locate a b k = i
        then some ((((List.range (npix b.nside)).filter (fun k => decide (g.locate a b k = i))).filterMap (fun k => b.map[k]?)).sum)
        else a.map[i]? := by
  obtain ⟨al, an, ap⟩ := ha
  obtain ⟨bl, bn, bp⟩ := hb
  obtain ⟨vs, e1, e2, e3⟩ := get_nat b.map id (npix b.nside) (by intro k hk; rw [bl]; exact hk)
  have hvs : vs = b.map := by
    apply List.ext_getElem?
    intro k
    by_cases hk : k < npix b.nside
    · exact e3 k hk
    · rw [List.getElem?_eq_none (by omega), List.getElem?_eq_none (by omega)]
  subst hvs
  rw [List.map_id] at e1
  have hs : Small a.map.length ((List.range (npix b.nside)).map (fun k => (g.locate a b k : Int))) := by
    have := small_nat a.map.length ((List.range (npix b.nside)).map (g.locate a b)) (by omega) (by
      intro p hp
      rw [List.mem_map] at hp
      obtain ⟨k, hk, rfl⟩ := hp
      rw [al]
      exact hg k (List.mem_range.1 hk))
    rw [List.map_map] at this
    exact this
  cases h : setPx a.map ((List.range (npix b.nside)).map (fun k => (g.locate a b k : Int))) (.arr b.map) with
  | none =>
    exfalso
    rcases (c30_raises_iff a.map _ _ hs).1 h with h | ⟨p, hp, h⟩
    · simp [Val.toList, bl] at h
    · rw [List.mem_map] at hp
      obtain ⟨k, hk, rfl⟩ := hp
      exact h _ ((idx_nat _ _ _).2 ⟨by rw [al]; exact hg k (List.mem_range.1 hk), rfl⟩)
  | some m' =>
    obtain ⟨h1, _, h3⟩ := c30_assign a.map m' _ _ hs h
    refine ⟨{ a with map := m' }, ?_, rfl, rfl, by rw [h1, al], ?_⟩
    · unfold fromHpm
      rw [if_neg (by omega), if_pos hn, e1, Option.bind_some, h]
      rfl
    · intro i hi
      show m'[i]? = _
      rw [h3 i (by omega)]
      have hiff : (∃ p ∈ (List.range (npix b.nside)).map (fun k => (g.locate a b k : Int)), Idx a.map.length p i) ↔
          ∃ k, k < npix b.nside ∧ g.locate a b k = i := by
        constructor
        · rintro ⟨p, hp, hi⟩
          rw [List.mem_map] at hp
          obtain ⟨k, hk, rfl⟩ := hp
          exact ⟨k, List.mem_range.1 hk, ((idx_nat _ _ _).1 hi).2⟩
        · rintro ⟨k, hk, rfl⟩
          exact ⟨_, List.mem_map.2 ⟨k, List.mem_range.2 hk, rfl⟩, (idx_nat _ _ _).2 ⟨by omega, rfl⟩⟩
      by_cases hc : ∃ k, k < npix b.nside ∧ g.locate a b k = i
      · rw [if_pos (hiff.2 hc), if_pos hc]
        congr 1
        unfold sumFor
        have : ∀ (ks : List Nat) (ws : List V), (∀ j, j < ks.length → ∃ k, ks[j]? = some k ∧ b.map[k]? = ws[j]?) → ks.length = ws.length →
            (((ks.map (fun k => (g.locate a b k : Int))).zip ws).filter (fun e => decide (Idx a.map.length e.1 i))).map Prod.snd =
              (ks.filter (fun k => decide (g.locate a b k = i))).filterMap (fun k => b.map[k]?) := by
          intro ks
          induction ks with
          | nil => intro ws _ _; simp
          | cons k ks ih =>
            intro ws hw hlen
            cases ws with
            | nil => simp at hlen
            | cons w ws =>
              rw [List.map_cons, List.zip_cons_cons, List.filter_cons, List.filter_cons]
              have hrec := ih ws (fun j hj => by
                obtain ⟨k', h1, h2⟩ := hw (j + 1) (by simp; omega)
                exact ⟨k', by simpa using h1, by simpa using h2⟩) (by simpa using hlen)
              obtain ⟨k', hk', hw'⟩ := hw 0 (by simp)
              simp only [List.getElem?_cons_zero, Option.some.injEq] at hk' hw'
              subst hk'
              by_cases hki : g.locate a b k = i
              · rw [if_pos (by simp only [decide_eq_true_eq]; exact (idx_nat _ _ _).2 ⟨by omega, hki⟩), if_pos (by simpa using hki),
                  List.map_cons, List.filterMap_cons_some hw', hrec]
              · rw [if_neg (by simp only [decide_eq_true_eq, idx_nat]; tauto), if_neg (by simpa using hki), hrec]
        rw [show (Val.arr b.map).toList = b.map from rfl]
        rw [this (List.range (npix b.nside)) b.map (by
          intro j hj
          rw [List.length_range] at hj
          exact ⟨j, List.getElem?_range hj, rfl⟩) (by simp [bl])]
      · rw [if_neg (fun h => hc (hiff.1 h)), if_neg hc]

/-- C61: if every coarse pixel contains the centre of a fine one, the total over the map is kept. -/
theorem c61_total {V : Type} [AddCommMonoid V] (o : Orders) (g : Geometry V) (a b a' b' : HMap V) (ha : Whole a) (hb : Whole b)
    (hn : a.nside < b.nside) (hg : ∀ k, k < npix b.nside → g.locate a b k < npix a.nside)
    (hit : ∀ i, i < npix a.nside → ∃ k, k < npix b.nside ∧ g.locate a b k = i) (h : fromHpm o g a b = some (a', b')) :
    a'.map.sum = b.map.sum := by
  classical
  obtain ⟨al, an, ap⟩ := ha
  obtain ⟨bl, bn, bp⟩ := hb
  have hs : Small a.map.length ((List.range (npix b.nside)).map (fun k => (g.locate a b k : Int))) := by
    have := small_nat a.map.length ((List.range (npix b.nside)).map (g.locate a b)) (by omega) (by
      intro p hp
      rw [List.mem_map] at hp
      obtain ⟨k, hk, rfl⟩ := hp
      rw [al]
      exact hg k (List.mem_range.1 hk))
    rw [List.map_map] at this
    exact this
  unfold fromHpm at h
  rw [if_neg (by omega), if_pos hn, Option.bind_eq_some_iff] at h
  obtain ⟨vs, e1, e2⟩ := h
  obtain ⟨vs', e1', hlen, e3⟩ := get_nat b.map id (npix b.nside) (by intro k hk; rw [bl]; exact hk)
  rw [List.map_id, e1, Option.some.injEq] at e1'
  subst e1'
  have hvs : vs = b.map := by
    apply List.ext_getElem?
    intro k
    by_cases hk : k < npix b.nside
    · exact e3 k hk
    · rw [List.getElem?_eq_none (by omega), List.getElem?_eq_none (by omega)]
  subst hvs
  rw [Option.map_eq_some_iff] at e2
  obtain ⟨m', hm, he⟩ := e2
  rw [Prod.mk.injEq] at he
  rw [← he.1]
  show m'.sum = _
  obtain ⟨h1, h2, h3⟩ := c30_assign a.map m' _ _ hs hm
  have hm' : m' = (List.range a.map.length).map (fun i => sumFor a.map.length
      ((List.range (npix b.nside)).map (fun k => (g.locate a b k : Int))) b.map i) := by
    apply List.ext_getElem?
    intro i
    by_cases hi : i < a.map.length
    · rw [h3 i hi, if_pos, List.getElem?_map, List.getElem?_range hi]
      · rfl
      · obtain ⟨k, hk, rfl⟩ := hit i (by omega)
        exact ⟨_, List.mem_map.2 ⟨k, List.mem_range.2 hk, rfl⟩, (idx_nat _ _ _).2 ⟨hi, rfl⟩⟩
    · rw [List.getElem?_eq_none (by omega), List.getElem?_eq_none (by simp; omega)]
  rw [hm']
  unfold sumFor
  rw [sum_filter_partition _ _ _ (fun e i => Classical.propDecidable _)]
  · congr 1
    rw [List.map_snd_zip]
    simp [bl]
  · intro e he
    have := (List.of_mem_zip he).1
    rw [List.mem_map] at this
    obtain ⟨k, hk, hke⟩ := this
    rw [← hke]
    exact ⟨_, (idx_nat _ _ _).2 ⟨by rw [al]; exact hg k (List.mem_range.1 hk), rfl⟩⟩

/-- C61 fails in the other direction: taking over a coarser map switches interpolation on in that map for good. -/
theorem c61_source_modified_violated {V : Type} [AddCommMonoid V] (o : Orders) (g : Geometry V) (a b a' b' : HMap V)
    (hn : b.nside < a.nside) (h : fromHpm o g a b = some (a', b')) : b'.interp = true := by
  unfold fromHpm at h
  rw [if_pos hn, Option.map_eq_some_iff] at h
  obtain ⟨m, _, he⟩ := h
  rw [Prod.mk.injEq] at he
  rw [← he.2]

/-- an interpolating source is needed for that branch to run at all: here from 12 to 48 pixels -/
example : (fromHpm exOrders ⟨fun h _ k => h.map.getD (k / 4) 0, fun _ _ _ => 0⟩ (⟨2, .nest, List.replicate 48 0, false⟩ : HMap Nat)
    ⟨1, .nest, List.range 12, false⟩).map (fun r => (r.1.map.take 6, r.2.interp)) = some ([0, 0, 0, 0, 1, 1], true) := by
  decide +kernel

/-- NEST ordering: the four pixels 4i..4i+3 lie in pixel i -/
example : (fromHpm exOrders ⟨fun _ _ _ => 0, fun _ _ k => k / 4⟩ (⟨1, .nest, List.replicate 12 7, false⟩ : HMap Nat)
    ⟨2, .nest, List.range 48, false⟩).map (fun r => r.1.map.take 3) = some [6, 22, 38] := by
  decide +kernel

end Verif.Sky
