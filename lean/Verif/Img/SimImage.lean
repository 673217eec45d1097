import Verif.Img.WProj
import Verif.Amp.Props
/-!
# Property C78 : a simulated source appears in its own pixel

`AntennaArray.sim` (C17, C18), `phs2src` and `gen_uvw` (C14, C15), `Img.get_eq` (C75) and `ImgW.put` (C77) together: the
signs and frames these use agree with one another.
-/
noncomputable section
namespace Verif.Img
open Verif.Coord Verif.Phs Verif.Amp

/-! ## Specification -/

/-- the array as `phs.AntennaArray` sees it: positions, frequencies, place and time -/
def toPhs (sa : SArr) (lst : ℝ) : Arr := ⟨sa.ants.map (fun s => ⟨s.pos, []⟩), sa.afreqs, sa.lat, lst, true⟩

/-- gains and beams a visibility carries: its natural weight -/
def gainOf (sa : SArr) (lst : ℝ) (ai aj : SAnt) (pl : Char × Char) (f : ℝ) (eq : Vec) : ℂ :=
  (aj.gain pl.2 f * (starRingEnd ℂ) (ai.gain pl.1 f)) *
    (aj.beam pl.2 (skyTop sa.lat lst eq) f * (starRingEnd ℂ) (ai.beam pl.1 (skyTop sa.lat lst eq) f))

/-- a sample made by the documented calls: `v = sim(i,j)` after the calls `ops`, `d = phs2src(v, centre, i, j)` (offsets
of the polarisation set), `u,v,w = gen_uvw(i, j, centre)`; channel k -/
structure Measured (sa : SArr) (lst0 : ℝ) (ops : List Op) (pl : Char × Char) (eq : Vec) (centre : Src) (s : Samp) where
  i : Nat
  j : Nat
  k : Nat
  f : ℝ
  ai : SAnt
  aj : SAnt
  st : St
  v : List ℂ
  p : List ℂ
  d : List ℂ
  b : Vec
  hi : sa.ants[i]? = some ai
  hj : sa.ants[j]? = some aj
  hf : sa.afreqs[k]? = some f
  hv : sim sa (run sa (.init lst0) ops) i j = .ok (st, v)
  hp : genPhsWith sa.J1 (.ok (sa.afreqs.map (offsetAt ai aj pl))) (toPhs sa (Hist.of lst0 ops).lst) centre i j 0 none none false
    = .ok p
  hd : bcast (· * ·) v p = .ok d
  hb : getBaseline (toPhs sa (Hist.of lst0 ops).lst) i j centre = .ok b
  hs : some s = (d[k]?).map (fun x => ⟨(uvwAt b f).1, (uvwAt b f).2.1, (uvwAt b f).2.2, x,
    gainOf sa (Hist.of lst0 ops).lst ai aj pl f eq⟩)

/-! ## C78 -/

theorem expPhs_turn (w o : ℝ) : expPhs w o = turn (-(w + o)) := by
  unfold expPhs turn
  congr 1
  push_cast
  ring

/-- C78: data simulated for a point source that stands at a pixel, phased to the centre of the image, have the phase that
the image makes of that pixel: a source of the flux of the catalog, at the (l,m) of the pixel, weighted with gains and
beams. -/
theorem c78_phase (n : Nat) (hn : n ≠ 0) (res ra dec : ℝ) (center : ℤ × ℤ) (e : List (List (Option Vec)))
    (g : List (List (Option (ℝ × ℝ)))) (he : getEq n res ra dec center = some e) (hg : getLM n res center = some g)
    (r c : Nat) (hr : r < n) (hc : c < n) (ve : Vec) (l m : ℝ) (hve : at2 e r c = some (some ve))
    (hlm : at2 g r c = some (some (l, m)))
    (sa : SArr) (hf0 : (0 : ℝ) ∉ sa.afreqs) (lst0 : ℝ) (ops : List Op) (hne : NoEphem ops) (pl : Char × Char)
    (hpl : (Hist.of lst0 ops).pol = some pl) (row : Row) (hsrc : (Hist.of lst0 ops).srcs = some [row])
    (hrow : row.eq = ve) (hion : row.ion = (0, 0)) (hsh : row.shape = (0, 0, 0))
    (hup : 0 < skyTop sa.lat (Hist.of lst0 ops).lst ve 2) (alt : ℝ) (sh : ℝ × ℝ × ℝ) (s : Samp)
    (M : Measured sa lst0 ops pl ve (.body alt (bodyMap (Hist.of lst0 ops).lst ra dec) (0, 0) sh) s) :
    IsSource (row.jys M.f) (l, m) s ∧ s.wt = gainOf sa (Hist.of lst0 ops).lst M.ai M.aj pl M.f ve := by
  obtain ⟨i, j, k, f, ai, aj, st, v, p, d, b, hi, hj, hf, hv, hp, hd, hb, hs⟩ := M
  simp only
  obtain ⟨rows, ai', aj', -, k2, k3, k4, k5⟩ := c18_never_stale sa lst0 ops hne i j st v hv
  rw [hsrc] at k2; rw [hi] at k3; rw [hj] at k4
  cases k2; cases k3; cases k4
  have hv' := k5 pl hpl
  set lst := (Hist.of lst0 ops).lst with hlst
  have hupr : upRows sa lst [row] = [row] := by
    unfold upRows
    rw [List.filter_cons, if_pos (by rw [hrow]; simpa using hup), List.filter_nil]
  unfold vis at hv'
  rw [hupr] at hv'
  -- the phases of the centre
  have hp' : p = sa.afreqs.map (fun f => expPhs (b 2 * f) (offsetAt ai aj pl f)) := by
    unfold genPhsWith at hp
    rw [hb] at hp
    simp only [bind, Except.bind, Src.ionref, Option.or, Option.isSome_some] at hp
    have : ¬ (True ∧ (0 : ℝ) ∈ (toPhs sa lst).afreqs) := fun h => hf0 h.2
    simp only [this, if_false, Bool.false_eq_true, pure, Except.pure, Except.ok.injEq] at hp
    rw [← hp]
    show List.zipWith _ sa.afreqs (sa.afreqs.map _) = _
    rw [List.zipWith_map_right, List.zipWith_self]
    apply List.map_congr_left
    intro f _
    simp [wAt, uvwAt, refractAt, ampAt]
  have hd' : d = sa.afreqs.map (fun f => vis1 sa lst ai aj pl f row * expPhs (b 2 * f) (offsetAt ai aj pl f)) := by
    unfold bcast at hd
    rw [if_pos (by rw [hv', hp']; simp)] at hd
    cases hd
    rw [hv', hp', List.zipWith_map, List.zipWith_self]
    apply List.map_congr_left
    intro f _
    simp
  rw [hd', List.getElem?_map, hf] at hs
  simp only [Option.map_some, Option.some.injEq] at hs
  rw [hs]
  refine ⟨?_, rfl⟩
  unfold IsSource
  simp only
  -- the baseline towards the source
  have hbs : getBaseline (toPhs sa lst) i j (.vec ve) = .ok ((eq2top_m (lst - (eq2radec ve).1) (eq2radec ve).2).mulVec (aj.pos - ai.pos)) := by
    refine getBaseline_ok.2 ⟨⟨ai.pos, []⟩, ⟨aj.pos, []⟩, _, ?_, ?_, rfl, rfl⟩
    · simp [toPhs, hi]
    · simp [toPhs, hj]
  have hdel := c75_delay n hn res ra dec center e g he hg r c hr hc ve l m hve hlm (toPhs sa lst) i j alt (0, 0) sh b _ hb hbs
  unfold vis1 phsAt
  rw [hrow, hion, hsh]
  simp only [ampAt, resolveAt, wAt, uvwAt, refractAt, airy, zero_mul, add_zero, zero_div, ne_eq, OfNat.ofNat_ne_zero,
    not_false_eq_true, zero_pow, Real.sqrt_zero, mul_zero, if_true, Complex.ofReal_one, mul_one]
  rw [hdel, expPhs_turn, expPhs_turn, turn_conj, neg_neg]
  unfold gainOf nOf
  simp only
  rw [mul_assoc, ← turn_add]
  have : ((l * b 0 + m * b 1 + √(1 - l ^ 2 - m ^ 2) * b 2) * f + offsetAt ai aj pl f + -(b 2 * f + offsetAt ai aj pl f)) =
      b 0 * f * l + b 1 * f * m + b 2 * f * (√(1 - l ^ 2 - m ^ 2) - 1) := by ring
  rw [this]
  ring

/-- C78: the calls go through: for any two antennas and any channel there is such a sample, when the sources have been
given to `sim_cache`, a polarisation is set and the centre is above the horizon; if only one channel is active, not more
than one source may be up (`c18_one_channel_violated`). -/
theorem c78_total (sa : SArr) (hf0 : (0 : ℝ) ∉ sa.afreqs) (lst0 : ℝ) (ops : List Op) (hne : NoEphem ops) (pl : Char × Char)
    (hpl : (Hist.of lst0 ops).pol = some pl) (rows : List Row) (ht : (Hist.of lst0 ops).timeSet = true)
    (hsrc : (Hist.of lst0 ops).srcs = some rows) (eq : Vec) (ra dec alt : ℝ) (ha : 0 ≤ alt) (sh : ℝ × ℝ × ℝ) (i j k : Nat)
    (ai aj : SAnt) (f : ℝ) (hi : sa.ants[i]? = some ai) (hj : sa.ants[j]? = some aj) (hf : sa.afreqs[k]? = some f)
    (h1 : sa.afreqs.length ≠ 1 ∨ (upRows sa (Hist.of lst0 ops).lst rows).length ≤ 1) :
    ∃ s, ∃ M : Measured sa lst0 ops pl eq (.body alt (bodyMap (Hist.of lst0 ops).lst ra dec) (0, 0) sh) s,
      M.i = i ∧ M.j = j ∧ M.k = k ∧ M.f = f := by
  obtain ⟨st, hv⟩ := c18_answers_partial sa lst0 ops hne i j rows ai aj pl hi hj hf0 ht hsrc hpl h1
  set lst := (Hist.of lst0 ops).lst with hlst
  have hb : getBaseline (toPhs sa lst) i j (.body alt (bodyMap lst ra dec) (0, 0) sh) =
      .ok ((bodyMap lst ra dec).mulVec (aj.pos - ai.pos)) := by
    refine getBaseline_ok.2 ⟨⟨ai.pos, []⟩, ⟨aj.pos, []⟩, some (bodyMap lst ra dec), ?_, ?_, ?_, rfl⟩
    · simp [toPhs, hi]
    · simp [toPhs, hj]
    · show bodyProj _ _ = _
      unfold bodyProj
      rw [if_neg (by linarith)]
  have hp : ∃ p, genPhsWith sa.J1 (.ok (sa.afreqs.map (offsetAt ai aj pl))) (toPhs sa lst)
      (.body alt (bodyMap lst ra dec) (0, 0) sh) i j 0 none none false = .ok p ∧ p.length = sa.afreqs.length := by
    unfold genPhsWith
    rw [hb]
    simp only [bind, Except.bind, Src.ionref, Option.or, Option.isSome_some]
    have : ¬ (True ∧ (0 : ℝ) ∈ (toPhs sa lst).afreqs) := fun h => hf0 h.2
    simp only [this, if_false, Bool.false_eq_true, pure, Except.pure]
    refine ⟨_, rfl, ?_⟩
    simp [toPhs]
  obtain ⟨p, hp1, hp2⟩ := hp
  have hlen : (vis sa lst ai aj pl rows).length = p.length := by rw [hp2]; simp [vis]
  have hk : k < (List.zipWith (· * ·) (vis sa lst ai aj pl rows) p).length := by
    have := (List.getElem?_eq_some_iff.1 hf).1
    simp [vis, hp2, this]
  refine ⟨⟨(uvwAt ((bodyMap lst ra dec).mulVec (aj.pos - ai.pos)) f).1, (uvwAt ((bodyMap lst ra dec).mulVec (aj.pos - ai.pos)) f).2.1,
    (uvwAt ((bodyMap lst ra dec).mulVec (aj.pos - ai.pos)) f).2.2, (List.zipWith (· * ·) (vis sa lst ai aj pl rows) p)[k],
    gainOf sa lst ai aj pl f eq⟩,
    ⟨i, j, k, f, ai, aj, st, vis sa lst ai aj pl rows, p, List.zipWith (· * ·) (vis sa lst ai aj pl rows) p, _, hi, hj, hf, hv,
      hp1, ?_, hb, ?_⟩, rfl, rfl, rfl, rfl⟩
  · unfold bcast
    rw [if_pos hlen]
  · rw [List.getElem?_eq_getElem hk]
    rfl

/-- C78: visibilities of any baselines and channels, simulated for a point source of flux S standing at a pixel above the
horizon, phased to the centre and put into an `ImgW`: that pixel holds, but for the factor 1/dim² of `c77_scale_fails` and
up to the error of taking one w for each chunk, the flux times the gains and beams, gridded as if the array were
coplanar. -/
theorem c78_image (n : Nat) (hn : n ≠ 0) (res : ℝ) (hres : res ≠ 0) (ra dec : ℝ) (center : ℤ × ℤ)
    (e : List (List (Option Vec))) (he : getEq n res ra dec center = some e) (r c : Nat) (hr : r < n) (hc : c < n) (ve : Vec)
    (hve : at2 e r c = some (some ve)) (sa : SArr) (hf0 : (0 : ℝ) ∉ sa.afreqs) (lst0 : ℝ) (ops : List Op)
    (hne : NoEphem ops) (pl : Char × Char) (hpl : (Hist.of lst0 ops).pol = some pl) (row : Row)
    (hsrc : (Hist.of lst0 ops).srcs = some [row]) (hrow : row.eq = ve) (hion : row.ion = (0, 0))
    (hsh : row.shape = (0, 0, 0)) (hup : 0 < skyTop sa.lat (Hist.of lst0 ops).lst ve 2) (alt : ℝ) (sh : ℝ × ℝ × ℝ) (S : ℝ)
    (hS : ∀ f ∈ sa.afreqs, row.jys f = S) (samples : List Samp) (hsn : samples ≠ [])
    (M : ∀ s ∈ samples, Nonempty (Measured sa lst0 ops pl ve (.body alt (bodyMap (Hist.of lst0 ops).lst ra dec) (0, 0) sh) s))
    (wres : ℝ) (hw : 0 < wres) (order : List Nat) (ho : SortsByW order samples) (W : ℝ) (hW : ∀ s ∈ samples, |s.w| ≤ W) :
    ∃ q p, Offset n center r c q p ∧ ∃ gw gi imw imi x y,
      (⟨n, res, wres, fun _ => 0, fun _ => 0, []⟩ : WImage).put (convW n res) order samples = some gw ∧
      (Image.new n res 0).put (samples.map (fun s => (s.u, s.v))) (flatData S (lOf n res p, mOf n res q) samples)
        [samples.map (fun s => s.wt)] = some gi ∧
      genImg n gw.uv center = some imw ∧ genImg n gi.uv center = some imi ∧ at2 imw r c = some x ∧ at2 imi r c = some y ∧
      |n * n * x - y| ≤ 4 * Real.pi * wres * √W * (1 - nOf (lOf n res p, mOf n res q)) *
        ((samples.map (fun s => ‖flatTerm res S (lOf n res p, mOf n res q) s‖)).sum / (n * n)) ∧
      ((∀ s ∈ samples, ∀ t ∈ samples, |ssqrt s.w - ssqrt t.w| < wres → s.w = t.w) → n * n * x = y) := by
  obtain ⟨q, p, hoff⟩ := offset_exists n hn center r c
  obtain ⟨g, hg, -, hat⟩ := c75_lm n hn res center
  have hgp := hat r c hr hc q p hoff
  obtain ⟨g', t', e', k1, k2, k3, hat'⟩ := c75_directions n hn res ra dec center
  rw [hg] at k1; rw [he] at k3
  cases k1; cases k3
  have hvis : (lOf n res p) ^ 2 + (mOf n res q) ^ 2 < 1 ∧ at2 g r c = some (some (lOf n res p, mOf n res q)) := by
    rcases hat' r c hr hc with h | ⟨l, m, _, _, h, _⟩
    · rw [hve] at h; cases h.2.2
    · rw [hgp] at h
      unfold lOf mOf
      split at h
      · rename_i hlt
        exact ⟨hlt, by rw [hgp, if_pos hlt]⟩
      · cases h
  refine ⟨q, p, hoff, ?_⟩
  apply c77_source n hn res hres wres hw order samples ho hsn center r c hr hc q p hoff hvis.1 S W _ hW
  intro s hs
  obtain ⟨Ms⟩ := M s hs
  have := (c78_phase n hn res ra dec center e g he hg r c hr hc ve _ _ hve hvis.2 sa hf0 lst0 ops hne pl hpl row hsrc hrow
    hion hsh hup alt sh s Ms).1
  rwa [hS _ (List.mem_of_getElem? Ms.hf)] at this

/-- an array of two antennas at two frequencies, time, source and polarisation set -/
example : (Hist.of 0 [.setJultime 0, .simCache [⟨![1, 0, 0], fun _ => 10, 1, (0, 0), (0, 0, 0)⟩], .setPol ('x', 'x')]).timeSet = true ∧
    (Hist.of 0 [.setJultime 0, .simCache [⟨![1, 0, 0], fun _ => 10, 1, (0, 0), (0, 0, 0)⟩], .setPol ('x', 'x')]).pol = some ('x', 'x') ∧
    (Hist.of 0 [.setJultime 0, .simCache [⟨![1, 0, 0], fun _ => 10, 1, (0, 0), (0, 0, 0)⟩], .setPol ('x', 'x')]).srcs =
      some [⟨![1, 0, 0], fun _ => 10, 1, (0, 0), (0, 0, 0)⟩] ∧
    0 < skyTop 0 (Hist.of 0 [.setJultime 0, .simCache [⟨![1, 0, 0], fun _ => 10, 1, (0, 0), (0, 0, 0)⟩], .setPol ('x', 'x')]).lst ![1, 0, 0] 2 ∧
    NoEphem [.setJultime 0, .simCache [⟨![1, 0, 0], fun _ => 10, 1, (0, 0), (0, 0, 0)⟩], .setPol ('x', 'x')] ∧
    (0 : ℝ) ∉ [1 / 10, 3 / 20] := by
  refine ⟨rfl, rfl, rfl, ?_, ?_, by norm_num⟩
  · show 0 < skyTop 0 0 ![1, 0, 0] 2
    simp [skyTop, eq2top_m, Matrix.mulVec, dotProduct, Fin.sum_univ_three]
  · intro o ho t
    simp only [List.mem_cons, List.not_mem_nil, or_false] at ho
    rcases ho with rfl | rfl | rfl <;> simp

end Verif.Img
