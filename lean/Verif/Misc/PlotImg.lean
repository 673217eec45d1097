import Verif.Util.ND
import Mathlib.Analysis.SpecialFunctions.Complex.Arg
import Mathlib.Analysis.SpecialFunctions.Trigonometric.Inverse
import Mathlib.Analysis.SpecialFunctions.Log.Base
import Mathlib.Algebra.Order.Floor.Ring
import Mathlib.Algebra.Order.Round
import Mathlib.Data.Nat.Sqrt
import Mathlib.Tactic.Ring
import Mathlib.Tactic.Linarith
import Mathlib.Tactic.FieldSimp
import Mathlib.Tactic.NormNum
import Mathlib.Tactic.LinearCombination

/-!
# plot_img.py (C137)

What is shown of a FITS image: the axes are looked up by name, channels and a polarisation are taken, the other axes averaged (50-70), the values
of `-m` (76-84), the limits (86-89), the panels and files (32-44, 110-113), and what a click prints (117-141).

Simplified: exact numbers; the image is the array and the keywords `from_fits` returns (C117); `parse_chans` is a parameter (C05); the picture of
`Basemap` is the orthographic projection, its columns and rows fill the rectangle given with the corners (`map.imshow`), and the middle of the disc
is at (1, 1).  `-f` is not modelled.
-/
set_option linter.unusedSectionVars false
set_option linter.unusedVariables false

noncomputable section
namespace Verif.Misc.PlotImg
open Verif.ND

/-! ## Model -/

/-- `d.take(l, axis=ax)`, plot_img.py 60, 63; `none` is the IndexError -/
def takeAx (ax : ℕ) (l : List ℕ) (a : Arr ℝ) : Option (Arr ℝ) :=
  match a.shape[ax]? with
  | none => none
  | some n => if l.all (· < n) then some ⟨a.shape.set ax l.length, fun ix => a.get (ix.set ax (l.getD (ix.getD ax 0) 0))⟩ else none

/-- `np.average(d, axis=ax)`, plot_img.py 68; `none` if there is nothing to average -/
def avgAx (ax : ℕ) (a : Arr ℝ) : Option (Arr ℝ) :=
  match a.shape[ax]? with
  | none => none
  | some n => if n = 0 then none else
    some ⟨a.shape.eraseIdx ax, fun ix => ((List.range n).map fun j => a.get (ix.insertIdx ax j)).sum / n⟩

/-- an index as numpy takes it: from the end if it is negative -/
def index (n : ℕ) (i : ℤ) : Option ℕ := if 0 ≤ i then some i.toNat else if -(n : ℤ) ≤ i then some (i + n).toNat else none

/-- the variables of the loop, plot_img.py 51-52 -/
structure St where
  d : Arr ℝ
  compress : List ℕ
  ra : ℕ
  dec : ℕ

/-- one turn, plot_img.py 54-64; `chans n` is `parse_chans(opts.chan, n)` -/
def step (chans : ℕ → Option (List ℕ)) (pol : ℤ) (s : St) (i : ℕ) (name : List Char) : Option St :=
  if "ra".toList.isPrefixOf name then some { s with ra := i }
  else if "dec".toList.isPrefixOf name then some { s with dec := i }
  else if "freq".toList.isPrefixOf name then do
    let n ← s.d.shape[i]?
    let l ← chans n
    let d ← takeAx i l s.d
    some { s with d := d, compress := s.compress ++ [i] }
  else if "stokes".toList.isPrefixOf name then do
    let n ← s.d.shape[i]?
    let p ← index n pol
    let d ← takeAx i [p] s.d
    some { s with d := d, compress := s.compress ++ [i] }
  else some s

/-- the loop, plot_img.py 54-64 -/
def loop (chans : ℕ → Option (List ℕ)) (pol : ℤ) : ℕ → List (List Char) → St → Option St
  | _, [], s => some s
  | i, name :: rest, s => (step chans pol s i name).bind (loop chans pol (i + 1) rest)

/-- plot_img.py 67-68 -/
def average : List ℕ → Arr ℝ → Option (Arr ℝ)
  | [], a => some a
  | ax :: axs, a => (avgAx ax a).bind (average axs)

/-- `d.transpose((p,q))`, plot_img.py 71; `none` is the ValueError -/
def transpose (p q : ℕ) (a : Arr ℝ) : Option (Arr ℝ) :=
  match a.shape with
  | [m, n] =>
    if p = 0 ∧ q = 1 then some a
    else if p = 1 ∧ q = 0 then some ⟨[n, m], fun ix => a.get ix.reverse⟩
    else none
  | _ => none

/-- plot_img.py 51-71: the array that is plotted -/
def picture (chans : ℕ → Option (List ℕ)) (pol : ℤ) (axes : List (List Char)) (d : Arr ℝ) : Option (Arr ℝ) :=
  (loop chans pol 0 axes ⟨d, [], 0, 1⟩).bind fun s => (average s.compress.reverse s.d).bind (transpose s.ra s.dec)

/-- `-m` -/
inductive Mode | phs | lin | real | imag | log
  deriving DecidableEq

/-- the value plotted for a real value, plot_img.py 76-84; `none` is masked -/
def value (m : Mode) (x : ℝ) : Option ℝ :=
  match m with
  | .phs => some (Complex.arg (x : ℂ))
  | .lin => some |x|
  | .real => some x
  | .imag => some 0
  | .log => if |x| ≤ 0 then none else some (Real.log |x| / Real.log 10)

/-- what a click prints as flux, plot_img.py 133-134, 139-140 -/
def flux (m : Mode) (x : ℝ) : Option ℝ := (value m x).map fun v => if m = .log then (10 : ℝ) ^ v else v

/-- `max` and `min`, plot_img.py 86-89; `hi` and `lo` are the largest and the smallest value -/
def limits (max drng : Option ℝ) (hi lo : ℝ) : ℝ × ℝ :=
  let mx := max.getD hi
  (match drng with | some r => mx - r | none => lo, mx)

/-- `m2`, `m1`, plot_img.py 33-36; `none` is the ZeroDivisionError -/
def grid (batch : Bool) (n : ℕ) : Option (ℕ × ℕ) :=
  if batch then some (1, 1)
  else if Nat.sqrt n = 0 then none
  else some (Nat.sqrt n, (n + Nat.sqrt n - 1) / Nat.sqrt n)

/-- `--batch`, plot_img.py 38-46, 110-113: the files there are, and the pictures written (of which image) -/
def batchStep {Name : Type} [DecidableEq Name] (png : Name → Name) (s : List Name × List (Name × Name)) (f : Name) : List Name × List (Name × Name) :=
  if png f ∈ s.1 then s else (png f :: s.1, s.2 ++ [(png f, f)])

/-- all files -/
def batch {Name : Type} [DecidableEq Name] (png : Name → Name) (there : List Name) (files : List Name) : List (Name × Name) :=
  (files.foldl (batchStep png) (there, [])).2

/-- `dx1`, `dx2` (and `dy1`, `dy2`), plot_img.py 95-98; `deg2rad`, img.py 17 -/
def corners (px : ℕ) (delta : ℝ) : ℝ × ℝ :=
  (-((px : ℝ) / 2 + 0.5) * delta * (Real.pi / 180), ((px : ℝ) / 2 - 0.5) * delta * (Real.pi / 180))

/-- where `map.imshow` puts the point `s` (from 0 to 1) of column `c` of `n` -/
def place (e : ℝ × ℝ) (n c : ℕ) (s : ℝ) : ℝ := e.1 + (c + s) / n * (e.2 - e.1)

/-- the orthographic projection's inverse: longitude from the middle, and latitude -/
def orthoInv (lat0 x y : ℝ) : ℝ × ℝ :=
  let z := Real.sqrt (1 - x ^ 2 - y ^ 2)
  (Complex.arg ⟨z * Real.cos lat0 - y * Real.sin lat0, x⟩, Real.arcsin (y * Real.cos lat0 + z * Real.sin lat0))

/-- `x % m` of python -/
def pmod (x m : ℝ) : ℝ := x - m * ⌊x / m⌋

/-- the position a click prints, plot_img.py 124-127; `x`, `y` from the middle of the disc -/
def clickDir (ra dec x y : ℝ) : ℝ × ℝ :=
  let o := orthoInv (dec * (Real.pi / 180)) x y
  let lon := 180 + o.1 * (180 / Real.pi)
  (pmod (180 + ra - lon) 360 * (Real.pi / 180), o.2)

/-- the pixel a click prints and reads, plot_img.py 128-129: `event.xdata` is `x + 1` -/
def clickPx (e : ℝ × ℝ) (n : ℕ) (xdata : ℝ) : ℤ := round ((xdata - 1 - e.1) / (e.2 - e.1) * n - 0.5)

/-- the longitudes of `drawmeridians`, plot_img.py 101 -/
def meridian (ra : ℝ) (k : ℕ) : ℝ := ra - 180 + 30 * k

/-! ## Specification -/

/-- all ways to choose one of each list -/
def choices : List (List ℕ) → List (List ℕ)
  | [] => [[]]
  | l :: ls => l.flatMap fun x => (choices ls).map (x :: ·)

/-- the mean of a list -/
def mean (l : List ℝ) : ℝ := l.sum / l.length

/-- what an axis of the given name and length contributes -/
def Selects (chans : ℕ → Option (List ℕ)) (pol : ℤ) (name : List Char) (n : ℕ) (l : List ℕ) : Prop :=
  (∃ t, name = "freq".toList ++ t) ∧ chans n = some l ∧ l ≠ [] ∧ (∀ k ∈ l, k < n) ∨
    (∃ t, name = "stokes".toList ++ t) ∧ ∃ q < n, l = [q] ∧ ((q : ℤ) = pol ∨ (q : ℤ) = n + pol)

/-- the direction of right ascension `r` and declination `d` -/
def dir (r d : ℝ) : ℝ × ℝ × ℝ := (Real.cos d * Real.cos r, Real.cos d * Real.sin r, Real.sin d)

/-- the direction with direction cosines `l` (to the east) and `m` (to the north) from `(r, d)` -/
def seen (r d l m : ℝ) : ℝ × ℝ × ℝ :=
  let z := Real.sqrt (1 - l ^ 2 - m ^ 2)
  (l * -Real.sin r + m * (-Real.sin d * Real.cos r) + z * (Real.cos d * Real.cos r),
    l * Real.cos r + m * (-Real.sin d * Real.sin r) + z * (Real.cos d * Real.sin r),
    m * Real.cos d + z * Real.sin d)

/-! ## The array -/

/-- the nested means, the last list innermost -/
def nested : List (List ℕ) → (List ℕ → ℝ) → ℝ
  | [], f => f []
  | l :: ls, f => (l.map fun x => nested ls fun t => f (x :: t)).sum / l.length

theorem choices_length : ∀ ls : List (List ℕ), (choices ls).length = (ls.map List.length).prod
  | [] => rfl
  | l :: ls => by
    rw [choices, List.length_flatMap, List.map_cons, List.prod_cons, ← choices_length ls]
    simp

theorem sum_flatMap (f : List ℕ → ℝ) (g : ℕ → List (List ℕ)) : ∀ l : List ℕ, ((l.flatMap g).map f).sum = (l.map fun x => ((g x).map f).sum).sum
  | [] => rfl
  | x :: l => by rw [List.flatMap_cons, List.map_append, List.sum_append, List.map_cons, List.sum_cons, sum_flatMap f g l]

theorem sum_div (c : ℝ) (g : ℕ → ℝ) : ∀ l : List ℕ, (l.map fun x => g x / c).sum = (l.map g).sum / c
  | [] => by simp
  | x :: l => by rw [List.map_cons, List.sum_cons, sum_div c g l, List.map_cons, List.sum_cons, add_div]

theorem nested_mean : ∀ (ls : List (List ℕ)) (f : List ℕ → ℝ), nested ls f = mean ((choices ls).map f)
  | [], f => by simp [nested, mean, choices]
  | l :: ls, f => by
    unfold nested
    simp only [nested_mean ls]
    unfold mean
    rw [List.length_map, choices_length, List.map_cons, List.prod_cons, ← choices_length ls, choices, sum_flatMap]
    simp only [List.length_map, List.map_map]
    rw [sum_div ((choices ls).length : ℝ) (fun x => ((choices ls).map fun t => f (x :: t)).sum) l]
    rw [Nat.cast_mul, div_div, mul_comm]
    rfl

theorem nested_snoc : ∀ (ls : List (List ℕ)) (l : List ℕ) (f : List ℕ → ℝ),
    nested (ls ++ [l]) f = nested ls fun t => (l.map fun x => f (t ++ [x])).sum / l.length
  | [], l, f => by simp [nested]
  | m :: ls, l, f => by
    rw [List.cons_append, nested, nested]
    simp only [nested_snoc ls l, List.cons_append]

theorem prefix_iff (p s : List Char) : p.isPrefixOf s = true ↔ ∃ t, s = p ++ t := by
  rw [List.isPrefixOf_iff_prefix]
  exact ⟨fun ⟨t, h⟩ => ⟨t, h.symm⟩, fun ⟨t, h⟩ => ⟨t, h.symm⟩⟩

theorem step_selects {chans : ℕ → Option (List ℕ)} {pol : ℤ} {name : List Char} {n : ℕ} {l : List ℕ} (h : Selects chans pol name n l) (s : St) (i : ℕ)
    (hn : s.d.shape[i]? = some n) :
    step chans pol s i name = some { s with d := ⟨s.d.shape.set i l.length, fun ix => s.d.get (ix.set i (l.getD (ix.getD i 0) 0))⟩,
                                            compress := s.compress ++ [i] } := by
  rcases h with ⟨⟨t, rfl⟩, hc, h0, hl⟩ | ⟨⟨t, rfl⟩, q, hp, rfl, hq⟩
  · have h1 : "ra".toList.isPrefixOf ("freq".toList ++ t) = false := rfl
    have h2 : "dec".toList.isPrefixOf ("freq".toList ++ t) = false := rfl
    have h3 : "freq".toList.isPrefixOf ("freq".toList ++ t) = true := (prefix_iff _ _).2 ⟨t, rfl⟩
    have ht : takeAx i l s.d = some ⟨s.d.shape.set i l.length, fun ix => s.d.get (ix.set i (l.getD (ix.getD i 0) 0))⟩ := by
      unfold takeAx
      rw [hn]
      simp only
      rw [if_pos (by simpa using hl)]
    unfold step
    rw [h1, h2, h3]
    simp only [Bool.false_eq_true, if_false, if_true, hn, hc, ht, Option.bind_eq_bind, Option.bind_some]
  · have h1 : "ra".toList.isPrefixOf ("stokes".toList ++ t) = false := rfl
    have h2 : "dec".toList.isPrefixOf ("stokes".toList ++ t) = false := rfl
    have h3 : "freq".toList.isPrefixOf ("stokes".toList ++ t) = false := rfl
    have h4 : "stokes".toList.isPrefixOf ("stokes".toList ++ t) = true := (prefix_iff _ _).2 ⟨t, rfl⟩
    have ht : takeAx i [q] s.d = some ⟨s.d.shape.set i [q].length, fun ix => s.d.get (ix.set i ([q].getD (ix.getD i 0) 0))⟩ := by
      unfold takeAx
      rw [hn]
      simp only
      rw [if_pos (by simpa using hp)]
    have hi : index n pol = some q := by
      unfold index
      rcases hq with hq | hq
      · rw [← hq, if_pos (Int.natCast_nonneg _), Int.toNat_natCast]
      · rw [if_neg (by omega), if_pos (by omega)]
        congr 1
        omega
    unfold step
    rw [h1, h2, h3, h4]
    simp only [Bool.false_eq_true, if_false, if_true, hn, hi, ht, Option.bind_eq_bind, Option.bind_some]

/-- what the index of a taken array stands for -/
def lookup : List (List ℕ) → List ℕ → List ℕ
  | l :: ls, j :: js => l.getD j 0 :: lookup ls js
  | _, _ => []

/-- the axes after the first two, with their names, lengths and what is taken of them -/
inductive Axes (chans : ℕ → Option (List ℕ)) (pol : ℤ) : List (List Char) → List ℕ → List (List ℕ) → Prop
  | nil : Axes chans pol [] [] []
  | cons {name n l names ns ls} : Selects chans pol name n l → Axes chans pol names ns ls → Axes chans pol (name :: names) (n :: ns) (l :: ls)

theorem Axes.length {chans : ℕ → Option (List ℕ)} {pol : ℤ} {names ns ls} (h : Axes chans pol names ns ls) : names.length = ls.length ∧ ns.length = ls.length := by
  induction h with
  | nil => exact ⟨rfl, rfl⟩
  | cons _ _ ih => simp [ih.1, ih.2]

theorem Selects.ne_nil {chans : ℕ → Option (List ℕ)} {pol : ℤ} {name n l} (h : Selects chans pol name n l) : l ≠ [] := by
  rcases h with ⟨-, -, h, -⟩ | ⟨-, _, -, rfl, -⟩
  · exact h
  · simp

theorem Axes.ne_nil {chans : ℕ → Option (List ℕ)} {pol : ℤ} {names ns ls} (h : Axes chans pol names ns ls) : ∀ l ∈ ls, l ≠ [] := by
  induction h with
  | nil => simp
  | cons h _ ih =>
    intro m hm
    rcases List.mem_cons.1 hm with rfl | hm
    · exact h.ne_nil
    · exact ih m hm

theorem loop_axes {chans : ℕ → Option (List ℕ)} {pol : ℤ} {names ns ls} (h : Axes chans pol names ns ls) : ∀ (pre : List ℕ) (s : St),
    s.d.shape = pre ++ ns → ∃ g, loop chans pol pre.length names s = some ⟨⟨pre ++ ls.map List.length, g⟩, s.compress ++ List.range' pre.length ls.length, s.ra, s.dec⟩ ∧
      ∀ p js : List ℕ, p.length = pre.length → js.length = ls.length → g (p ++ js) = s.d.get (p ++ lookup ls js) := by
  induction h with
  | nil =>
    intro pre s hs
    refine ⟨s.d.get, ?_, ?_⟩
    · rw [List.append_nil] at hs
      unfold loop
      simp [← hs]
    · intro p js _ hj
      have : js = [] := List.eq_nil_of_length_eq_zero hj
      subst this; rfl
  | @cons name n l names ns ls hsel hax ih =>
    intro pre s hs
    have hn : s.d.shape[pre.length]? = some n := by rw [hs]; simp
    have hstep := step_selects hsel s pre.length hn
    have hset : s.d.shape.set pre.length l.length = (pre ++ [l.length]) ++ ns := by rw [hs]; simp
    obtain ⟨g, hg, hg'⟩ := ih (pre ++ [l.length])
      ⟨⟨s.d.shape.set pre.length l.length, fun ix => s.d.get (ix.set pre.length (l.getD (ix.getD pre.length 0) 0))⟩, s.compress ++ [pre.length], s.ra, s.dec⟩ hset
    refine ⟨g, ?_, ?_⟩
    · unfold loop
      rw [hstep, Option.bind_some]
      rw [List.length_append, List.length_singleton] at hg
      rw [hg]
      simp [List.range'_succ]
    · intro p js hp hj
      obtain ⟨j, js, rfl⟩ : ∃ j js', js = j :: js' := by
        cases js with
        | nil => simp at hj
        | cons j js => exact ⟨j, js, rfl⟩
      have := hg' (p ++ [j]) js (by simp [hp]) (by simpa using hj)
      rw [show p ++ j :: js = (p ++ [j]) ++ js by simp, this]
      simp only [List.append_assoc, List.singleton_append]
      congr 1
      rw [show pre.length = p.length from hp.symm]
      simp [lookup]

theorem lookup_snoc : ∀ (ls : List (List ℕ)) (js : List ℕ) (l : List ℕ) (j : ℕ), js.length = ls.length →
    lookup (ls ++ [l]) (js ++ [j]) = lookup ls js ++ [l.getD j 0]
  | [], [], l, j, _ => rfl
  | [], _ :: _, _, _, h => by simp at h
  | _ :: _, [], _, _, h => by simp at h
  | m :: ls, i :: js, l, j, h => by
    simp only [List.cons_append, lookup]
    rw [lookup_snoc ls js l j (by simpa using h)]

theorem range_getD (l : List ℕ) (g : ℕ → ℝ) : (List.range l.length).map (fun j => g (l.getD j 0)) = l.map g := by
  apply List.ext_getElem
  · simp
  · intro i h1 h2
    rw [List.length_map] at h2
    simp [List.getD, h2]

theorem average_axes (R C : ℕ) : ∀ (ls : List (List ℕ)), (∀ l ∈ ls, l ≠ []) → ∀ (a : Arr ℝ) (F : ℕ → ℕ → List ℕ → ℝ), a.shape = R :: C :: ls.map List.length →
    (∀ r c js, js.length = ls.length → a.get (r :: c :: js) = F r c (lookup ls js)) →
    ∃ b, average (List.range' 2 ls.length).reverse a = some b ∧ b.shape = [R, C] ∧ ∀ r c, b.get [r, c] = nested ls (F r c) := by
  intro ls
  induction ls using List.reverseRecOn with
  | nil =>
    intro _ a F hs hg
    exact ⟨a, rfl, hs, fun r c => hg r c [] rfl⟩
  | append_singleton ls l ih =>
    intro h0 a F hs hg
    have hl : l.length ≠ 0 := fun h => h0 l (by simp) (List.eq_nil_of_length_eq_zero h)
    have hlen : a.shape[2 + ls.length]? = some l.length := by
      rw [hs, Nat.add_comm]
      simp
    have hav : avgAx (2 + ls.length) a = some ⟨a.shape.eraseIdx (2 + ls.length),
        fun ix => ((List.range l.length).map fun j => a.get (ix.insertIdx (2 + ls.length) j)).sum / l.length⟩ := by
      unfold avgAx
      rw [hlen]
      simp only
      rw [if_neg hl]
    obtain ⟨b, hb, hbs, hbg⟩ := ih (fun m hm => h0 m (by simp [hm])) ⟨a.shape.eraseIdx (2 + ls.length),
        fun ix => ((List.range l.length).map fun j => a.get (ix.insertIdx (2 + ls.length) j)).sum / l.length⟩
      (fun r c t => (l.map fun x => F r c (t ++ [x])).sum / l.length) (by
        simp only [hs, Nat.add_comm 2, List.map_append, List.map_cons, List.map_nil]
        rw [show R :: C :: (ls.map List.length ++ [l.length]) = (R :: C :: ls.map List.length) ++ [l.length] from rfl,
          List.eraseIdx_append_of_length_le (by simp)]
        simp) (by
        intro r c js hj
        simp only
        congr 2
        rw [← range_getD l fun x => F r c (lookup ls js ++ [x])]
        apply List.map_congr_left
        intro j _
        have hins : (r :: c :: js).insertIdx (2 + ls.length) j = r :: c :: (js ++ [j]) := by
          rw [show 2 + ls.length = (r :: c :: js).length by simp [hj]; omega, List.insertIdx_length_self]
          rfl
        rw [hins, hg r c (js ++ [j]) (by simp [hj]), lookup_snoc _ _ _ _ hj])
    refine ⟨b, ?_, hbs, ?_⟩
    · rw [List.length_append, List.length_singleton, List.range'_concat, List.reverse_append]
      simp only [List.reverse_singleton, List.singleton_append, average, Nat.one_mul]
      rw [hav, Option.bind_some, hb]
    · intro r c
      rw [hbg, nested_snoc]

/-- C137: if the first two axes are right ascension and declination, in either order, the array plotted has right ascension first and holds the means
of the channels chosen, at the polarisation chosen. -/
theorem c137_image_partial (chans : ℕ → Option (List ℕ)) (pol : ℤ) (names : List (List Char)) (ns : List ℕ) (ls : List (List ℕ))
    (hax : Axes chans pol names ns ls) (ra dec : List Char) (hra : ∃ t, ra = "ra".toList ++ t) (hdec : ∃ t, dec = "dec".toList ++ t)
    (d : Arr ℝ) (R C : ℕ) :
    (d.shape = R :: C :: ns → ∃ b, picture chans pol (ra :: dec :: names) d = some b ∧ b.shape = [R, C] ∧
      ∀ r c, b.get [r, c] = mean ((choices ls).map fun t => d.get (r :: c :: t))) ∧
    (d.shape = C :: R :: ns → ∃ b, picture chans pol (dec :: ra :: names) d = some b ∧ b.shape = [R, C] ∧
      ∀ r c, b.get [r, c] = mean ((choices ls).map fun t => d.get (c :: r :: t))) := by
  obtain ⟨tr, rfl⟩ := hra
  obtain ⟨td, rfl⟩ := hdec
  have e1 : ∀ s i, step chans pol s i ("ra".toList ++ tr) = some { s with ra := i } := by
    intro s i
    unfold step
    rw [if_pos ((prefix_iff _ _).2 ⟨tr, rfl⟩)]
  have e2 : ∀ s i, step chans pol s i ("dec".toList ++ td) = some { s with dec := i } := by
    intro s i
    unfold step
    have h1 : "ra".toList.isPrefixOf ("dec".toList ++ td) = false := rfl
    rw [h1, if_neg (by simp), if_pos ((prefix_iff _ _).2 ⟨td, rfl⟩)]
  constructor
  · intro hs
    obtain ⟨g, hg, hg'⟩ := loop_axes hax [R, C] ⟨d, [], 0, 1⟩ hs
    obtain ⟨b, hb, hbs, hbg⟩ := average_axes R C ls hax.ne_nil ⟨[R, C] ++ ls.map List.length, g⟩ (fun r c t => d.get (r :: c :: t)) rfl
      (fun r c js hj => hg' [r, c] js rfl hj)
    refine ⟨b, ?_, hbs, fun r c => by rw [hbg, nested_mean]⟩
    unfold picture
    rw [loop, e1, Option.bind_some, loop, e2, Option.bind_some]
    rw [show (0 + 1 + 1 : ℕ) = [R, C].length from rfl, hg, Option.bind_some]
    simp only [List.nil_append]
    rw [show [R, C].length = 2 from rfl, hb, Option.bind_some]
    unfold transpose
    rw [hbs]
    simp
  · intro hs
    obtain ⟨g, hg, hg'⟩ := loop_axes hax [C, R] ⟨d, [], 1, 0⟩ hs
    obtain ⟨b, hb, hbs, hbg⟩ := average_axes C R ls hax.ne_nil ⟨[C, R] ++ ls.map List.length, g⟩ (fun r c t => d.get (r :: c :: t)) rfl
      (fun r c js hj => hg' [r, c] js rfl hj)
    refine ⟨⟨[R, C], fun ix => b.get ix.reverse⟩, ?_, rfl, fun r c => by
      show b.get [c, r] = _
      rw [hbg, nested_mean]⟩
    unfold picture
    rw [loop, e2, Option.bind_some, loop, e1, Option.bind_some]
    rw [show (0 + 1 + 1 : ℕ) = [C, R].length from rfl, hg, Option.bind_some]
    simp only [List.nil_append]
    rw [show [C, R].length = 2 from rfl, hb, Option.bind_some]
    unfold transpose
    rw [hbs]
    simp

theorem step_ra {chans : ℕ → Option (List ℕ)} {pol : ℤ} {s s' : St} {i : ℕ} {name : List Char} (h : step chans pol s i name = some s')
    (hn : ∀ t, name ≠ "ra".toList ++ t) : s'.ra = s.ra := by
  have h1 : "ra".toList.isPrefixOf name = false := by
    rw [Bool.eq_false_iff]
    intro h
    obtain ⟨t, ht⟩ := (prefix_iff _ _).1 h
    exact hn t ht
  unfold step at h
  rw [h1, if_neg (by simp)] at h
  by_cases h2 : "dec".toList.isPrefixOf name = true
  · rw [if_pos h2] at h
    rw [← Option.some.inj h]
  · rw [if_neg h2] at h
    by_cases h3 : "freq".toList.isPrefixOf name = true
    · rw [if_pos h3] at h
      simp only [Option.bind_eq_bind, Option.bind_eq_some_iff, Option.some.injEq] at h
      obtain ⟨_, _, _, _, _, _, rfl⟩ := h
      rfl
    · rw [if_neg h3] at h
      by_cases h4 : "stokes".toList.isPrefixOf name = true
      · rw [if_pos h4] at h
        simp only [Option.bind_eq_bind, Option.bind_eq_some_iff, Option.some.injEq] at h
        obtain ⟨_, _, _, _, _, _, rfl⟩ := h
        rfl
      · rw [if_neg h4] at h
        rw [← Option.some.inj h]

theorem loop_ra {chans : ℕ → Option (List ℕ)} {pol : ℤ} : ∀ (names : List (List Char)) (i : ℕ) (s s' : St), loop chans pol i names s = some s' →
    (∀ name ∈ names, ∀ t, name ≠ "ra".toList ++ t) → s'.ra = s.ra
  | [], i, s, s', h, _ => by rw [loop] at h; rw [← Option.some.inj h]
  | name :: names, i, s, s', h, hn => by
    rw [loop, Option.bind_eq_some_iff] at h
    obtain ⟨s1, h1, h2⟩ := h
    rw [loop_ra names _ _ _ h2 fun n hm => hn n (List.mem_cons_of_mem _ hm), step_ra h1 (hn name (List.mem_cons_self ..))]

theorem loop_at {chans : ℕ → Option (List ℕ)} {pol : ℤ} (ra : List Char) (hra : ∃ t, ra = "ra".toList ++ t) (post : List (List Char))
    (hp : ∀ name ∈ post, ∀ t, name ≠ "ra".toList ++ t) : ∀ (pre : List (List Char)) (i : ℕ) (s s' : St),
    loop chans pol i (pre ++ ra :: post) s = some s' → s'.ra = i + pre.length
  | [], i, s, s', h => by
    rw [List.nil_append, loop, Option.bind_eq_some_iff] at h
    obtain ⟨s1, h1, h2⟩ := h
    obtain ⟨t, rfl⟩ := hra
    unfold step at h1
    rw [if_pos ((prefix_iff _ _).2 ⟨t, rfl⟩)] at h1
    rw [loop_ra post _ _ _ h2 hp, ← Option.some.inj h1]
    rfl
  | name :: pre, i, s, s', h => by
    rw [List.cons_append, loop, Option.bind_eq_some_iff] at h
    obtain ⟨s1, h1, h2⟩ := h
    rw [loop_at ra hra post hp pre _ _ _ h2, List.length_cons]
    omega

/-- C137 (violated: an image whose right ascension is not among the first two axes cannot be plotted: the places of the axes are counted before the
others are averaged away) -/
theorem c137_order_violated (chans : ℕ → Option (List ℕ)) (pol : ℤ) (pre post : List (List Char)) (ra : List Char) (hra : ∃ t, ra = "ra".toList ++ t)
    (hpost : ∀ name ∈ post, ∀ t, name ≠ "ra".toList ++ t) (h2 : 2 ≤ pre.length) (d : Arr ℝ) : picture chans pol (pre ++ ra :: post) d = none := by
  unfold picture
  cases hl : loop chans pol 0 (pre ++ ra :: post) ⟨d, [], 0, 1⟩ with
  | none => rfl
  | some s =>
    rw [Option.bind_some]
    have hs := loop_at ra hra post hpost pre 0 _ s hl
    cases ha : average s.compress.reverse s.d with
    | none => rfl
    | some b =>
      rw [Option.bind_some]
      unfold transpose
      split
      · rw [if_neg (by omega), if_neg (by omega)]
      · rfl

/-- C137 (violated: FITS counts axes from the last one of the array.  A cube written as the standard says, with the axes right ascension, declination,
frequency, is an array `[channel, row, column]`; the numbers of the channels chosen are taken as numbers of columns, and the picture shows channels
against rows.) -/
theorem c137_standard_violated (chans : ℕ → Option (List ℕ)) (pol : ℤ) (cube : ℕ → ℕ → ℕ → ℝ) (F D X : ℕ) (l : List ℕ) (hl : chans X = some l) (h0 : l ≠ [])
    (hX : ∀ k ∈ l, k < X) (d : Arr ℝ) (hs : d.shape = [F, D, X]) (hd : ∀ f y x, d.get [f, y, x] = cube f y x) :
    ∃ b, picture chans pol ["ra---sin".toList, "dec--sin".toList, "freq".toList] d = some b ∧ b.shape = [F, D] ∧
      ∀ f y, b.get [f, y] = mean (l.map fun x => cube f y x) := by
  obtain ⟨b, h1, h2, h3⟩ := (c137_image_partial chans pol ["freq".toList] [X] [l] (.cons (.inl ⟨⟨[], rfl⟩, hl, h0, hX⟩) .nil) "ra---sin".toList "dec--sin".toList
    ⟨"---sin".toList, rfl⟩ ⟨"--sin".toList, rfl⟩ d F D).1 hs
  refine ⟨b, h1, h2, fun f y => ?_⟩
  rw [h3]
  have : ∀ l : List ℕ, (l.flatMap fun x => [[x]]) = l.map fun x => [x] := by
    intro l
    induction l with
    | nil => rfl
    | cons a l ih => rw [List.flatMap_cons, ih]; rfl
  simp only [choices, List.map_cons, List.map_nil, this, List.map_map, Function.comp_def, hd]

/-! ## Values, panels, files -/

/-- C137: the flux printed is the value, or its amplitude if amplitudes are shown; nothing is printed for zeros on a logarithmic scale. -/
theorem c137_flux (x : ℝ) : flux .lin x = some |x| ∧ flux .real x = some x ∧ (x ≠ 0 → flux .log x = some |x|) ∧ flux .log 0 = none := by
  refine ⟨rfl, rfl, fun h => ?_, ?_⟩
  · have hx : 0 < |x| := abs_pos.2 h
    unfold flux value
    simp only
    rw [if_neg (not_le.2 hx)]
    simp only [Option.map_some, if_true, Option.some.injEq]
    have h10 : Real.log 10 ≠ 0 := ne_of_gt (Real.log_pos (by norm_num))
    rw [Real.rpow_def_of_pos (by norm_num), mul_div_cancel₀ _ h10, Real.exp_log hx]
  · unfold flux value
    simp

/-- C137: without options the limits are those of the values; with `--max` and `--drng` they are what is asked for. -/
theorem c137_limits (values : List ℝ) (hi lo : ℝ) (hh : hi ∈ values ∧ ∀ v ∈ values, v ≤ hi) (hl : lo ∈ values ∧ ∀ v ∈ values, lo ≤ v) :
    (∀ v ∈ values, (limits none none hi lo).1 ≤ v ∧ v ≤ (limits none none hi lo).2) ∧
    (∀ m r, limits (some m) (some r) hi lo = (m - r, m)) ∧ (∀ r, limits none (some r) hi lo = (hi - r, hi)) ∧ ∀ m, limits (some m) none hi lo = (lo, m) :=
  ⟨fun v hv => ⟨hl.2 v hv, hh.2 v hv⟩, fun _ _ => rfl, fun _ => rfl, fun _ => rfl⟩

/-- C137: there is a panel for each file. -/
theorem c137_panels_partial (n : ℕ) (h : 0 < n) : ∃ rows cols, grid false n = some (rows, cols) ∧ n ≤ rows * cols ∧ rows ^ 2 ≤ n ∧ rows ≤ cols := by
  have h0 : 0 < Nat.sqrt n := Nat.sqrt_pos.2 h
  have h1 : Nat.sqrt n * Nat.sqrt n ≤ n := Nat.sqrt_le n
  refine ⟨Nat.sqrt n, (n + Nat.sqrt n - 1) / Nat.sqrt n, ?_, ?_, ?_, ?_⟩
  · unfold grid
    rw [if_neg (by simp), if_neg (by omega)]
  · have := Nat.lt_div_mul_add h0 (a := n + Nat.sqrt n - 1)
    rw [Nat.mul_comm (Nat.sqrt n)]
    omega
  · rw [sq]; exact h1
  · rw [Nat.le_div_iff_mul_le h0]
    omega

/-- C137 (violated: without files the script raises) -/
theorem c137_panels_violated : grid false 0 = none := by
  unfold grid
  simp

/-- C137: in batch mode a picture is written for each file that has none yet, once, and no others. -/
theorem c137_batch {Name : Type} [DecidableEq Name] (png : Name → Name) (hpng : Function.Injective png) (there files : List Name) :
    (∀ o f, (o, f) ∈ batch png there files ↔ o = png f ∧ f ∈ files ∧ png f ∉ there) ∧ (batch png there files).Nodup := by
  have key : ∀ (files : List Name) (s : List Name × List (Name × Name)), (∀ p ∈ s.2, p.1 ∈ s.1 ∧ p.1 = png p.2) → s.2.Nodup →
      (∀ o f, (o, f) ∈ (files.foldl (batchStep png) s).2 ↔ (o, f) ∈ s.2 ∨ o = png f ∧ f ∈ files ∧ png f ∉ s.1) ∧ (files.foldl (batchStep png) s).2.Nodup := by
    intro files
    induction files with
    | nil => intro s _ hn; simpa using hn
    | cons g files ih =>
      intro s hs hn
      rw [List.foldl_cons]
      by_cases hg : png g ∈ s.1
      · have e : batchStep png s g = s := by unfold batchStep; rw [if_pos hg]
        rw [e]
        obtain ⟨h1, h2⟩ := ih s hs hn
        refine ⟨fun o f => ?_, h2⟩
        rw [h1]
        constructor
        · rintro (h | ⟨h, h', h''⟩)
          · exact .inl h
          · exact .inr ⟨h, List.mem_cons_of_mem _ h', h''⟩
        · rintro (h | ⟨h, h', h''⟩)
          · exact .inl h
          · rcases List.mem_cons.1 h' with rfl | h'
            · exact absurd hg h''
            · exact .inr ⟨h, h', h''⟩
      · have e : batchStep png s g = (png g :: s.1, s.2 ++ [(png g, g)]) := by unfold batchStep; rw [if_neg hg]
        rw [e]
        obtain ⟨h1, h2⟩ := ih (png g :: s.1, s.2 ++ [(png g, g)]) (by
          intro p hp
          rcases List.mem_append.1 hp with hp | hp
          · exact ⟨List.mem_cons_of_mem _ (hs p hp).1, (hs p hp).2⟩
          · rw [List.mem_singleton] at hp; subst hp; exact ⟨List.mem_cons_self .., rfl⟩) (by
          rw [List.nodup_append]
          refine ⟨hn, by simp, ?_⟩
          intro a ha b hb hab
          rw [List.mem_singleton] at hb
          subst hb; subst hab
          exact hg (hs _ ha).1)
        refine ⟨fun o f => ?_, h2⟩
        rw [h1]
        simp only [List.mem_append, List.mem_cons, List.not_mem_nil, or_false, Prod.mk.injEq, not_or]
        constructor
        · rintro ((h | ⟨rfl, rfl⟩) | ⟨h, h', h1, h2⟩)
          · exact .inl h
          · exact .inr ⟨rfl, .inl rfl, hg⟩
          · exact .inr ⟨h, .inr h', h2⟩
        · rintro (h | ⟨h, h', h''⟩)
          · exact .inl (.inl h)
          · by_cases hfg : f = g
            · exact .inl (.inr ⟨by rw [h, hfg], hfg⟩)
            · exact .inr ⟨h, h'.resolve_left hfg, fun e => hfg (hpng e), h''⟩
  obtain ⟨h1, h2⟩ := key files (there, []) (by simp) List.nodup_nil
  refine ⟨fun o f => ?_, h2⟩
  unfold batch
  rw [h1]
  simp

/-! ## Clicks -/

theorem pmod_dir (x d : ℝ) : dir (pmod x 360 * (Real.pi / 180)) d = dir (x * (Real.pi / 180)) d := by
  have : pmod x 360 * (Real.pi / 180) = x * (Real.pi / 180) - (⌊x / 360⌋ : ℤ) * (2 * Real.pi) := by
    unfold pmod; ring
  unfold dir
  rw [this, Real.cos_sub_int_mul_two_pi, Real.sin_sub_int_mul_two_pi]

/-- C137: the position printed for a click is the direction of that point of the projection: right ascension grows to the left. -/
theorem c137_click_direction (ra dec x y : ℝ) (h : x ^ 2 + y ^ 2 ≤ 1) :
    dir (clickDir ra dec x y).1 (clickDir ra dec x y).2 = seen (ra * (Real.pi / 180)) (dec * (Real.pi / 180)) (-x) y := by
  have hpi : Real.pi ≠ 0 := Real.pi_ne_zero
  unfold clickDir
  simp only
  rw [pmod_dir]
  unfold orthoInv
  simp only
  generalize hd : dec * (Real.pi / 180) = δ
  generalize hz : Real.sqrt (1 - x ^ 2 - y ^ 2) = z
  have hz2 : z ^ 2 = 1 - x ^ 2 - y ^ 2 := by rw [← hz, Real.sq_sqrt (by linarith)]
  generalize hw : (⟨z * Real.cos δ - y * Real.sin δ, x⟩ : ℂ) = w
  have hre : w.re = z * Real.cos δ - y * Real.sin δ := by rw [← hw]
  have him : w.im = x := by rw [← hw]
  have hang : (180 + ra - (180 + w.arg * (180 / Real.pi))) * (Real.pi / 180) = ra * (Real.pi / 180) - w.arg := by field_simp; ring
  rw [hang]
  generalize hr : ra * (Real.pi / 180) = ρ
  have hsc := Real.sin_sq_add_cos_sq δ
  have hnorm : ‖w‖ ^ 2 = 1 - (y * Real.cos δ + z * Real.sin δ) ^ 2 := by
    rw [← Complex.normSq_eq_norm_sq, Complex.normSq_apply, hre, him]
    have hc : Real.cos δ ^ 2 = 1 - Real.sin δ ^ 2 := by linarith
    linear_combination (z ^ 2 + y ^ 2) * hsc + hz2
  have hs1 : (y * Real.cos δ + z * Real.sin δ) ^ 2 ≤ 1 := by nlinarith [sq_nonneg ‖w‖]
  have hsin : Real.sin (Real.arcsin (y * Real.cos δ + z * Real.sin δ)) = y * Real.cos δ + z * Real.sin δ :=
    Real.sin_arcsin (by nlinarith [abs_le_of_sq_le_sq' (by linarith : (y * Real.cos δ + z * Real.sin δ) ^ 2 ≤ 1 ^ 2) (by norm_num)])
      (by nlinarith [abs_le_of_sq_le_sq' (by linarith : (y * Real.cos δ + z * Real.sin δ) ^ 2 ≤ 1 ^ 2) (by norm_num)])
  have hcos : Real.cos (Real.arcsin (y * Real.cos δ + z * Real.sin δ)) = ‖w‖ := by
    rw [Real.cos_arcsin, ← hnorm, Real.sqrt_sq (norm_nonneg _)]
  have hwc : ‖w‖ * Real.cos w.arg = z * Real.cos δ - y * Real.sin δ := by rw [Complex.norm_mul_cos_arg, hre]
  have hws : ‖w‖ * Real.sin w.arg = x := by rw [Complex.norm_mul_sin_arg, him]
  unfold dir seen
  simp only [neg_sq]
  rw [hz, hsin, hcos, Real.cos_sub, Real.sin_sub]
  refine Prod.ext ?_ (Prod.ext ?_ ?_)
  · simp only
    linear_combination Real.cos ρ * hwc + Real.sin ρ * hws
  · simp only
    linear_combination Real.sin ρ * hwc - Real.cos ρ * hws
  · rfl

theorem corners_diff (n : ℕ) (delta : ℝ) : (corners n delta).2 - (corners n delta).1 = n * delta * (Real.pi / 180) := by
  unfold corners; ring

/-- C137: on a square image a click in a pixel prints that pixel's numbers. -/
theorem c137_click_pixel_partial (n c : ℕ) (hn : 0 < n) (delta s : ℝ) (hd : delta ≠ 0) (h0 : 0 < s) (h1 : s < 1) :
    clickPx (corners n delta) n (place (corners n delta) n c s + 1) = c := by
  have hdiff : (corners n delta).2 - (corners n delta).1 ≠ 0 := by
    rw [corners_diff]
    have : (n : ℝ) ≠ 0 := by exact_mod_cast hn.ne'
    have := Real.pi_ne_zero
    positivity
  have hn' : (n : ℝ) ≠ 0 := by exact_mod_cast hn.ne'
  unfold clickPx place
  have : ((corners n delta).1 + (c + s) / n * ((corners n delta).2 - (corners n delta).1) + 1 - 1 - (corners n delta).1) /
      ((corners n delta).2 - (corners n delta).1) * n - 0.5 = c + (s - 0.5) := by
    generalize (corners n delta).2 - (corners n delta).1 = e at hdiff
    field_simp
    ring
  rw [this, round_eq, Int.floor_eq_iff]
  push_cast
  constructor <;> linarith

/-- C137 (violated: columns are counted with the number of rows.  On an image with twice as many rows as columns a click in column `c` prints column
`2 c` or `2 c + 1`, and reads the value there, if there is such a column.) -/
theorem c137_click_pixel_violated (n c : ℕ) (hn : 0 < n) (delta s : ℝ) (hd : delta ≠ 0) (h0 : 0 < s) (h1 : s < 1) (h2 : s ≠ 1 / 2) :
    clickPx (corners (2 * n) delta) (2 * n) (place (corners (2 * n) delta) n c s + 1) = 2 * c + (if s < 1 / 2 then 0 else 1) := by
  have hn' : (n : ℝ) ≠ 0 := by exact_mod_cast hn.ne'
  have hdiff : (corners (2 * n) delta).2 - (corners (2 * n) delta).1 ≠ 0 := by
    rw [corners_diff]
    have : ((2 * n : ℕ) : ℝ) ≠ 0 := by push_cast; positivity
    have := Real.pi_ne_zero
    positivity
  unfold clickPx place
  have : ((corners (2 * n) delta).1 + (c + s) / n * ((corners (2 * n) delta).2 - (corners (2 * n) delta).1) + 1 - 1 - (corners (2 * n) delta).1) /
      ((corners (2 * n) delta).2 - (corners (2 * n) delta).1) * (2 * n : ℕ) - 0.5 = 2 * c + (2 * s - 0.5) := by
    generalize (corners (2 * n) delta).2 - (corners (2 * n) delta).1 = e at hdiff
    push_cast
    field_simp
    ring
  rw [this, round_eq, Int.floor_eq_iff]
  by_cases h : s < 1 / 2
  · rw [if_pos h]; push_cast; constructor <;> linarith
  · rw [if_neg h]
    have : 1 / 2 < s := lt_of_le_of_ne (not_lt.1 h) (Ne.symm h2)
    push_cast; constructor <;> linarith

theorem place_middle (n c : ℕ) (hn : 0 < n) (delta : ℝ) : place (corners n delta) n c (1 / 2) = ((c : ℝ) - n / 2) * (delta * (Real.pi / 180)) := by
  have hn' : (n : ℝ) ≠ 0 := by exact_mod_cast hn.ne'
  unfold place
  rw [corners_diff]
  unfold corners
  simp only
  field_simp
  ring

/-- C137: on a square image with steps that are not negative, a click in the middle of a pixel prints the direction of the pixel `c - n / 2` steps
to the right (west) and `r - n / 2` steps up (north) of the middle. -/
theorem c137_click_position_partial (n r c : ℕ) (hn : 0 < n) (ra dec dra ddec : ℝ) (a b : ℝ) (ha : a = dra * (Real.pi / 180)) (hb : b = ddec * (Real.pi / 180))
    (h : (((c : ℝ) - n / 2) * a) ^ 2 + (((r : ℝ) - n / 2) * b) ^ 2 ≤ 1) (p : ℝ × ℝ)
    (hp : p = clickDir ra dec (place (corners n dra) n c (1 / 2)) (place (corners n ddec) n r (1 / 2))) :
    dir p.1 p.2 = seen (ra * (Real.pi / 180)) (dec * (Real.pi / 180)) (((n : ℝ) / 2 - c) * a) (((r : ℝ) - n / 2) * b) := by
  rw [hp, place_middle n c hn, place_middle n r hn, ← ha, ← hb, c137_click_direction _ _ _ _ h]
  congr 1
  ring

/-- C137 (violated: `to_fits` makes the step of right ascension negative (C117), and for such files what is printed is mirrored: the pixel shown is the one
`c - n / 2` steps to the west, the position printed the one as many steps to the east.) -/
theorem c137_click_position_violated (n r c : ℕ) (hn : 0 < n) (ra dec δ ddec : ℝ) (hδ : 0 < δ) (a b : ℝ) (ha : a = δ * (Real.pi / 180))
    (hb : b = ddec * (Real.pi / 180)) (h : (((c : ℝ) - n / 2) * a) ^ 2 + (((r : ℝ) - n / 2) * b) ^ 2 ≤ 1) (hc : (c : ℝ) ≠ n / 2) (p : ℝ × ℝ)
    (hp : p = clickDir ra dec (place (corners n (-δ)) n c (1 / 2)) (place (corners n ddec) n r (1 / 2))) :
    dir p.1 p.2 = seen (ra * (Real.pi / 180)) (dec * (Real.pi / 180)) (((c : ℝ) - n / 2) * a) (((r : ℝ) - n / 2) * b) ∧
    dir p.1 p.2 ≠ seen (ra * (Real.pi / 180)) (dec * (Real.pi / 180)) (((n : ℝ) / 2 - c) * a) (((r : ℝ) - n / 2) * b) := by
  have e : dir p.1 p.2 = seen (ra * (Real.pi / 180)) (dec * (Real.pi / 180)) (((c : ℝ) - n / 2) * a) (((r : ℝ) - n / 2) * b) := by
    rw [hp, place_middle n c hn, place_middle n r hn, ← hb, c137_click_direction]
    · congr 1
      rw [ha]; ring
    · rw [show ((c : ℝ) - n / 2) * (-δ * (Real.pi / 180)) = -(((c : ℝ) - n / 2) * a) by rw [ha]; ring, neg_sq]
      exact h
  refine ⟨e, ?_⟩
  rw [e]
  have ha0 : a ≠ 0 := by rw [ha]; have := Real.pi_pos; positivity
  have hne : ((c : ℝ) - n / 2) * a ≠ 0 := mul_ne_zero (sub_ne_zero.2 hc) ha0
  generalize hl : ((c : ℝ) - n / 2) * a = l at hne
  have hl' : ((n : ℝ) / 2 - c) * a = -l := by rw [← hl]; ring
  rw [hl']
  generalize ra * (Real.pi / 180) = ρ
  generalize dec * (Real.pi / 180) = d
  intro heq
  unfold seen at heq
  simp only [Prod.mk.injEq, neg_sq] at heq
  obtain ⟨h1, h2, -⟩ := heq
  have hs : l * Real.sin ρ = 0 := by linarith
  have hcs : l * Real.cos ρ = 0 := by linarith
  have h3 := Real.sin_sq_add_cos_sq ρ
  have : l * (Real.sin ρ ^ 2 + Real.cos ρ ^ 2) = 0 := by linear_combination Real.sin ρ * hs + Real.cos ρ * hcs
  rw [h3, mul_one] at this
  exact hne this

/-- C137: the twelve meridians drawn are those of right ascensions that are multiples of 30 degrees, every one of them. -/
theorem c137_meridians (ra : ℝ) : (∀ k : ℕ, ∃ j : ℤ, 180 + ra - meridian ra k = 30 * j) ∧
    ∀ j < 12, ∃ k < 12, ∃ m : ℤ, 180 + ra - meridian ra k = 30 * (j : ℕ) + 360 * m := by
  refine ⟨fun k => ⟨12 - k, by unfold meridian; push_cast; ring⟩, fun j hj => ?_⟩
  by_cases h0 : j = 0
  · exact ⟨0, by omega, 1, by subst h0; unfold meridian; push_cast; ring⟩
  · exact ⟨12 - j, by omega, 0, by unfold meridian; rw [Nat.cast_sub (by omega)]; push_cast; ring⟩

/-! ## Examples -/

section Example

/-- all channels -/
def allChans (n : ℕ) : Option (List ℕ) := some (List.range n)

/-- two by two pixels, two channels, two polarisations: `1000 ra + 100 dec + 10 chan + pol` -/
def demo : Arr ℝ := ⟨[2, 2, 2, 2], fun ix => 1000 * ix.getD 0 0 + 100 * ix.getD 1 0 + 10 * ix.getD 2 0 + ix.getD 3 0⟩

/-- the last polarisation, the mean of both channels -/
example : ∃ b, picture allChans (-1) ["ra".toList, "dec".toList, "freq".toList, "stokes".toList] demo = some b ∧ b.shape = [2, 2] ∧ b.get [1, 0] = 1006 := by
  obtain ⟨b, h1, h2, h3⟩ := (c137_image_partial allChans (-1) ["freq".toList, "stokes".toList] [2, 2] [[0, 1], [1]]
    (.cons (.inl ⟨⟨[], rfl⟩, rfl, by simp, by simp⟩) (.cons (.inr ⟨⟨[], rfl⟩, 1, by norm_num, rfl, .inr (by norm_num)⟩) .nil)) "ra".toList "dec".toList
    ⟨[], rfl⟩ ⟨[], rfl⟩ demo 2 2).1 rfl
  refine ⟨b, h1, h2, ?_⟩
  rw [h3]
  norm_num [choices, mean, demo]

example : picture allChans 0 ["freq".toList, "dec".toList, "ra".toList] demo = none :=
  c137_order_violated allChans 0 ["freq".toList, "dec".toList] [] "ra".toList ⟨[], rfl⟩ (by simp) (by simp) demo

example : ∃ b, picture allChans 0 ["ra---sin".toList, "dec--sin".toList, "freq".toList] ⟨[4, 3, 2], fun ix => ix.getD 0 0⟩ = some b ∧ b.shape = [4, 3] := by
  obtain ⟨b, h1, h2, -⟩ := c137_standard_violated allChans 0 (fun f _ _ => f) 4 3 2 [0, 1] rfl (by simp) (by simp) ⟨[4, 3, 2], fun ix => ix.getD 0 0⟩ rfl
    (by intro f y x; rfl)
  exact ⟨b, h1, h2⟩

example : flux .log (-3) = some 3 := by rw [(c137_flux (-3)).2.2.1 (by norm_num)]; norm_num

example : ∃ rows cols, grid false 7 = some (rows, cols) ∧ 7 ≤ rows * cols := by
  obtain ⟨r, c, h1, h2, -⟩ := c137_panels_partial 7 (by norm_num)
  exact ⟨r, c, h1, h2⟩

example : batch (fun n : ℕ => n + 10) [11] [1, 2, 2] = [(12, 2)] := by decide

example : clickPx (corners 8 1) 8 (place (corners 8 1) 8 3 (1 / 4) + 1) = 3 := c137_click_pixel_partial 8 3 (by norm_num) 1 _ (by norm_num) (by norm_num) (by norm_num)

example : clickPx (corners (2 * 8) 1) (2 * 8) (place (corners (2 * 8) 1) 8 3 (1 / 4) + 1) = 6 := by
  rw [c137_click_pixel_violated 8 3 (by norm_num) 1 (1 / 4) (by norm_num) (by norm_num) (by norm_num) (by norm_num), if_pos (by norm_num)]
  norm_num

/-- steps of 18 / π degrees, a tenth of a radian: the hypotheses are met by a pixel two steps from the middle -/
example : (((6 : ℕ) : ℝ) - (8 : ℕ) / 2) * (18 / Real.pi * (Real.pi / 180)) = 2 / 10 := by
  have := Real.pi_ne_zero
  field_simp
  norm_num

end Example

end Verif.Misc.PlotImg
