import Mathlib.Algebra.Order.Ring.Rat
import Mathlib.Tactic.NormNum
import Mathlib.Tactic.Ring
import Mathlib.Tactic.Linarith
import Verif.Util.Dict
import Verif.Sky.HealpixModel
/-!
# Sky maps in FITS files (C118)

`Map.to_fits`, `Map.from_fits`, `Map.__init__`, `Map.set_nindices`, `/repo/aipy/map.py` 70-87, 123-167, with `HealpixMap.from_fits`,
`to_fits`, `set_map` and `_set_fits_header`, `/repo/aipy/healpix.py` 196-206, 293-326.  `pyfits` keeps what it is given: a file is a table of columns
of one length and the card `ORDERING`.  Not modelled: the type of the numbers and its code, the other cards, history (C97).
-/
namespace Verif.Sky.MapFits
open Verif.Util

variable {V : Type}

/-! ## Model -/

/-- the table of a file -/
structure Table (V : Type) where
  cols : List (List V)
  ordering : String

abbrev FS (V : Type) := List (String × Table V)

/-- exceptions: `IndexError`, others -/
inductive Err where
  | index
  | other

/-- `healpy.npix2nside`, and the assertion that it is a power of two, healpix.py 48-50 -/
def nsideOf (n : Nat) : Option Nat :=
  let k := Nat.sqrt (n / 12)
  if 12 * k * k = n ∧ 2 ^ Nat.log2 k = k then some k else none

/-- `hdu.header['ORDERING'][:4]`, healpix.py 300, and the assertion of healpix.py 52 -/
def parseOrdering (s : String) : Option Scheme :=
  if s.toList.take 4 = "RING".toList then some .ring else if s.toList.take 4 = "NEST".toList then some .nest else none

/-- the text of a scheme -/
def schemeText : Scheme → String
  | .ring => "RING"
  | .nest => "NEST"

/-- `_set_fits_header`, healpix.py 302-307: `scheme == 'NESTED'` compares, and changes nothing -/
def orderingCard (s : Scheme) : String := schemeText s

/-- `HealpixMap.from_fits`, healpix.py 293-301 -/
def loadCol (t : Table V) (c : Nat) (old : HMap V) : Except Err (HMap V) :=
  match t.cols[c]? with
  | none => .error .index
  | some data =>
    match parseOrdering t.ordering, nsideOf data.length with
    | some s, some k => .ok { old with nside := k, scheme := s, map := data }
    | _, _ => .error .other

/-- `HealpixMap(nside, scheme, interp)`, healpix.py 190-201 -/
def fresh [Zero V] (nside : Nat) (scheme : Scheme) (interp : Bool) : HMap V := ⟨nside, scheme, List.replicate (npix nside) 0, interp⟩

/-- a `Map`; the arguments kept for further maps of indices -/
structure SkyMap (V : Type) where
  map : HMap V
  wgt : HMap V
  ind : List (HMap V)
  nside : Nat
  scheme : Scheme
  interp : Bool

/-- the weights, map.py 127-131: ones, in the ordering `set_map` takes by default, when the file has no second column -/
def loadWgt [Zero V] [One V] (t : Table V) (old : HMap V) (nside : Nat) : Except Err (HMap V) :=
  match loadCol t 1 old with
  | .ok w => .ok w
  | .error .index => .ok ⟨nside, .ring, List.replicate (npix nside) 1, false⟩
  | .error .other => .error .other

/-- the indices, map.py 132-144 -/
def loadInds [Zero V] (t : Table V) (nside : Nat) (scheme : Scheme) : List Nat → Except Err (List (HMap V))
  | [] => .ok []
  | c :: cs =>
    match loadCol t c (fresh nside scheme false), loadInds t nside scheme cs with
    | .ok h, .ok hs => .ok (h :: hs)
    | _, _ => .error .other

/-- `Map.from_fits`, map.py 123-144; `none` is an exception -/
def fromFits [Zero V] [One V] (fs : FS V) (name : String) (m : SkyMap V) : Option (SkyMap V) :=
  match dget name fs with
  | none => none
  | some t =>
    match loadCol t 0 m.map with
    | .error _ => none
    | .ok map =>
      match loadWgt t m.wgt map.nside, loadInds t map.nside map.scheme ((List.range (t.cols.length - 2)).map (2 + ·)) with
      | .ok wgt, .ok ind => some ⟨map, wgt, m.ind ++ ind, map.nside, map.scheme, false⟩
      | _, _ => none

/-- `pyfits` makes the columns of a table one length -/
def padTo [Zero V] (n : Nat) (l : List V) : List V := l ++ List.replicate (n - l.length) 0

/-- `Map.to_fits`, map.py 145-167; `none` is an exception (the file exists) -/
def toFits [Zero V] (fs : FS V) (name : String) (m : SkyMap V) (clobber : Bool) : Option (FS V) :=
  if (dget name fs).isSome ∧ clobber = false then none
  else
    let cols := m.map.map :: m.wgt.map :: m.ind.map HMap.map
    let n := (cols.map List.length).foldl max 0
    some (dset name ⟨cols.map (padTo n), orderingCard m.map.scheme⟩ fs)

/-- `set_nindices`, map.py 83-87 -/
def setNindices [Zero V] (m : SkyMap V) : Option Nat → SkyMap V
  | none => m
  | some n => { m with ind := m.ind.take n ++ List.replicate (n - (m.ind.take n).length) (fresh m.nside m.scheme m.interp) }

/-- `Map.__init__`, map.py 70-78 -/
def new [Zero V] [One V] (fs : FS V) (nside : Nat) (scheme : Scheme) (interp : Bool) (fromfits : Option String) (nindices : Option Nat) : Option (SkyMap V) :=
  let m : SkyMap V := ⟨fresh nside scheme interp, fresh nside scheme interp, [], nside, scheme, interp⟩
  match fromfits with
  | none => some (setNindices m nindices)
  | some f => (fromFits fs f m).map fun m => setNindices m nindices

/-- `HealpixMap.to_fits`, healpix.py 314-326; `none` is an exception (the file exists) -/
def hpmToFits (fs : FS V) (name : String) (h : HMap V) (clobber : Bool) : Option (FS V) :=
  if (dget name fs).isSome ∧ clobber = false then none else some (dset name ⟨[h.map], orderingCard h.scheme⟩ fs)

/-- `HealpixMap.from_fits(name, colnum=c)`, healpix.py 293-301, with the file -/
def hpmFromFits (fs : FS V) (name : String) (c : Nat) (old : HMap V) : Except Err (HMap V) :=
  match dget name fs with
  | none => .error .other
  | some t => loadCol t c old

/-! ## Specification -/

/-- a map of `12 n²` pixels, `n` a power of two, in a scheme -/
structure Shaped (n : Nat) (s : Scheme) (h : HMap V) : Prop where
  nside : h.nside = n
  scheme : h.scheme = s
  len : h.map.length = 12 * n * n

/-- same resolution, ordering and values -/
def Same (a b : HMap V) : Prop := a.nside = b.nside ∧ a.scheme = b.scheme ∧ a.map = b.map

/-! ## Lemmas -/

theorem nsideOf_ok {n : Nat} (h : ∃ k, n = 2 ^ k) : nsideOf (12 * n * n) = some n := by
  unfold nsideOf
  have e : 12 * n * n / 12 = n * n := by rw [Nat.mul_assoc]; exact Nat.mul_div_cancel_left _ (by decide)
  simp only [e, Nat.sqrt_eq]
  rw [if_pos ⟨trivial, by obtain ⟨k, rfl⟩ := h; rw [Nat.log2_two_pow]⟩]

theorem ordering_ok (s : Scheme) : parseOrdering (orderingCard s) = some s := by cases s <;> decide

theorem loadCol_ok {t : Table V} {c : Nat} {h old : HMap V} {n : Nat} {s : Scheme} (hn : ∃ k, n = 2 ^ k) (hs : Shaped n s h) (ht : t.cols[c]? = some h.map)
    (ho : t.ordering = orderingCard s) : loadCol t c old = .ok ⟨h.nside, h.scheme, h.map, old.interp⟩ := by
  unfold loadCol
  rw [ht, ho]
  simp only [hs.len, ordering_ok, nsideOf_ok hn, hs.nside, hs.scheme]

theorem foldl_max (n : Nat) : ∀ (l : List Nat) (a : Nat), a ≤ n → (∀ x ∈ l, x = n) → l.foldl max a = if l = [] then a else n
  | [], a, _, _ => rfl
  | x :: l, a, ha, h => by
    have hx : x = n := h x (by simp)
    rw [List.foldl_cons, hx, max_eq_right ha, foldl_max n l n (le_refl n) fun y hy => h y (by simp [hy])]
    simp

theorem pad_same [Zero V] {n : Nat} {l : List V} (h : l.length = n) : padTo n l = l := by simp [padTo, h]

theorem loadInds_ok [Zero V] {t : Table V} {n : Nat} {s : Scheme} (hn : ∃ k, n = 2 ^ k) (ho : t.ordering = orderingCard s) :
    ∀ (cs : List Nat) (hs : List (HMap V)), List.Forall₂ (fun c h => t.cols[c]? = some h.map ∧ Shaped n s h) cs hs →
      loadInds t n s cs = .ok (hs.map fun h => ⟨h.nside, h.scheme, h.map, false⟩) := by
  intro cs hs h
  induction h with
  | nil => rfl
  | cons h1 _ ih =>
    unfold loadInds
    rw [loadCol_ok hn h1.2 h1.1 ho, ih]
    rfl

theorem forall₂_range {A B : Type} {R : A → B → Prop} : ∀ (l : List B) (f : Nat → A), (∀ i b, l[i]? = some b → R (f i) b) →
    List.Forall₂ R ((List.range l.length).map f) l
  | [], _, _ => by simp
  | b :: l, f, h => by
    rw [List.length_cons, List.range_succ_eq_map, List.map_cons, List.map_map]
    exact List.Forall₂.cons (h 0 b rfl) (forall₂_range l (f ∘ Nat.succ) fun i c hi => h (i + 1) c (by simpa using hi))

/-- all maps of one shape -/
theorem table_ok [Zero V] {m : SkyMap V} {n : Nat} {s : Scheme} (h1 : Shaped n s m.map) (h2 : m.wgt.map.length = 12 * n * n) (h3 : ∀ h ∈ m.ind, h.map.length = 12 * n * n) :
    (m.map.map :: m.wgt.map :: m.ind.map HMap.map).map (padTo (((m.map.map :: m.wgt.map :: m.ind.map HMap.map).map List.length).foldl max 0)) =
      m.map.map :: m.wgt.map :: m.ind.map HMap.map := by
  have hl : ∀ l ∈ m.map.map :: m.wgt.map :: m.ind.map HMap.map, l.length = 12 * n * n := by
    intro l hl
    simp only [List.mem_cons, List.mem_map] at hl
    rcases hl with rfl | rfl | ⟨h, hm, rfl⟩
    · exact h1.len
    · exact h2
    · exact h3 h hm
  rw [foldl_max (12 * n * n) _ 0 (Nat.zero_le _) (by
    intro x hx
    obtain ⟨l, hm, rfl⟩ := List.mem_map.1 hx
    exact hl l hm), if_neg (by simp)]
  conv_rhs => rw [← List.map_id (m.map.map :: m.wgt.map :: m.ind.map HMap.map)]
  apply List.map_congr_left
  intro l hm
  exact pad_same (hl l hm)

theorem write_ok [Zero V] {fs : FS V} {name : String} {m : SkyMap V} {clobber : Bool} (hc : clobber = true ∨ dget name fs = none) {n : Nat} {s : Scheme}
    (h1 : Shaped n s m.map) (h2 : m.wgt.map.length = 12 * n * n) (h3 : ∀ h ∈ m.ind, h.map.length = 12 * n * n) :
    toFits fs name m clobber = some (dset name ⟨m.map.map :: m.wgt.map :: m.ind.map HMap.map, orderingCard s⟩ fs) := by
  unfold toFits
  rw [if_neg (by
    rintro ⟨a, b⟩
    rcases hc with hc | hc
    · rw [b] at hc; cases hc
    · rw [hc] at a; cases a)]
  simp only
  rw [table_ok h1 h2 h3, h1.scheme]

theorem read_ok [Zero V] [One V] {fs : FS V} {name : String} {m m0 : SkyMap V} {n : Nat} {s : Scheme} (hn : ∃ k, n = 2 ^ k) (h1 : Shaped n s m.map)
    (h2 : Shaped n s m.wgt) (h3 : ∀ h ∈ m.ind, Shaped n s h) :
    fromFits (dset name ⟨m.map.map :: m.wgt.map :: m.ind.map HMap.map, orderingCard s⟩ fs) name m0 =
      some ⟨⟨n, s, m.map.map, m0.map.interp⟩, ⟨n, s, m.wgt.map, m0.wgt.interp⟩, m0.ind ++ m.ind.map (fun h => ⟨n, s, h.map, false⟩), n, s, false⟩ := by
  unfold fromFits
  rw [dget_dset_self]
  simp only
  rw [loadCol_ok hn h1 rfl rfl]
  simp only [h1.nside, h1.scheme]
  have hw : loadWgt (V := V) ⟨m.map.map :: m.wgt.map :: m.ind.map HMap.map, orderingCard s⟩ m0.wgt n = .ok ⟨n, s, m.wgt.map, m0.wgt.interp⟩ := by
    unfold loadWgt
    rw [loadCol_ok hn h2 rfl rfl, h2.nside, h2.scheme]
  rw [hw]
  have hlen : (m.map.map :: m.wgt.map :: m.ind.map HMap.map).length - 2 = m.ind.length := by simp
  have hi := loadInds_ok (V := V) (t := ⟨m.map.map :: m.wgt.map :: m.ind.map HMap.map, orderingCard s⟩) hn rfl ((List.range m.ind.length).map (2 + ·)) m.ind
    (forall₂_range m.ind (2 + ·) (by
      intro i h hh
      refine ⟨?_, h3 h (List.mem_of_getElem? hh)⟩
      show (m.map.map :: m.wgt.map :: m.ind.map HMap.map)[2 + i]? = _
      rw [Nat.add_comm]
      simp [hh]))
  rw [hlen, hi]
  simp only
  congr 3
  apply List.map_congr_left
  intro h hm
  rw [(h3 h hm).nside, (h3 h hm).scheme]

/-! ## C118 -/

/-- C118: what is written with `to_fits` is read with `from_fits` into a map that has no indices. -/
theorem c118_roundtrip_partial [Zero V] [One V] {fs : FS V} {name : String} {m m0 : SkyMap V} {clobber : Bool} (hc : clobber = true ∨ dget name fs = none)
    {n : Nat} {s : Scheme} (hn : ∃ k, n = 2 ^ k) (h1 : Shaped n s m.map) (h2 : Shaped n s m.wgt) (h3 : ∀ h ∈ m.ind, Shaped n s h) (h0 : m0.ind = []) :
    ∃ fs' m', toFits fs name m clobber = some fs' ∧ (∀ other, other ≠ name → dget other fs' = dget other fs) ∧ fromFits fs' name m0 = some m' ∧
      Same m'.map m.map ∧ Same m'.wgt m.wgt ∧ List.Forall₂ Same m'.ind m.ind := by
  refine ⟨_, _, write_ok hc h1 h2.len fun h hm => (h3 h hm).len, fun other ho => dget_dset_ne (Ne.symm ho) _ _, read_ok hn h1 h2 h3, ?_, ?_, ?_⟩
  · exact ⟨h1.nside.symm, h1.scheme.symm, rfl⟩
  · exact ⟨h2.nside.symm, h2.scheme.symm, rfl⟩
  · rw [h0, List.nil_append, List.forall₂_map_left_iff]
    exact List.forall₂_same.2 fun h hm => ⟨(h3 h hm).nside.symm, (h3 h hm).scheme.symm, rfl⟩

/-- C118: without `clobber` a file that is there is left alone. -/
theorem c118_clobber [Zero V] (fs : FS V) (name : String) (m : SkyMap V) (h : name ∈ fs.map Prod.fst) : toFits fs name m false = none := by
  unfold toFits
  rw [if_pos ⟨(dget_isSome name fs).2 h, rfl⟩]

/-- C118: reading adds the indices of the file to those the map has, so that reading a file again doubles them. -/
theorem c118_append_violated [Zero V] [One V] {fs : FS V} {name : String} {m m0 : SkyMap V} {n : Nat} {s : Scheme} (hn : ∃ k, n = 2 ^ k)
    (h1 : Shaped n s m.map) (h2 : Shaped n s m.wgt) (h3 : ∀ h ∈ m.ind, Shaped n s h) :
    ∃ fs' m1 m2, toFits fs name m true = some fs' ∧ fromFits fs' name m0 = some m1 ∧ m1.ind.length = m0.ind.length + m.ind.length ∧
      (∃ r, m1.ind = m0.ind ++ r ∧ List.Forall₂ Same r m.ind) ∧ fromFits fs' name m1 = some m2 ∧ m2.ind.length = m0.ind.length + 2 * m.ind.length := by
  refine ⟨_, _, _, write_ok (.inl rfl) h1 h2.len fun h hm => (h3 h hm).len, read_ok hn h1 h2 h3, ?_, ⟨_, rfl, ?_⟩, read_ok hn h1 h2 h3, ?_⟩
  · simp
  · rw [List.forall₂_map_left_iff]
    exact List.forall₂_same.2 fun h hm => ⟨(h3 h hm).nside.symm, (h3 h hm).scheme.symm, rfl⟩
  · simp; omega

/-- C118: a map in NEST ordering is written with the card `NEST`, which is neither `RING` nor `NESTED`. -/
theorem c118_nested_violated [Zero V] {fs : FS V} {name : String} {m : SkyMap V} (hs : m.map.scheme = .nest) :
    ∃ fs' t, toFits fs name m true = some fs' ∧ dget name fs' = some t ∧ t.ordering = "NEST" ∧ t.ordering ≠ "NESTED" := by
  unfold toFits
  rw [if_neg (by simp)]
  refine ⟨_, _, rfl, dget_dset_self _ _ _, ?_, ?_⟩
  · show orderingCard m.map.scheme = _
    rw [hs]; rfl
  · show orderingCard m.map.scheme ≠ _
    rw [hs]; decide

/-- C118: a map whose weights are ordered otherwise than the data gets the weights back in the wrong order. -/
theorem c118_mixed_violated [Zero V] [One V] {fs : FS V} {name : String} {m m0 : SkyMap V} {n : Nat} (hn : ∃ k, n = 2 ^ k)
    (h1 : Shaped n .nest m.map) (h2 : Shaped n .ring m.wgt) (h3 : m.ind = []) :
    ∃ fs' m', toFits fs name m true = some fs' ∧ fromFits fs' name m0 = some m' ∧ m'.wgt.scheme = .nest ∧ m.wgt.scheme = .ring ∧ m'.wgt.map = m.wgt.map := by
  have hw := write_ok (fs := fs) (name := name) (m := m) (clobber := true) (.inl rfl) h1 h2.len (by simp [h3])
  have hr := read_ok (fs := fs) (name := name) (m := ⟨m.map, ⟨n, .nest, m.wgt.map, false⟩, m.ind, m.nside, m.scheme, m.interp⟩) (m0 := m0) hn h1
    ⟨rfl, rfl, h2.len⟩ (by simp [h3])
  exact ⟨_, _, hw, hr, rfl, h2.scheme, rfl⟩

/-- C118: a file of one column is read with weights of one. -/
theorem c118_weights [Zero V] [One V] {fs : FS V} {name : String} {h : HMap V} {m0 : SkyMap V} {n : Nat} {s : Scheme} (hn : ∃ k, n = 2 ^ k) (h1 : Shaped n s h)
    (text : String) (ht : (s = .ring ∧ text = "RING") ∨ (s = .nest ∧ (text = "NEST" ∨ text = "NESTED")))
    (hf : dget name fs = some ⟨[h.map], text⟩) :
    ∃ m', fromFits fs name m0 = some m' ∧ Same m'.map h ∧ m'.wgt.nside = n ∧ m'.wgt.map = List.replicate (12 * n * n) 1 ∧ m'.ind = m0.ind := by
  have ho : parseOrdering text = some s := by rcases ht with ⟨rfl, rfl⟩ | ⟨rfl, rfl | rfl⟩ <;> decide
  have hc : loadCol (V := V) ⟨[h.map], text⟩ 0 m0.map = .ok ⟨n, s, h.map, m0.map.interp⟩ := by
    unfold loadCol
    simp only [List.getElem?_cons_zero, h1.len, ho, nsideOf_ok hn]
  refine ⟨⟨⟨n, s, h.map, m0.map.interp⟩, ⟨n, .ring, List.replicate (npix n) 1, false⟩, m0.ind ++ [], n, s, false⟩, ?_, ⟨h1.nside.symm, h1.scheme.symm, rfl⟩, rfl, rfl, by simp⟩
  unfold fromFits
  rw [hf]
  simp only [hc]
  rfl

/-- C118: a column that has not `12 n²` entries, `n` a power of two, raises. -/
theorem c118_pixels [Zero V] [One V] {fs : FS V} {name : String} {t : Table V} {c : List V} {cs : List (List V)} (hf : dget name fs = some t) (ht : t.cols = c :: cs)
    (hl : ∀ k, c.length ≠ 12 * 2 ^ k * 2 ^ k) (m0 : SkyMap V) : fromFits fs name m0 = none := by
  unfold fromFits
  rw [hf]
  have : loadCol t 0 m0.map = .error .other := by
    unfold loadCol
    rw [ht]
    have : nsideOf c.length = none := by
      unfold nsideOf
      simp only
      rw [if_neg]
      rintro ⟨h1, h2⟩
      apply hl (Nat.log2 (Nat.sqrt (c.length / 12)))
      rw [h2, h1]
    simp only [List.getElem?_cons_zero, this]
    cases parseOrdering t.ordering <;> rfl
  simp only [this]

/-- C118: a new `Map` of a file has as many indices as asked for: those of the file first, then empty ones. -/
theorem c118_nindices [Zero V] [One V] {fs : FS V} {name : String} {m : SkyMap V} {n : Nat} {s : Scheme} (hn : ∃ k, n = 2 ^ k) (h1 : Shaped n s m.map)
    (h2 : Shaped n s m.wgt) (h3 : ∀ h ∈ m.ind, Shaped n s h) (nside : Nat) (scheme : Scheme) (interp : Bool) (k : Nat) :
    ∃ fs' m', toFits fs name m true = some fs' ∧ new fs' nside scheme interp (some name) (some k) = some m' ∧ m'.ind.length = k ∧
      List.Forall₂ Same (m'.ind.take m.ind.length) (m.ind.take k) ∧ ∀ h ∈ m'.ind.drop m.ind.length, h = ⟨n, s, List.replicate (12 * n * n) 0, false⟩ := by
  refine ⟨_, setNindices ⟨⟨n, s, m.map.map, interp⟩, ⟨n, s, m.wgt.map, interp⟩, m.ind.map (fun h => ⟨n, s, h.map, false⟩), n, s, false⟩ (some k),
    write_ok (.inl rfl) h1 h2.len fun h hm => (h3 h hm).len, ?_, ?_, ?_, ?_⟩
  · unfold new
    simp only
    rw [read_ok hn h1 h2 h3]
    rfl
  · simp only [setNindices, List.length_append, List.length_take, List.length_map, List.length_replicate]
    omega
  · simp only [setNindices]
    rw [List.take_append]
    have e : (m.ind.map fun h => (⟨n, s, h.map, false⟩ : HMap V)).take k = (m.ind.take k).map fun h => ⟨n, s, h.map, false⟩ := by rw [List.map_take]
    have e0 : List.take (m.ind.length - ((m.ind.map fun h => (⟨n, s, h.map, false⟩ : HMap V)).take k).length)
        (List.replicate (k - ((m.ind.map fun h => (⟨n, s, h.map, false⟩ : HMap V)).take k).length) (fresh n s false : HMap V)) = [] := by
      rw [List.take_replicate]
      simp only [List.length_take, List.length_map]
      have : min (m.ind.length - min k m.ind.length) (k - min k m.ind.length) = 0 := by omega
      rw [this]; rfl
    rw [e0, List.append_nil, List.take_of_length_le (by simp), e, List.forall₂_map_left_iff]
    exact List.forall₂_same.2 fun h hm => by
      have hm := List.mem_of_mem_take hm
      exact ⟨(h3 h hm).nside.symm, (h3 h hm).scheme.symm, rfl⟩
  · intro h hm
    simp only [setNindices] at hm
    rw [List.drop_append, List.drop_eq_nil_of_le (by simp), List.nil_append] at hm
    have := List.mem_of_mem_drop hm
    rw [List.mem_replicate] at this
    exact this.2

/-- C118: a map that is not read from a file is zero, with as many index maps as asked for. -/
theorem c118_fresh [Zero V] [One V] (fs : FS V) (nside : Nat) (scheme : Scheme) (interp : Bool) (k : Nat) :
    ∃ m', new fs nside scheme interp none (some k) = some m' ∧ m'.ind.length = k ∧
      ∀ h ∈ m'.map :: m'.wgt :: m'.ind, h = ⟨nside, scheme, List.replicate (12 * nside * nside) 0, interp⟩ := by
  refine ⟨_, rfl, by simp [setNindices], ?_⟩
  intro h hm
  simp only [setNindices, List.take_nil, List.nil_append, List.mem_cons, List.mem_replicate] at hm
  rcases hm with rfl | rfl | ⟨_, rfl⟩ <;> rfl

/-- C118: with interpolation asked for, the indices read from a file are not interpolated. -/
theorem c118_interp_violated [Zero V] [One V] {fs : FS V} {name : String} {m : SkyMap V} {n : Nat} {s : Scheme} (hn : ∃ k, n = 2 ^ k) (h1 : Shaped n s m.map)
    (h2 : Shaped n s m.wgt) (h3 : ∀ h ∈ m.ind, Shaped n s h) (nside : Nat) (scheme : Scheme) :
    ∃ fs' m', toFits fs name m true = some fs' ∧ new fs' nside scheme true (some name) none = some m' ∧ m'.map.interp = true ∧ m'.wgt.interp = true ∧
      m'.ind.length = m.ind.length ∧ ∀ h ∈ m'.ind, h.interp = false := by
  refine ⟨_, ⟨⟨n, s, m.map.map, true⟩, ⟨n, s, m.wgt.map, true⟩, m.ind.map (fun h => ⟨n, s, h.map, false⟩), n, s, false⟩,
    write_ok (.inl rfl) h1 h2.len fun h hm => (h3 h hm).len, ?_, rfl, rfl, by simp, ?_⟩
  · unfold new
    simp only
    rw [read_ok hn h1 h2 h3]
    rfl
  · intro h hm
    obtain ⟨g, _, rfl⟩ := List.mem_map.1 hm
    rfl

/-- C118: what `HealpixMap.to_fits` writes is read back by `HealpixMap.from_fits`, with its resolution, ordering and values; other
files stay.  The switch for interpolation is that of the map that reads. -/
theorem c118_healpix {fs : FS V} {name : String} {h old : HMap V} {clobber : Bool} (hc : clobber = true ∨ dget name fs = none) {n : Nat}
    {s : Scheme} (hn : ∃ k, n = 2 ^ k) (h1 : Shaped n s h) :
    ∃ fs' h', hpmToFits fs name h clobber = some fs' ∧ (∀ other, other ≠ name → dget other fs' = dget other fs) ∧
      hpmFromFits fs' name 0 old = .ok h' ∧ Same h' h ∧ h'.interp = old.interp := by
  have hw : hpmToFits fs name h clobber = some (dset name ⟨[h.map], orderingCard h.scheme⟩ fs) := by
    unfold hpmToFits
    rw [if_neg]
    rintro ⟨a, b⟩
    rcases hc with hc | hc
    · rw [hc] at b; cases b
    · rw [hc] at a; cases a
  refine ⟨_, ⟨h.nside, h.scheme, h.map, old.interp⟩, hw, fun other ho => dget_dset_ne (Ne.symm ho) _ _, ?_, ⟨rfl, rfl, rfl⟩, rfl⟩
  unfold hpmFromFits
  rw [dget_dset_self]
  exact loadCol_ok hn h1 rfl (by rw [h1.scheme])

/-- C118: `HealpixMap.to_fits` without clobber raises when the file is there. -/
theorem c118_healpix_clobber (fs : FS V) (name : String) (h : HMap V) (hf : ∃ t, dget name fs = some t) : hpmToFits fs name h false = none := by
  obtain ⟨t, ht⟩ := hf
  unfold hpmToFits
  rw [ht]
  rfl

/-- C118: a `Map` in a file, its maps read one by one as `HealpixMap`s: column 0 is the data, column 1 the weights, column 2 + i
index map i; there are no other columns. -/
theorem c118_columns [Zero V] {fs : FS V} {name : String} {m : SkyMap V} {n : Nat} {s : Scheme} (hn : ∃ k, n = 2 ^ k) (h1 : Shaped n s m.map)
    (h2 : Shaped n s m.wgt) (h3 : ∀ h ∈ m.ind, Shaped n s h) (old : HMap V) : ∃ fs', toFits fs name m true = some fs' ∧
      (∃ h, hpmFromFits fs' name 0 old = .ok h ∧ Same h m.map) ∧ (∃ h, hpmFromFits fs' name 1 old = .ok h ∧ Same h m.wgt) ∧
      (∀ i x, m.ind[i]? = some x → ∃ h, hpmFromFits fs' name (2 + i) old = .ok h ∧ Same h x) ∧
      ∀ c, 2 + m.ind.length ≤ c → hpmFromFits fs' name c old = .error .index := by
  refine ⟨_, write_ok (.inl rfl) h1 h2.len fun h hh => (h3 h hh).len, ?_⟩
  unfold hpmFromFits
  rw [dget_dset_self]
  refine ⟨⟨_, loadCol_ok hn h1 rfl rfl, rfl, rfl, rfl⟩, ⟨_, loadCol_ok hn h2 rfl rfl, rfl, rfl, rfl⟩, fun i x hi => ?_, fun c hc => ?_⟩
  · refine ⟨_, loadCol_ok (h := x) hn (h3 x (List.mem_of_getElem? hi)) ?_ rfl, rfl, rfl, rfl⟩
    show (m.map.map :: m.wgt.map :: m.ind.map HMap.map)[2 + i]? = _
    rw [Nat.add_comm, List.getElem?_cons_succ, List.getElem?_cons_succ, List.getElem?_map, hi]
    rfl
  · have : (m.map.map :: m.wgt.map :: m.ind.map HMap.map)[c]? = none := by
      rw [List.getElem?_eq_none_iff]
      simp only [List.length_cons, List.length_map]
      omega
    simp only [loadCol, this]

/-- C118, violated: a `HealpixMap` in NEST order written to a file and read as a `Map` has weights in RING order beside data in NEST
order; such a `Map` does not survive its own `to_fits` (see `c118_mixed_violated`). -/
theorem c118_one_column_violated [Zero V] [One V] {fs : FS V} {name : String} {h : HMap V} {m0 : SkyMap V} {n : Nat} (hn : ∃ k, n = 2 ^ k)
    (h1 : Shaped n .nest h) : ∃ fs' m', hpmToFits fs name h true = some fs' ∧ fromFits fs' name m0 = some m' ∧ Same m'.map h ∧
      m'.map.scheme = .nest ∧ m'.wgt.scheme = .ring ∧ m'.wgt.map = List.replicate (12 * n * n) 1 := by
  have hw : hpmToFits fs name h true = some (dset name ⟨[h.map], "NEST"⟩ fs) := by
    unfold hpmToFits
    rw [if_neg (by simp), h1.scheme]
    rfl
  have ho : parseOrdering "NEST" = some .nest := by decide
  have hc : loadCol (V := V) ⟨[h.map], "NEST"⟩ 0 m0.map = .ok ⟨n, .nest, h.map, m0.map.interp⟩ := by
    unfold loadCol
    simp only [List.getElem?_cons_zero, h1.len, ho, nsideOf_ok hn]
  refine ⟨_, ⟨⟨n, .nest, h.map, m0.map.interp⟩, ⟨n, .ring, List.replicate (npix n) 1, false⟩, m0.ind ++ [], n, .nest, false⟩, hw, ?_,
    ⟨h1.nside.symm, h1.scheme.symm, rfl⟩, rfl, rfl, rfl⟩
  unfold fromFits
  rw [dget_dset_self]
  simp only [hc]
  rfl

/-! ## Cases -/

/-- twelve pixels, one index -/
def demoH (s : Scheme) (x : ℚ) : HMap ℚ := ⟨1, s, List.replicate 12 x, false⟩

def demo (s : Scheme) : SkyMap ℚ := ⟨demoH s 1, demoH s 2, [demoH s 3], 1, s, false⟩

def demoEmpty : SkyMap ℚ := ⟨demoH .ring 0, demoH .ring 0, [], 1, .ring, false⟩

theorem demo_shaped (s : Scheme) (x : ℚ) : Shaped 1 s (demoH s x) := ⟨rfl, rfl, by simp [demoH]⟩

theorem demo_ind (s : Scheme) : ∀ h ∈ (demo s).ind, Shaped 1 s h := by
  intro h hm
  rw [List.mem_singleton.1 hm]
  exact demo_shaped s 3

example := c118_roundtrip_partial (fs := []) (name := "a") (m := demo .nest) (m0 := demoEmpty) (clobber := false) (.inr rfl) ⟨0, rfl⟩ (demo_shaped .nest 1)
  (demo_shaped .nest 2) (demo_ind .nest) rfl
example := c118_clobber [("a", (⟨[], "RING"⟩ : Table ℚ))] "a" (demo .ring) (by simp)
example := c118_append_violated (fs := []) (name := "a") (m := demo .nest) (m0 := demoEmpty) ⟨0, rfl⟩ (demo_shaped .nest 1) (demo_shaped .nest 2) (demo_ind .nest)
example := c118_nested_violated (fs := []) (name := "a") (m := demo .nest) rfl
example := c118_mixed_violated (fs := []) (name := "a") (m := ⟨demoH .nest 1, demoH .ring 2, [], 1, .nest, false⟩) (m0 := demoEmpty) ⟨0, rfl⟩
  (demo_shaped .nest 1) (demo_shaped .ring 2) rfl
example := c118_weights (fs := [("a", ⟨[(demoH .nest 1).map], "NESTED"⟩)]) (name := "a") (h := demoH .nest 1) (m0 := demoEmpty) ⟨0, rfl⟩ (demo_shaped .nest 1)
  "NESTED" (.inr ⟨rfl, .inr rfl⟩) rfl
example := c118_pixels (fs := [("a", ⟨[[1, 2, 3]], "RING"⟩)]) (name := "a") (t := ⟨[[(1 : ℚ), 2, 3]], "RING"⟩) rfl rfl (by
  intro k h
  have : 0 < 2 ^ k := Nat.two_pow_pos k
  have h : 3 = 12 * 2 ^ k * 2 ^ k := h
  nlinarith) demoEmpty
example := c118_nindices (fs := []) (name := "a") (m := demo .nest) ⟨0, rfl⟩ (demo_shaped .nest 1) (demo_shaped .nest 2) (demo_ind .nest) 8 .ring true 3
example := c118_interp_violated (fs := []) (name := "a") (m := demo .nest) ⟨0, rfl⟩ (demo_shaped .nest 1) (demo_shaped .nest 2) (demo_ind .nest) 8 .ring
example := c118_healpix (fs := []) (name := "a") (h := demoH .nest 1) (old := demoH .ring 0) (clobber := false) (.inr rfl) ⟨0, rfl⟩ (demo_shaped .nest 1)
example := c118_healpix_clobber [("a", (⟨[], "RING"⟩ : Table ℚ))] "a" (demoH .ring 1) ⟨_, rfl⟩
example := c118_columns (fs := []) (name := "a") (m := demo .nest) ⟨0, rfl⟩ (demo_shaped .nest 1) (demo_shaped .nest 2) (demo_ind .nest) (demoH .ring 0)
example := c118_one_column_violated (fs := []) (name := "a") (h := demoH .nest 1) (m0 := demoEmpty) ⟨0, rfl⟩ (demo_shaped .nest 1)

end Verif.Sky.MapFits
