import Verif.Mir.PipeDemo

/-!
# Property C149 : the arguments of `UV.write`

`UV.write(preamble, data, flags=None)` (miriad.py 233-246) takes data as a masked array, or as an array with flags beside it,
or `None`.  Here the forms its arguments may have are modelled: what each of them writes, and which of them raise.  Below
`raw_write` the model is that of `Verif.Mir.UvVis` (C48).

A number of the data is of an arbitrary type `β`; `conv` gives the eight bytes of the `complex64` that `astype` makes of it.
Types of the elements that cannot be converted (text, objects) are not modelled; neither are masks of `flags` or of `uvw`.
-/
namespace Verif.Mir.Uv.Args

open Verif.Mir.Hio (Byte)
open Verif.Mir.Mask (Mask run mkopen)

/-! ## Model -/

/-- an array as numpy shows it: its shape, and its elements in the order of C -/
structure Nd (β : Type) where
  shape : List Nat
  vals : List β

/-- the argument `data` -/
inductive PyData (β : Type)
  /-- `None` -/
  | none
  /-- `np.ndarray` -/
  | array (a : Nd β)
  /-- `np.ma.MaskedArray`; its mask is `np.ma.nomask` (`none`), or has the shape of the data -/
  | masked (a : Nd β) (mask : Option (List Bool))
  /-- an object without the attributes `mask` and `astype`: a list, a number -/
  | other

/-- the argument `preamble[0]` -/
inductive PyUvw
  /-- an array: its shape, whether its elements are of type `double`, and its elements -/
  | array (shape : List Nat) (double : Bool) (vals : List Nat)
  | other

/-- `(uvw, t, (i, j))` -/
structure Pre where
  uvw : PyUvw
  t : Nat
  i : Nat
  j : Nat

inductive PyErr
  | attribute
  | type
  | value
  | overflow
  deriving DecidableEq, Repr

/-- what `raw_write` gets for the flags: an array, or a numpy scalar -/
inductive PyInts
  | array (shape : List Nat) (vals : List Bool)
  | scalar

/-- `np.logical_not(x)`; of something without axes it is a scalar, and `astype` leaves it one -/
def logicalNot (f : Nd Bool) : PyInts := if f.shape = [] then .scalar else .array f.shape (f.vals.map (!·))

/-- `raw_write`, miriad_wrap.cpp 145-176, up to the call of `uvwrite_c`; data and flags have come from `astype`, so that their
types are right.  (`PyArg_ParseTuple` looks at the arguments from left to right.) -/
def rawWrite {β : Type} (conv : β → List Byte) (p : Pre) (data : Nd β) (flags : PyInts) : Except PyErr PyRec :=
  match p.uvw with
  | .other => .error .type
  | .array ush dbl us =>
    if 2 ^ 31 ≤ p.i ∨ 2 ^ 31 ≤ p.j then .error .overflow
    else
      match flags with
      | .scalar => .error .type
      | .array fsh fs =>
        if ush ≠ [3] then .error .value
        else if data.shape.length ≠ 1 ∨ fsh.length ≠ 1 ∨ data.shape ≠ fsh then .error .value
        else if dbl = false then .error .value
        else .ok ⟨us.getD 0 0, us.getD 1 0, us.getD 2 0, p.t, p.i, p.j, data.vals.flatMap conv, fs⟩

/-- `UV.write`, miriad.py 233-246: the record handed to `uvwrite_c`, or nothing.  No class of numpy has a method `unmask`. -/
def write {β : Type} (conv : β → List Byte) (p : Pre) (data : PyData β) (flags : Option (Nd Bool)) :
    Except PyErr (Option PyRec) :=
  match data with
  | .none => .ok none
  | .other => .error .attribute
  | .array a =>
    match flags with
    | some f => (rawWrite conv p a (logicalNot f)).map some
    | none => .error .attribute
  | .masked a m =>
    match flags with
    | some f => (rawWrite conv p a (logicalNot f)).map some
    | none =>
      match m with
      | none => .error .attribute
      | some m => if a.shape = [] then .error .attribute else (rawWrite conv p a (logicalNot ⟨a.shape, m⟩)).map some

/-- a call of `uv.write` -/
structure Call (β : Type) where
  pre : Pre
  data : PyData β
  flags : Option (Nd Bool)

/-- calls of `uv.write` one after the other; the caller catches the exceptions of Python and goes on -/
def session {β : Type} (E : Env) (conv : β → List Byte) : VisW → List (Call β) → Option VisW
  | s, [] => some s
  | s, c :: cs =>
    match write conv c.pre c.data c.flags with
    | .error _ => session E conv s cs
    | .ok r => (writeMaybe E s r).bind fun s => session E conv s cs

/-- `UV.read(raw=False)`, miriad.py 221-225: the record as a masked array, given the numbers its bytes stand for -/
def readMasked {β : Type} (vals : List β) (p : PyRec) : Call β :=
  ⟨⟨.array [3] true [p.u, p.v, p.w], p.time, p.i, p.j⟩, .masked ⟨[vals.length], vals⟩ (some (p.flags.map (!·))), none⟩

/-- `UV.read(raw=True)`: data and flags apart -/
def readRaw {β : Type} (vals : List β) (p : PyRec) : Call β :=
  ⟨⟨.array [3] true [p.u, p.v, p.w], p.time, p.i, p.j⟩, .array ⟨[vals.length], vals⟩,
    some ⟨[p.flags.length], p.flags.map (!·)⟩⟩

/-! ## What is expected -/

/-- a call that says which numbers are to be stored and which of them are flagged -/
inductive Says {β : Type} : Call β → List β → List Bool → Prop
  /-- a masked array with a mask -/
  | masked (p : Pre) (vals : List β) (m : List Bool) : Says ⟨p, .masked ⟨[vals.length], vals⟩ (some m), none⟩ vals m
  /-- an array and flags -/
  | flags (p : Pre) (vals : List β) (f : List Bool) (h : f.length = vals.length) :
    Says ⟨p, .array ⟨[vals.length], vals⟩, some ⟨[f.length], f⟩⟩ vals f
  /-- a masked array and flags: the flags count -/
  | both (p : Pre) (vals : List β) (m : Option (List Bool)) (f : List Bool) (h : f.length = vals.length) :
    Says ⟨p, .masked ⟨[vals.length], vals⟩ m, some ⟨[f.length], f⟩⟩ vals f

/-- a preamble: three numbers of type double, and antennas that fit an int -/
structure PreOk (p : Pre) (u v w : Nat) : Prop where
  uvw : p.uvw = .array [3] true [u, v, w]
  i : p.i < 2147483648
  j : p.j < 2147483648

/-- the number of elements is that of the shape, and the mask has the shape of the data; numpy sees to it -/
def Sound {β : Type} (c : Call β) : Prop :=
  (∀ a, c.data = .array a → a.vals.length = a.shape.foldr (· * ·) 1) ∧
  (∀ a m, c.data = .masked a m → a.vals.length = a.shape.foldr (· * ·) 1 ∧ ∀ b, m = some b → b.length = a.vals.length) ∧
  (∀ f, c.flags = some f → f.vals.length = f.shape.foldr (· * ·) 1) ∧
  ∀ s d us, c.pre.uvw = .array s d us → us.length = s.foldr (· * ·) 1

/-! ## Proofs -/

variable {β : Type} {conv : β → List Byte}

/-- **C149**: a call that says which numbers to store and which of them are flagged stores them: one record, with its preamble,
the bytes of the numbers (those under the mask too) and a flag "good" where the mask is false. -/
theorem c149_stores {c : Call β} {vals : List β} {mask : List Bool} (h : Says c vals mask) {u v w : Nat} (hp : PreOk c.pre u v w) :
    write conv c.pre c.data c.flags =
      .ok (some ⟨u, v, w, c.pre.t, c.pre.i, c.pre.j, vals.flatMap conv, mask.map fun b => if b then false else true⟩) := by
  have hn : ∀ l : List Bool, l.map (!·) = l.map fun b => if b then false else true := fun l =>
    List.map_congr_left fun b _ => by cases b <;> rfl
  have hi : ¬ (2 ^ 31 ≤ c.pre.i ∨ 2 ^ 31 ≤ c.pre.j) := by
    have := hp.i
    have := hp.j
    omega
  cases h with
  | masked p vals m =>
    have hu : p.uvw = _ := hp.uvw
    have hi' : ¬ (2 ^ 31 ≤ p.i ∨ 2 ^ 31 ≤ p.j) := hi
    simp only [write, rawWrite, logicalNot, hu, if_neg hi', hn]
    simp [Except.map]
  | flags p vals f hl =>
    have hu : p.uvw = _ := hp.uvw
    have hi' : ¬ (2 ^ 31 ≤ p.i ∨ 2 ^ 31 ≤ p.j) := hi
    simp only [write, rawWrite, logicalNot, hu, if_neg hi', hn]
    simp [Except.map, hl]
  | both p vals m f hl =>
    have hu : p.uvw = _ := hp.uvw
    have hi' : ¬ (2 ^ 31 ≤ p.i ∨ 2 ^ 31 ≤ p.j) := hi
    simp only [write, rawWrite, logicalNot, hu, if_neg hi', hn]
    simp [Except.map, hl]

theorem raw_ok {p : Pre} {a : Nd β} {f : Nd Bool} {r : PyRec} (ha : a.vals.length = a.shape.foldr (· * ·) 1)
    (hf : f.vals.length = f.shape.foldr (· * ·) 1) (hu : ∀ s d us, p.uvw = .array s d us → us.length = s.foldr (· * ·) 1)
    (h : rawWrite conv p a (logicalNot f) = .ok r) :
    a.shape = [a.vals.length] ∧ f.shape = [f.vals.length] ∧ f.vals.length = a.vals.length ∧ ∃ u v w, PreOk p u v w := by
  unfold rawWrite at h
  cases hp : p.uvw with
  | other => rw [hp] at h; cases h
  | array ush dbl us =>
    rw [hp] at h
    simp only at h
    by_cases hi : 2 ^ 31 ≤ p.i ∨ 2 ^ 31 ≤ p.j
    · rw [if_pos hi] at h; cases h
    · rw [if_neg hi] at h
      unfold logicalNot at h
      by_cases h0 : f.shape = []
      · rw [if_pos h0] at h; cases h
      · rw [if_neg h0] at h
        simp only at h
        by_cases h1 : ush ≠ [3]
        · rw [if_pos h1] at h; cases h
        · rw [if_neg h1] at h
          by_cases h2 : a.shape.length ≠ 1 ∨ f.shape.length ≠ 1 ∨ a.shape ≠ f.shape
          · rw [if_pos h2] at h; cases h
          · rw [if_neg h2] at h
            by_cases h3 : dbl = false
            · rw [if_pos h3] at h; cases h
            · have h1 : ush = [3] := Decidable.not_not.1 h1
              have h2 : a.shape.length = 1 ∧ f.shape.length = 1 ∧ a.shape = f.shape :=
                ⟨Decidable.not_not.1 fun e => h2 (Or.inl e), Decidable.not_not.1 fun e => h2 (Or.inr (Or.inl e)),
                  Decidable.not_not.1 fun e => h2 (Or.inr (Or.inr e))⟩
              subst h1
              have hd : dbl = true := by simpa using h3
              subst hd
              have hus := hu _ _ _ hp
              obtain ⟨n, hn⟩ := List.length_eq_one_iff.1 h2.1
              have hfn : f.shape = [n] := by rw [← h2.2.2, hn]
              rw [hn] at ha
              rw [hfn] at hf
              simp only [List.foldr_cons, List.foldr_nil, Nat.mul_one] at ha hf hus
              refine ⟨by rw [hn, ha], by rw [hfn, hf], by omega, ?_⟩
              match us, hus with
              | [x, y, z], _ => exact ⟨x, y, z, hp, by omega, by omega⟩

/-- **C149**: and nothing else is ever written: if `UV.write` hands a record on, the call said which numbers and which flags. -/
theorem c149_only {c : Call β} (hs : Sound c) {r : PyRec} (h : write conv c.pre c.data c.flags = .ok (some r)) :
    ∃ vals mask u v w, Says c vals mask ∧ mask.length = vals.length ∧ PreOk c.pre u v w := by
  obtain ⟨s1, s2, s3, s4⟩ := hs
  obtain ⟨p, data, flags⟩ := c
  have map_ok : ∀ x : Except PyErr PyRec, x.map some = .ok (some r) → x = .ok r := by
    intro x hx
    cases x with
    | error e => cases hx
    | ok y => simp only [Except.map, Except.ok.injEq, Option.some.injEq] at hx; rw [hx]
  cases data with
  | none => simp [write] at h
  | other => simp [write] at h
  | array a =>
    cases flags with
    | none => simp [write] at h
    | some f =>
      obtain ⟨e1, e2, e3, u, v, w, e4⟩ := raw_ok (s1 a rfl) (s3 f rfl) s4 (map_ok _ h)
      obtain ⟨ash, av⟩ := a
      obtain ⟨fsh, fv⟩ := f
      simp only at e1 e2 e3
      subst e1 e2
      exact ⟨av, fv, u, v, w, .flags p av fv e3, e3, e4⟩
  | masked a m =>
    cases flags with
    | some f =>
      obtain ⟨e1, e2, e3, u, v, w, e4⟩ := raw_ok (s2 a m rfl).1 (s3 f rfl) s4 (map_ok _ h)
      obtain ⟨ash, av⟩ := a
      obtain ⟨fsh, fv⟩ := f
      simp only at e1 e2 e3
      subst e1 e2
      exact ⟨av, fv, u, v, w, .both p av m fv e3, e3, e4⟩
    | none =>
      cases m with
      | none => simp [write] at h
      | some b =>
        unfold write at h
        simp only at h
        by_cases h0 : a.shape = []
        · rw [if_pos h0] at h; cases h
        · rw [if_neg h0] at h
          have hb := (s2 a _ rfl).2 b rfl
          obtain ⟨e1, e2, e3, u, v, w, e4⟩ := raw_ok (f := ⟨a.shape, b⟩) (s2 a _ rfl).1
            (by show b.length = _; rw [hb]; exact (s2 a _ rfl).1) s4 (map_ok _ h)
          obtain ⟨ash, av⟩ := a
          simp only at e1 hb
          subst e1
          exact ⟨av, b, u, v, w, .masked p av b, hb, e4⟩

/-- **C149**: `None` for the data writes nothing and raises nothing, whatever the other arguments are. -/
theorem c149_none (p : Pre) (flags : Option (Nd Bool)) : write conv p (.none : PyData β) flags = .ok none := rfl

/-- **C149, disagreement**: a masked array nothing of which is masked (`np.ma.array(d)`, its mask is `np.ma.nomask`) is not
written: `unmask` is not a method of masked arrays. -/
theorem c149_nomask_violated (p : Pre) (a : Nd β) : write conv p (.masked a none) none = .error .attribute := rfl

/-- **C149**: an array that is not masked needs flags. -/
theorem c149_array (p : Pre) (a : Nd β) : write conv p (.array a) none = .error .attribute := rfl

/-- **C149**: what `UV.read` returned, with `raw` or without, is written as the same record. -/
theorem c149_copy (r : PyRec) (vals : List β) (hv : vals.flatMap conv = r.data) (hl : r.flags.length = vals.length)
    (hi : r.i < 2147483648) (hj : r.j < 2147483648) :
    write conv (readMasked vals r).pre (readMasked vals r).data (readMasked vals r).flags = .ok (some r) ∧
    write conv (readRaw vals r).pre (readRaw vals r).data (readRaw vals r).flags = .ok (some r) := by
  have hb : ((r.flags.map (!·)).map fun b => if b then false else true) = r.flags := by
    rw [List.map_map]
    exact (List.map_congr_left fun b _ => by cases b <;> rfl).trans (List.map_id r.flags)
  constructor
  · rw [c149_stores (c := readMasked vals r) (.masked _ vals _) ⟨rfl, hi, hj⟩, hv, hb]
    rfl
  · have hs : Says (readRaw vals r) vals (r.flags.map (!·)) := by
      have := Says.flags (readRaw vals r).pre vals (r.flags.map (!·)) (by simpa using hl)
      rw [List.length_map] at this
      exact this
    rw [c149_stores hs ⟨rfl, hi, hj⟩, hv, hb]
    rfl

/-! ## Files -/

/-- the records of the calls that do not raise -/
def records (conv : β → List Byte) (cs : List (Call β)) : List PyRec :=
  cs.filterMap fun c => match write conv c.pre c.data c.flags with | .ok (some r) => some r | _ => none

/-- a session is writing the records of the calls that do not raise: a call that raises leaves the file as it is -/
theorem session_blocks (E : Env) (cs : List (Call β)) : ∀ s, session E conv s cs =
    writeBlocks E.o E.q E.junk E.mode s ((records conv cs).map fun r => ⟨[], E.vis r⟩) := by
  have ha : ∀ s : VisW, assignAll s [] = some s := fun s => by cases s; simp [assignAll, wrun]
  induction cs with
  | nil => intro s; rfl
  | cons c cs ih =>
    intro s
    unfold session
    cases h : write conv c.pre c.data c.flags with
    | error e =>
      rw [show records conv (c :: cs) = records conv cs by simp [records, h]]
      exact ih s
    | ok r =>
      cases r with
      | none =>
        rw [show records conv (c :: cs) = records conv cs by simp [records, h]]
        exact ih s
      | some r =>
        rw [show records conv (c :: cs) = r :: records conv cs by simp [records, h]]
        simp only [List.map_cons, writeBlocks, writeBlock, ha, Option.bind_some, writeMaybe]
        cases uvwrite E.o E.q E.junk E.mode s (E.vis r) with
        | none => rfl
        | some s1 => exact ih s1

/-- the calls that say something, in order, with what they say; the others raise, or have no data -/
inductive Told (conv : β → List Byte) : List (Call β) → List (Call β × List β × List Bool) → Prop
  | nil : Told conv [] []
  | tells {c cs ts vals mask u v w} (h : Says c vals mask) (hp : PreOk c.pre u v w) (ht : Told conv cs ts) :
    Told conv (c :: cs) ((c, vals, mask) :: ts)
  | silent {c cs ts} (h : ∀ r, write conv c.pre c.data c.flags ≠ .ok (some r)) (ht : Told conv cs ts) : Told conv (c :: cs) ts

theorem told_records {cs : List (Call β)} {ts : List (Call β × List β × List Bool)} (h : Told conv cs ts) :
    (records conv cs).length = ts.length ∧ ∀ (i : Nat) (t : Call β × List β × List Bool), ts[i]? = some t → ∃ u v w,
      PreOk t.1.pre u v w ∧ (records conv cs)[i]? = some ⟨u, v, w, t.1.pre.t, t.1.pre.i, t.1.pre.j, t.2.1.flatMap conv,
        t.2.2.map fun b => if b then false else true⟩ := by
  induction h with
  | nil => exact ⟨rfl, fun i t ht => by simp at ht⟩
  | @tells c cs ts vals mask u v w h hp _ ih =>
    rw [show records conv (c :: cs) = _ :: records conv cs by unfold records; rw [List.filterMap_cons, c149_stores h hp]]
    refine ⟨by simp [ih.1], fun i t ht => ?_⟩
    cases i with
    | zero =>
      simp only [List.getElem?_cons_zero, Option.some.injEq] at ht
      subst ht
      exact ⟨u, v, w, hp, rfl⟩
    | succ i =>
      rw [List.getElem?_cons_succ] at ht ⊢
      exact ih.2 i t ht
  | @silent c cs ts h _ ih =>
    have : records conv (c :: cs) = records conv cs := by
      unfold records
      rw [List.filterMap_cons]
      cases hw : write conv c.pre c.data c.flags with
      | error e => rfl
      | ok r =>
        cases r with
        | none => rfl
        | some r => exact absurd hw (h r)
    rw [this]
    exact ih

/-- **C149**: a new file written by calls of `uv.write`, some of which may raise or have no data, gives back one record for each
of the others, in order: the numbers as they were given, a mask that is true where the call said so, the time and u, v, w. -/
theorem c149_read_back (E : Env) (hE : E.mode = .real) (laws : FpLaws E.o) (quant : QuantOk E.q) {cs : List (Call β)}
    {ts : List (Call β × List β × List Bool)} (ht : Told conv cs ts) {s0 s : VisW} (h0 : openVis .real = some s0)
    (h : session E conv s0 cs = some s) (hb : ∀ r ∈ records conv cs, BlockOk ⟨[], E.vis r⟩)
    (hfr : ∀ r, (records conv cs).head? = some r → Fresh E.o ⟨[], E.vis r⟩) (hv : (table s.w).length ≤ 128)
    {f : Nat → Byte} {size nsize : Nat} (hf : Holds f size s.w.out) (hn : ∀ t ∈ ts, t.2.2.length ≤ nsize) {r0 : Reader}
    (hr0 : AtStart s r0) {m : Mask} (hm : FlagFile s m) :
    ∃ R outs, uvreadN f size nsize ts.length ⟨r0, 0, m⟩ = some (R, outs) ∧ outs.length = ts.length ∧
      (∀ (i : Nat) (out : Out) (c : Call β) (vals : List β) (mask : List Bool), outs[i]? = some out →
        ts[i]? = some (c, vals, mask) → out.data = .plain (vals.flatMap conv) ∧ out.flags.map (!·) = mask ∧
          SameD E.o out.time c.pre.t ∧
          ∃ u v w z, c.pre.uvw = .array [3] true [u, v, w] ∧ SameD E.o out.u u ∧ SameD E.o out.v v ∧ out.w = some z ∧ SameD E.o z w) ∧
      ∃ R', uvread f size nsize R = .eof R' := by
  obtain ⟨l1, l2⟩ := told_records ht
  have hassign : assignAll s [] = some s := by
    cases s
    simp [assignAll, wrun]
  rw [session_blocks, hE] at h
  have hw : Written E.o E.q E.junk .real ((records conv cs).map fun r => ⟨[], E.vis r⟩) s := by
    refine ⟨laws, quant, Or.inl rfl, ⟨s0, s, [], h0, h, hassign, by simp⟩, ?_, ?_, hv⟩
    · intro b hbm
      obtain ⟨r, hr, rfl⟩ := List.mem_map.1 hbm
      exact hb r hr
    · intro b hbm
      rw [List.head?_map] at hbm
      cases hh : (records conv cs).head? with
      | none => rw [hh] at hbm; cases hbm
      | some r =>
        rw [hh] at hbm
        cases hbm
        exact hfr r hh
  have hn' : ∀ b ∈ ((records conv cs).map fun r => (⟨[], E.vis r⟩ : Block)), b.vis.flags.length ≤ nsize := by
    intro b hbm
    obtain ⟨r, hr, rfl⟩ := List.mem_map.1 hbm
    obtain ⟨i, hi, hir⟩ := List.mem_iff_getElem.1 hr
    have hti : i < ts.length := by omega
    obtain ⟨u, v, w, _, e⟩ := l2 i ts[i] (List.getElem?_eq_getElem hti)
    rw [List.getElem?_eq_getElem hi, hir] at e
    cases e
    simpa [Env.vis] using hn _ (List.getElem_mem hti)
  obtain ⟨R, outs, i1, i2, i3, i4⟩ := c48_records hw hf hn' hr0 hm
  rw [List.length_map, l1] at i1 i2
  refine ⟨R, outs, i1, i2, ?_, i4⟩
  intro i out c vals mask ho hti
  obtain ⟨u, v, w, hpre, e⟩ := l2 i _ hti
  have hM := i3 i out _ ho (by rw [List.getElem?_map, e]; rfl)
  obtain ⟨z, hz1, hz2⟩ := hM.w
  refine ⟨hM.data, ?_, hM.time, u, v, w, z, hpre.uvw, hM.u, hM.v, hz1, hz2⟩
  rw [hM.flags]
  show (mask.map _).map _ = mask
  rw [List.map_map]
  exact (List.map_congr_left fun b _ => by cases b <;> rfl).trans (List.map_id mask)

/-! ## Examples -/

/-- a number, eight times -/
def demoConv (x : Byte) : List Byte := List.replicate 8 x

def demoPre : Pre := ⟨.array [3] true [1, 2, 3], 4, 0, 1⟩

/-- a masked array, a masked array without a mask, nothing, a list, and an array with flags -/
def demoCalls : List (Call Byte) :=
  [⟨demoPre, .masked ⟨[2], [9, 7]⟩ (some [false, true]), none⟩, ⟨demoPre, .masked ⟨[2], [8, 8]⟩ none, none⟩,
   ⟨demoPre, .none, none⟩, ⟨demoPre, .other, none⟩, ⟨{ demoPre with t := 6 }, .array ⟨[1], [5]⟩, some ⟨[1], [false]⟩⟩]

theorem demo_told : Told demoConv demoCalls
    [(⟨demoPre, .masked ⟨[2], [9, 7]⟩ (some [false, true]), none⟩, [9, 7], [false, true]),
     (⟨{ demoPre with t := 6 }, .array ⟨[1], [5]⟩, some ⟨[1], [false]⟩⟩, [5], [false])] := by
  refine .tells (u := 1) (v := 2) (w := 3) (.masked demoPre [9, 7] [false, true]) ⟨rfl, by decide, by decide⟩ ?_
  refine .silent (fun r h => ?_) (.silent (fun r h => ?_) (.silent (fun r h => ?_) ?_))
  · rw [c149_nomask_violated] at h; cases h
  · rw [c149_none] at h; cases h
  · cases h
  · exact .tells (u := 1) (v := 2) (w := 3) (.flags { demoPre with t := 6 } [5] [false] rfl) ⟨rfl, by decide, by decide⟩ .nil

theorem demo_records : records demoConv demoCalls =
    [⟨1, 2, 3, 4, 0, 1, List.replicate 8 9 ++ List.replicate 8 7, [true, false]⟩, ⟨1, 2, 3, 6, 0, 1, List.replicate 8 5, [true]⟩] := by
  decide +kernel

/-- the calls meet the hypotheses of `c149_read_back` -/
example : ∃ (s0 s : VisW) (m : Mask) (R : VisR) (outs : List Out), openVis .real = some s0 ∧
    session demoEnv demoConv s0 demoCalls = some s ∧
    uvreadN (content s.w.out) s.w.offset 2 2 ⟨openReader (table s.w) s.w.offset, 0, m⟩ = some (R, outs) ∧ outs.length = 2 := by
  have hex : ∃ s0 s, openVis .real = some s0 ∧ session demoEnv demoConv s0 demoCalls = some s ∧
      (table s.w).length ≤ 128 ∧ Holds (content s.w.out) s.w.offset s.w.out ∧
      s.flagOps = [.write 0 [true, false], .write 2 [true]] :=
    ⟨_, _, rfl, rfl, by decide +kernel, by unfold Holds; decide +kernel, rfl⟩
  obtain ⟨s0, s, h0, h1, h2, h3, h4⟩ := hex
  have hr : ∃ m, run (mkopen (fun _ => 0) (fun _ => 0) 1) (s.flagOps ++ []) = .ok m := by
    rw [h4]
    exact ⟨_, rfl⟩
  obtain ⟨m, hr⟩ := hr
  have hA : ∀ v, Agrees ⟨[], v⟩ := fun v => ⟨fun p hp => by simp at hp, fun d hd => by simp [lastGiven] at hd,
    fun d hd => by simp [lastGiven] at hd, fun d hd => by simp [lastGiven] at hd⟩
  obtain ⟨R, outs, i1, i2, _⟩ := c149_read_back demoEnv rfl demo_laws demo_quant demo_told h0 h1
    (by
      intro r hr
      rw [demo_records] at hr
      simp only [List.mem_cons, List.not_mem_nil, or_false] at hr
      rcases hr with rfl | rfl <;>
        exact ⟨⟨by decide, by decide, by decide, by decide, by decide, by decide, by decide, by decide⟩, by simp, hA _⟩)
    (by
      intro r hr
      rw [demo_records] at hr
      cases hr
      exact ⟨fun _ => by decide, fun _ => by decide, fun _ => by decide⟩)
    h2 h3 (nsize := 2) (by decide) (open_atStart s) ⟨fun _ => 0, fun _ => 0, 1, [], by simp, hr⟩
  exact ⟨s0, s, m, R, outs, h0, h1, i1, i2⟩

/-- a record that was read is written again -/
example : write demoConv (readMasked [9, 7] ⟨1, 2, 3, 4, 0, 1, List.replicate 8 9 ++ List.replicate 8 7, [true, false]⟩).pre
    (.masked ⟨[2], [9, 7]⟩ (some [false, true])) none =
    .ok (some ⟨1, 2, 3, 4, 0, 1, List.replicate 8 9 ++ List.replicate 8 7, [true, false]⟩) :=
  (c149_copy (conv := demoConv) ⟨1, 2, 3, 4, 0, 1, List.replicate 8 9 ++ List.replicate 8 7, [true, false]⟩ [9, 7] rfl rfl (by decide) (by decide)).1

/-- arrays of two axes, and flags of another length, are refused -/
example : write demoConv demoPre (.array ⟨[1, 2], [9, 7]⟩) (some ⟨[1, 2], [false, true]⟩) = .error .value ∧
    write demoConv demoPre (.array ⟨[2], [9, 7]⟩) (some ⟨[1], [false]⟩) = .error .value ∧
    write demoConv demoPre (.array ⟨[2], [9, 7]⟩) (some ⟨[], [false]⟩) = .error .type := ⟨rfl, rfl, rfl⟩

end Verif.Mir.Uv.Args
