import Verif.Mir.UvStreamProps

/-!
# UV variables from Python: `uv[name] = value` and `uv[name]`

`UVObject_wrvr` and `UVObject_rdvr` of `/repo/aipy/_miriad/miriad_wrap.cpp` between Python values and the variables of
`Verif.Mir.Uv`.  As there numbers are kept with the most significant byte first; where the code looks at memory with
another size of element the words are those of a little-endian machine with 8-byte `long`.

Simplified: floating point numbers are bit patterns, and the conversions between `float` and `double` are two functions
about which nothing is assumed; the upper half of the `int` in which a 16-bit scalar is passed (not
initialised in the code) is taken to be the sign.
-/
namespace Verif.Mir.Uv

open Verif.Mir.Hio (Byte)

/-- conversions between the bit patterns of `double` and `float` -/
structure FloatOps where
  round : Nat → Nat
  widen : Nat → Nat
  /-- a `float` has 32 bits -/
  round_lt : ∀ x, round x < 2 ^ 32

/-- the values that go in and come out; numbers are integers or bit patterns -/
inductive PyVal
  | str (s : List Byte)
  | int (n : Int)
  | float (bits : Nat)
  | complex (re im : Nat)
  /-- `int64` array -/
  | longs (l : List Int)
  /-- `int32` array -/
  | ints (l : List Int)
  /-- `float32` array -/
  | floats (l : List Nat)
  /-- `float64` array -/
  | doubles (l : List Nat)
  /-- `complex128` array -/
  | complexes (l : List (Nat × Nat))
  deriving DecidableEq, Repr

/-- a 32-bit word of an integer -/
def word (n : Int) : List Byte := be32 (n % 2 ^ 32).toNat

/-- a `double` in the file -/
def be64 (n : Nat) : List Byte := be32 (n / 2 ^ 32) ++ be32 (n % 2 ^ 32)

/-- the words of a `long` in memory -/
def longWords (n : Int) : List Byte := word n ++ word (n / 2 ^ 32)

/-- the words of a `double` in memory, taken as a pair of `float` -/
def dblWords (n : Nat) : List Byte := be32 (n % 2 ^ 32) ++ be32 (n / 2 ^ 32)

/-- `(short) n` as an `int` -/
def shortWord (n : Int) : List Byte := word (Int.bmod n (2 ^ 16))

/-- `UVObject_wrvr`, miriad_wrap.cpp 306-372 (the macro `STORE_IA` is at 306-313): the type and the bytes handed to
`uvputvr_c`; `none` for the exceptions -/
def encode (fo : FloatOps) : Char → PyVal → Option (Ty × List Byte)
  | 'a', .str s => some (.byte, s ++ [0])
  | 'j', .longs l => some (.int2, (l.flatMap longWords).take (4 * l.length))
  | 'j', .int n => some (.int2, shortWord n)
  | 'i', .longs l => some (.int, (l.flatMap longWords).take (4 * l.length))
  | 'i', .int n => some (.int, word n)
  | 'r', .floats l => some (.real, l.flatMap be32)
  | 'r', .float x => some (.real, be32 (fo.round x))
  | 'd', .doubles l => some (.dble, l.flatMap be64)
  | 'd', .float x => some (.dble, be64 x)
  | 'c', .complexes l => some (.cmplx, (l.flatMap (fun p => dblWords p.1 ++ dblWords p.2)).take (8 * l.length))
  | 'c', .complex re _ => some (.cmplx, dblWords re)
  | _, _ => none

/-- the 32-bit words of a buffer -/
def words : List Byte → List Nat
  | a :: b :: c :: d :: rest => ofBe32 [a, b, c, d] :: words rest
  | _ => []

/-- pairs of words as they are in the file: most significant first -/
def pairsBig : List Nat → List Nat
  | a :: b :: rest => (a * 2 ^ 32 + b) :: pairsBig rest
  | _ => []

/-- pairs of words as they are in memory -/
def pairsLittle : List Nat → List Nat
  | a :: b :: rest => (b * 2 ^ 32 + a) :: pairsLittle rest
  | _ => []

/-- pairs of doubles -/
def pairUp : List Nat → List (Nat × Nat)
  | a :: b :: rest => (a, b) :: pairUp rest
  | _ => []

/-- a word as a signed number -/
def signed32 (n : Nat) : Int := Int.bmod n (2 ^ 32)

def signed16 (n : Nat) : Int := Int.bmod n (2 ^ 16)

/-- an array of one element comes back as a number, miriad_wrap.cpp 214-221 -/
def unwrap {α : Type} (one : α → PyVal) (many : List α → PyVal) : List α → PyVal
  | [x] => one x
  | l => many l

/-- what `UVObject_rdvr` makes of the bytes of a variable, miriad_wrap.cpp 263-297; `junk` is what is in the memory that
`uvgetvr_c` does not fill -/
def decode (fo : FloatOps) (junk : Nat → Nat) (tc : Char) (bytes : List Byte) : Option PyVal :=
  match tc with
  | 'a' => some (.str bytes)
  | 'j' => some (unwrap (fun w => .int (signed16 w)) (fun l => .ints (l.map signed16))
      (((words bytes).flatMap (fun w => [w % 2 ^ 16, w / 2 ^ 16])).take (words bytes).length))
  | 'i' => some (unwrap (fun w => .int (signed32 w)) (fun l => .ints (l.map signed32)) (words bytes))
  | 'r' => some (unwrap (fun w => .float (fo.widen w)) .floats (words bytes))
  | 'd' => some (unwrap .float .doubles (pairsBig (words bytes)))
  | 'c' => some (unwrap (fun p => .complex p.1 p.2) .complexes
      (pairUp ((List.range (2 * (pairsLittle (words bytes)).length)).map fun (k : Nat) =>
        (pairsLittle (words bytes)).getD k (junk k))))
  | _ => none
/-- the type of variable of a type character, miriad_wrap.cpp 238-261 -/
def tyOf : Char → Option Ty
  | 'a' => some .byte
  | 'j' => some .int2
  | 'i' => some .int
  | 'r' => some .real
  | 'd' => some .dble
  | 'c' => some .cmplx
  | _ => none

/-- the size of the buffers of `UVObject_rdvr` -/
abbrev BUFSIZE : Nat := 32768

/-- `UVObject_rdvr`, miriad_wrap.cpp 226-304; `none` for the exceptions -/
def rdvr (fo : FloatOps) (junk : Nat → Nat) (r : Reader) (name : Name) (tc : Char) : Option PyVal :=
  match tyOf tc with
  | none => none
  | some ty =>
    let length := match probe r name with | none => 0 | some p => p.2.1
    if BUFSIZE < length * ty.ext then none
    else (getvr r name ty).bind (decode fo junk tc)

/-- what a Python program does with a file it writes: `uv[name] = v` for a variable of type `tc`, and `uv.write` -/
inductive PyEv
  | set (name : Name) (tc : Char) (v : PyVal)
  | next

/-- the calls it makes; nothing is assigned when `UVObject_wrvr` raises -/
def PyEv.toEv (fo : FloatOps) : PyEv → Ev
  | .set name tc v =>
    match encode fo tc v with
    | some (ty, d) => .put name ty d
    | none => .put name .byte []
  | .next => .next

/-! ## Specification -/

/-- the values that are kept: strings, numbers in the range of their type, non-empty arrays of floating point numbers -/
def Good : Char → PyVal → Prop
  | 'a', .str s => s.length + 1 ≤ BUFSIZE
  | 'j', .int n => -2 ^ 15 ≤ n ∧ n < 2 ^ 15
  | 'i', .int n => -2 ^ 31 ≤ n ∧ n < 2 ^ 31
  | 'r', .floats l => l ≠ [] ∧ 4 * l.length ≤ BUFSIZE ∧ ∀ x ∈ l, x < 2 ^ 32
  | 'r', .float _ => True
  | 'd', .doubles l => l ≠ [] ∧ 8 * l.length ≤ BUFSIZE ∧ ∀ x ∈ l, x < 2 ^ 64
  | 'd', .float x => x < 2 ^ 64
  | _, _ => False

/-- how they come back: a string with a NUL at its end, a float in single precision for type `r`, an array of one
number as a number -/
def shown (fo : FloatOps) : Char → PyVal → PyVal
  | 'a', .str s => .str (s ++ [0])
  | 'r', .float x => .float (fo.widen (fo.round x))
  | 'r', .floats [x] => .float (fo.widen x)
  | 'd', .doubles [x] => .float x
  | _, v => v

/-- the last assignment to a name -/
def lastSet (name : Name) (h : List PyEv) : Option (Char × PyVal) :=
  h.foldl (fun acc e => match e with | .set n tc v => if n = name then some (tc, v) else acc | .next => acc) none

/-- the history up to the `n`-th record -/
def pyUpTo : Nat → List PyEv → List PyEv
  | 0, _ => []
  | _ + 1, [] => []
  | n + 1, .next :: h => .next :: pyUpTo n h
  | n + 1, e :: h => e :: pyUpTo (n + 1) h

/-! ## Proofs -/

theorem ofBe32_be32 (n : Nat) (h : n < 2 ^ 32) : ofBe32 (be32 n) = n := by
  unfold be32 ofBe32
  simp only [UInt8.toNat_ofNat']
  omega

theorem words_be32 (n : Nat) (rest : List Byte) : words (be32 n ++ rest) = ofBe32 (be32 n) :: words rest := rfl

theorem words_flatMap (l : List Nat) (h : ∀ x ∈ l, x < 2 ^ 32) : words (l.flatMap be32) = l := by
  induction l with
  | nil => rfl
  | cons x l ih =>
    rw [List.flatMap_cons, words_be32, ofBe32_be32 x (h x List.mem_cons_self), ih (fun y hy => h y (List.mem_cons_of_mem _ hy))]

theorem pairsBig_flatMap (l : List Nat) (h : ∀ x ∈ l, x < 2 ^ 64) : pairsBig (words (l.flatMap be64)) = l := by
  induction l with
  | nil => rfl
  | cons x l ih =>
    have hx := h x List.mem_cons_self
    rw [List.flatMap_cons]
    unfold be64
    rw [List.append_assoc, words_be32, words_be32, ofBe32_be32 _ (by omega), ofBe32_be32 _ (by omega)]
    have := ih (fun y hy => h y (List.mem_cons_of_mem _ hy))
    simp only [pairsBig]
    rw [show words (List.flatMap (fun n => be32 (n / 2 ^ 32) ++ be32 (n % 2 ^ 32)) l) = words (l.flatMap be64) from rfl, this]
    congr 1
    omega

theorem signed32_word (n : Int) (h1 : -2 ^ 31 ≤ n) (h2 : n < 2 ^ 31) : signed32 (n % 2 ^ 32).toNat = n := by
  unfold signed32 Int.bmod
  dsimp only
  split <;> omega

theorem words_word (n : Int) : words (word n) = [(n % 2 ^ 32).toNat] := by
  have := words_be32 (n % 2 ^ 32).toNat []
  rw [List.append_nil] at this
  unfold word
  rw [this, ofBe32_be32 _ (by omega)]
  rfl

theorem flatMap_length (l : List Nat) (f : Nat → List Byte) (k : Nat) (h : ∀ x, (f x).length = k) :
    (l.flatMap f).length = k * l.length := by
  induction l with
  | nil => simp
  | cons x l ih => rw [List.flatMap_cons, List.length_append, h, ih, List.length_cons, Nat.mul_add]; omega

theorem fits16_short (n : Int) : Fits16 (shortWord n) := by
  unfold shortWord word be32
  have hb : -2 ^ 15 ≤ Int.bmod n (2 ^ 16) ∧ Int.bmod n (2 ^ 16) < 2 ^ 15 := by
    unfold Int.bmod
    dsimp only
    split <;> omega
  generalize Int.bmod n (2 ^ 16) = m at hb
  obtain ⟨h1, h2⟩ := hb
  have key : ∀ k : Nat, k < 2 ^ 15 ∨ 2 ^ 32 - 2 ^ 15 ≤ k ∧ k < 2 ^ 32 →
      Fits16 [UInt8.ofNat (k / 2 ^ 24), UInt8.ofNat (k / 2 ^ 16), UInt8.ofNat (k / 2 ^ 8), UInt8.ofNat k] := by
    intro k hk
    have e : (UInt8.ofNat (k / 2 ^ 8)).toNat = k / 2 ^ 8 % 256 := by simp
    unfold Fits16
    rw [e]
    rcases hk with hk | hk
    · rw [if_neg (by omega)]
      have a1 : k / 2 ^ 24 = 0 := by omega
      have a2 : k / 2 ^ 16 = 0 := by omega
      rw [a1, a2]
      exact ⟨rfl, rfl, trivial⟩
    · rw [if_pos (by omega)]
      have a1 : k / 2 ^ 24 = 255 := by omega
      have a2 : k / 2 ^ 16 = 65535 := by omega
      rw [a1, a2]
      exact ⟨by decide, by decide, trivial⟩
  exact key _ (by omega)

theorem signed16_short (n : Int) (h1 : -2 ^ 15 ≤ n) (h2 : n < 2 ^ 15) :
    signed16 ((Int.bmod n (2 ^ 16) % 2 ^ 32).toNat % 2 ^ 16) = n := by
  have e : Int.bmod n (2 ^ 16) = n := by
    unfold Int.bmod
    dsimp only
    split <;> omega
  rw [e]
  unfold signed16 Int.bmod
  dsimp only
  split <;> omega

/-- a good value is encoded as whole elements, and decoded again -/
theorem encode_good (fo : FloatOps) (junk : Nat → Nat) (tc : Char) (v : PyVal) (h : Good tc v) :
    ∃ ty d, encode fo tc v = some (ty, d) ∧ tyOf tc = some ty ∧ d ≠ [] ∧ EvOk (.put [] ty d) ∧
      d.length / ty.mem * ty.ext ≤ BUFSIZE ∧ decode fo junk tc d = some (shown fo tc v) := by
  unfold Good at h
  split at h
  · rename_i s
    refine ⟨.byte, s ++ [0], rfl, rfl, by simp, ⟨by simp [Ty.mem, Nat.mod_one], ?_, by simp⟩, ?_, rfl⟩
    · rw [List.length_append]; simp only [List.length_singleton]; unfold BUFSIZE at h; omega
    · rw [List.length_append]; simpa [Ty.mem, Ty.ext] using h
  · rename_i n
    refine ⟨.int2, shortWord n, rfl, rfl, List.cons_ne_nil _ _, ⟨by show 4 % 4 = 0; rfl, by show 4 < _; omega, fun _ => fits16_short n⟩, ?_, ?_⟩
    · show 4 / 4 * 2 ≤ 32768; omega
    · unfold decode shortWord
      simp only
      rw [words_word]
      simp only [List.flatMap_cons, List.flatMap_nil, List.append_nil, List.length_singleton, List.take_succ_cons,
        List.take_zero, unwrap, Option.some.injEq]
      rw [signed16_short n h.1 h.2]
      rfl
  · rename_i n
    refine ⟨.int, word n, rfl, rfl, List.cons_ne_nil _ _, ⟨by show 4 % 4 = 0; rfl, by show 4 < _; omega, by simp⟩, ?_, ?_⟩
    · show 4 / 4 * 4 ≤ 32768; omega
    · unfold decode
      simp only
      rw [words_word]
      simp only [unwrap]
      rw [signed32_word n h.1 h.2]
      rfl
  · rename_i l
    obtain ⟨h1, h2, h3⟩ := h
    have hl : (l.flatMap be32).length = 4 * l.length := flatMap_length l be32 4 (fun _ => rfl)
    refine ⟨.real, l.flatMap be32, rfl, rfl, ?_, ⟨?_, ?_, by simp⟩, ?_, ?_⟩
    · intro hc
      rw [hc] at hl
      have : l.length = 0 := by simp only [List.length_nil] at hl; omega
      exact h1 (List.length_eq_zero_iff.1 this)
    · rw [hl]; simp [Ty.mem]
    · rw [hl]; unfold BUFSIZE at h2; omega
    · rw [hl]
      simp only [Ty.mem, Ty.ext]
      omega
    · unfold decode
      simp only
      rw [words_flatMap l h3]
      match l, h1 with
      | [x], _ => rfl
      | x :: y :: l, _ => rfl
  · rename_i x
    refine ⟨.real, be32 (fo.round x), rfl, rfl, List.cons_ne_nil _ _, ⟨by show 4 % 4 = 0; rfl, by show 4 < _; omega, by simp⟩, ?_, ?_⟩
    · show 4 / 4 * 4 ≤ 32768; omega
    · unfold decode
      simp only
      have := words_flatMap [fo.round x] (by simpa using fo.round_lt x)
      rw [List.flatMap_cons, List.flatMap_nil, List.append_nil] at this
      rw [this]
      rfl
  · rename_i l
    obtain ⟨h1, h2, h3⟩ := h
    have hl : (l.flatMap be64).length = 8 * l.length := flatMap_length l be64 8 (fun _ => rfl)
    refine ⟨.dble, l.flatMap be64, rfl, rfl, ?_, ⟨?_, ?_, by simp⟩, ?_, ?_⟩
    · intro hc
      rw [hc] at hl
      have : l.length = 0 := by simp only [List.length_nil] at hl; omega
      exact h1 (List.length_eq_zero_iff.1 this)
    · rw [hl]; simp [Ty.mem]
    · rw [hl]; unfold BUFSIZE at h2; omega
    · rw [hl]
      simp only [Ty.mem, Ty.ext]
      omega
    · unfold decode
      simp only
      rw [pairsBig_flatMap l h3]
      match l, h1 with
      | [x], _ => rfl
      | x :: y :: l, _ => rfl
  · rename_i x
    refine ⟨.dble, be64 x, rfl, rfl, List.cons_ne_nil _ _, ⟨by show 8 % 8 = 0; rfl, by show 8 < _; omega, by simp⟩, ?_, ?_⟩
    · show 8 / 8 * 8 ≤ 32768; omega
    · unfold decode
      simp only
      have := pairsBig_flatMap [x] (by simpa using h)
      rw [List.flatMap_cons, List.flatMap_nil, List.append_nil] at this
      rw [this]
      rfl
  · exact absurd h id

theorem pyUpTo_map (fo : FloatOps) (n : Nat) (h : List PyEv) :
    upTo n (h.map (PyEv.toEv fo)) = (pyUpTo n h).map (PyEv.toEv fo) := by
  induction h generalizing n with
  | nil => cases n <;> rfl
  | cons e h ih =>
    cases n with
    | zero => rfl
    | succ n =>
      cases e with
      | next => simp only [List.map_cons, PyEv.toEv, upTo, pyUpTo, ih]
      | set name tc v =>
        simp only [List.map_cons, pyUpTo]
        rw [← ih (n + 1)]
        simp only [PyEv.toEv]
        split <;> rfl

theorem pyUpTo_sub (n : Nat) (h : List PyEv) : ∀ e ∈ pyUpTo n h, e ∈ h := by
  induction h generalizing n with
  | nil => intro e he; cases n <;> simp [pyUpTo] at he
  | cons e h ih =>
    intro e' he'
    cases n with
    | zero => simp [pyUpTo] at he'
    | succ n =>
      cases e with
      | next =>
        simp only [pyUpTo, List.mem_cons] at he'
        rcases he' with he' | he'
        · exact List.mem_cons.2 (Or.inl he')
        · exact List.mem_cons_of_mem _ (ih _ _ he')
      | set =>
        simp only [pyUpTo, List.mem_cons] at he'
        rcases he' with he' | he'
        · exact List.mem_cons.2 (Or.inl he')
        · exact List.mem_cons_of_mem _ (ih _ _ he')

/-- the last assignment in bytes -/
theorem lastSet_value (fo : FloatOps) (name : Name) (h : List PyEv) (hg : ∀ nm tc v, PyEv.set nm tc v ∈ h → Good tc v)
    (tc : Char) (v : PyVal) (hl : lastSet name h = some (tc, v)) :
    PyEv.set name tc v ∈ h ∧ ∃ ty d, encode fo tc v = some (ty, d) ∧
      valueAfter (h.map (PyEv.toEv fo)) name = some d := by
  have key : ∀ (h : List PyEv) (acc : Option (Char × PyVal)) (acc' : Option (List Byte)),
      (∀ nm tc v, PyEv.set nm tc v ∈ h → Good tc v) →
      h.foldl (fun acc e => match e with | .set n tc v => if n = name then some (tc, v) else acc | .next => acc) acc
        = some (tc, v) →
      (PyEv.set name tc v ∈ h ∧ ∃ ty d, encode fo tc v = some (ty, d) ∧
        (h.map (PyEv.toEv fo)).foldl (assign name) acc' = some d) ∨
      (acc = some (tc, v) ∧ (h.map (PyEv.toEv fo)).foldl (assign name) acc' = acc') := by
    intro h
    induction h with
    | nil => intro acc acc' _ hf; exact Or.inr ⟨hf, rfl⟩
    | cons e h ih =>
      intro acc acc' hg hf
      rw [List.foldl_cons] at hf
      rw [List.map_cons, List.foldl_cons]
      have hg' : ∀ nm tc v, PyEv.set nm tc v ∈ h → Good tc v := fun nm tc v hm => hg nm tc v (List.mem_cons_of_mem _ hm)
      cases e with
      | next =>
        rcases ih acc acc' hg' hf with ⟨a, b⟩ | ⟨a, b⟩
        · exact Or.inl ⟨List.mem_cons_of_mem _ a, b⟩
        · exact Or.inr ⟨a, b⟩
      | set nm tc1 v1 =>
        obtain ⟨ty1, d1, e1, e2, e3, _⟩ := encode_good fo (fun _ => 0) tc1 v1 (hg nm tc1 v1 List.mem_cons_self)
        have hev : PyEv.toEv fo (.set nm tc1 v1) = .put nm ty1 d1 := by
          unfold PyEv.toEv
          simp only [e1]
        rw [hev]
        by_cases hn : nm = name
        · simp only [hn, if_true] at hf
          have hass : assign name acc' (.put nm ty1 d1) = some d1 := by
            show (if _ then _ else _) = _
            rw [if_pos ⟨hn, e3⟩]
          rw [hass]
          rcases ih _ (some d1) hg' hf with ⟨a, b⟩ | ⟨a, b⟩
          · exact Or.inl ⟨List.mem_cons_of_mem _ a, b⟩
          · left
            simp only [Option.some.injEq, Prod.mk.injEq] at a
            obtain ⟨rfl, rfl⟩ := a
            exact ⟨by rw [hn]; exact List.mem_cons_self, ty1, d1, e1, b⟩
        · simp only [if_neg hn] at hf
          have hass : assign name acc' (.put nm ty1 d1) = acc' := by
            show (if _ then _ else _) = _
            rw [if_neg (fun hc => hn hc.1)]
          rw [hass]
          rcases ih acc acc' hg' hf with ⟨a, b⟩ | ⟨a, b⟩
          · exact Or.inl ⟨List.mem_cons_of_mem _ a, b⟩
          · exact Or.inr ⟨a, b⟩
  rcases key h none none hg hl with hk | ⟨hk, _⟩
  · exact hk
  · simp at hk

/-- **C47**: what a Python program assigned with `uv[name] = v` is what `uv[name]` shows after the record has been read,
for strings, integer numbers and single and double precision numbers and arrays. -/
theorem c47_python {fo : FloatOps} {junk : Nat → Nat} {h : List PyEv} {w : Writer} {f : Nat → Byte} {size : Nat}
    (hg : ∀ nm tc v, PyEv.set nm tc v ∈ h → Good tc v)
    (hr : wrun newWriter (h.map (PyEv.toEv fo)) = some w) (h128 : (table w).length ≤ 128) (hf : Holds f size w.out)
    (n : Nat) (hn : n ≤ records (h.map (PyEv.toEv fo))) :
    ∃ r, readN f size n (openReader (table w) w.offset) = some r ∧
      ∀ name tc v, lastSet name (pyUpTo n h) = some (tc, v) → rdvr fo junk r name tc = some (shown fo tc v) := by
  have hok : HistOk (h.map (PyEv.toEv fo)) := by
    intro e he
    obtain ⟨p, hp, rfl⟩ := List.mem_map.1 he
    cases p with
    | next => trivial
    | set nm tc v =>
      obtain ⟨ty1, d1, e1, e2, e3, e4, _⟩ := encode_good fo junk tc v (hg nm tc v hp)
      unfold PyEv.toEv
      simp only [e1]
      exact e4
  obtain ⟨r, hr1, hr2⟩ := c47_variables hr hok h128 hf n hn
  refine ⟨r, hr1, fun name tc v hl => ?_⟩
  obtain ⟨hm, ty, d, e1, hv⟩ := lastSet_value fo name (pyUpTo n h)
    (fun nm tc v hm => hg nm tc v (pyUpTo_sub n h _ hm)) tc v hl
  have hm' := pyUpTo_sub n h _ hm
  obtain ⟨ty1, d1, e1', e2, e3, e4, e5, e6⟩ := encode_good fo junk tc v (hg name tc v hm')
  rw [e1, Option.some.injEq, Prod.mk.injEq] at e1'
  obtain ⟨rfl, rfl⟩ := e1'
  have hput : Ev.put name ty d ∈ h.map (PyEv.toEv fo) := by
    refine List.mem_map.2 ⟨_, hm', ?_⟩
    unfold PyEv.toEv
    simp only [e1]
  rw [← pyUpTo_map] at hv
  obtain ⟨g1, g2⟩ := hr2 name ty d hput e3
  obtain ⟨upd, hpr⟩ := g2 d hv
  unfold rdvr
  rw [e2]
  simp only
  rw [hpr]
  simp only
  rw [if_neg (by omega), g1, hv, Option.bind_some, e6]

/-! ### A concrete program -/

/-- conversions for the example -/
def cut : FloatOps := ⟨fun x => x % 2 ^ 32, fun x => x, fun x => Nat.mod_lt _ (by decide)⟩

def pySample : List PyEv :=
  [.set ['s'] 'a' (.str [65, 66]), .set ['n'] 'i' (.int (-3)), .next, .set ['f'] 'd' (.doubles [1, 2 ^ 63]), .next]

def pyW : Writer := (wrun newWriter (pySample.map (PyEv.toEv cut))).getD newWriter

example : ∃ r, readN (content pyW.out) pyW.offset 2 (openReader (table pyW) pyW.offset) = some r ∧
    rdvr cut (fun _ => 0) r ['n'] 'i' = some (.int (-3)) ∧ rdvr cut (fun _ => 0) r ['f'] 'd' = some (.doubles [1, 2 ^ 63]) ∧
    rdvr cut (fun _ => 0) r ['s'] 'a' = some (.str [65, 66, 0]) := by
  obtain ⟨r, h1, h2⟩ := c47_python (fo := cut) (junk := fun _ => 0) (h := pySample) (w := pyW) (f := content pyW.out)
    (size := pyW.offset) (by
      intro nm tc v hm
      simp only [pySample, List.mem_cons, PyEv.set.injEq, List.not_mem_nil, or_false, reduceCtorEq, false_or] at hm
      rcases hm with ⟨_, rfl, rfl⟩ | ⟨_, rfl, rfl⟩ | ⟨_, rfl, rfl⟩
      · show _ ≤ _; decide
      · exact ⟨by decide, by decide⟩
      · exact ⟨by decide, by decide, by decide⟩)
    (by decide +kernel) (by decide +kernel) (by unfold Holds; decide +kernel) 2 (by decide +kernel)
  exact ⟨r, h1, h2 ['n'] 'i' (.int (-3)) (by decide), h2 ['f'] 'd' (.doubles [1, 2 ^ 63]) (by decide),
    h2 ['s'] 'a' (.str [65, 66]) (by decide)⟩

/-! ### Values that are not kept -/

/-- **C47, disagreement**: a string comes back with a NUL at its end, so that copying a variable with
`uv2[name] = uv1[name]` makes it longer every time. -/
theorem c47_string_grows (fo : FloatOps) (junk : Nat → Nat) (s : List Byte) :
    (encode fo 'a' (.str s)).bind (fun p => decode fo junk 'a' p.2) = some (.str (s ++ [0])) := rfl

/-- **C47, disagreement**: an integer array (which has to be `int64`) is stored as so many 32-bit words: every other number
is the upper half of the one before, and the second half of the array is lost. -/
theorem c47_int_array (fo : FloatOps) (junk : Nat → Nat) :
    (encode fo 'i' (.longs [1, 2, 3])).bind (fun p => decode fo junk 'i' p.2) = some (.ints [1, 0, 2]) := by
  show some (unwrap (fun w => PyVal.int (signed32 w)) (fun l => PyVal.ints (l.map signed32)) (words ((([1, 2, 3] : List Int).flatMap longWords).take (4 * 3)))) = _
  decide +kernel

/-- **C47, disagreement**: and an array of 16-bit integers is read as if each took two bytes in memory. -/
theorem c47_short_array (fo : FloatOps) (junk : Nat → Nat) :
    (encode fo 'j' (.longs [1, 2, 3])).bind (fun p => decode fo junk 'j' p.2) = some (.ints [1, 0, 0]) := by
  show some (unwrap (fun w => PyVal.int (signed16 w)) (fun l => PyVal.ints (l.map signed16))
      (((words ((([1, 2, 3] : List Int).flatMap longWords).take (4 * 3))).flatMap (fun w => [w % 2 ^ 16, w / 2 ^ 16])).take
        (words ((([1, 2, 3] : List Int).flatMap longWords).take (4 * 3))).length)) = _
  decide +kernel

/-- **C47, disagreement**: the imaginary part of a complex variable is not stored: `uv[name]` shows whatever was in
memory. -/
theorem c47_complex (fo : FloatOps) (junk : Nat → Nat) (re im : Nat) (h : re < 2 ^ 64) :
    (encode fo 'c' (.complex re im)).bind (fun p => decode fo junk 'c' p.2) = some (.complex re (junk 1)) := by
  have e : pairsLittle (words (dblWords re)) = [re] := by
    unfold dblWords
    rw [words_be32, show be32 (re / 2 ^ 32) = be32 (re / 2 ^ 32) ++ [] from rfl, words_be32, ofBe32_be32 _ (by omega),
      ofBe32_be32 _ (by omega)]
    simp only [pairsLittle, words, List.cons.injEq, and_true]
    omega
  show decode fo junk 'c' (dblWords re) = _
  unfold decode
  simp only
  rw [e]
  rfl

example : (encode cut 'c' (.complex 5 7)).bind (fun p => decode cut (fun _ => 99) 'c' p.2) = some (.complex 5 99) :=
  c47_complex cut (fun _ => 99) 5 7 (by decide)

end Verif.Mir.Uv
