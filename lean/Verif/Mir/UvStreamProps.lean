import Verif.Mir.UvStream

/-!
# Property C47 : UV variables read back as written
-/
namespace Verif.Mir.Uv

open Verif.Mir.Hio (Byte)

/-! ## Specification -/

/-- the value of a variable after a history: the last one assigned.  (An empty array is not assigned.) -/
def assign (name : Name) (acc : Option (List Byte)) : Ev → Option (List Byte)
  | .put n _ d => if n = name ∧ d ≠ [] then some d else acc
  | _ => acc

def valueAfter (h : List Ev) (name : Name) : Option (List Byte) := h.foldl (assign name) none

/-- the history up to and including the `n`-th end of a record -/
def upTo : Nat → List Ev → List Ev
  | 0, _ => []
  | _ + 1, [] => []
  | n + 1, .next :: h => .next :: upTo n h
  | n + 1, e :: h => e :: upTo (n + 1) h

/-- the number of records written -/
def records : List Ev → Nat
  | [] => 0
  | .next :: h => records h + 1
  | _ :: h => records h

/-- numbers of the type `H_INT2` have 16 bits: the upper half is all sign -/
def Fits16 : List Byte → Prop
  | [] => True
  | a :: b :: c :: _ :: rest =>
    a = (if 128 ≤ c.toNat then 255 else 0) ∧ b = (if 128 ≤ c.toNat then 255 else 0) ∧ Fits16 rest
  | _ => False

/-- an assignment of whole elements that fit their type, and of less than 2 GiB -/
def EvOk : Ev → Prop
  | .put _ ty d => d.length % ty.mem = 0 ∧ d.length < 2 ^ 31 ∧ (ty = .int2 → Fits16 d)
  | _ => True

def HistOk (h : List Ev) : Prop := ∀ e ∈ h, EvOk e

/-- the file holds what the writer wrote; what is between the writes can be anything -/
def Holds (f : Nat → Byte) (size : Nat) (out : List Write) : Prop :=
  ∀ wr ∈ out, wr.offset + wr.bytes.length ≤ size ∧ ∀ k, (h : k < wr.bytes.length) → f (wr.offset + k) = wr.bytes[k]

/-! ## Tokens: the records of the stream -/

inductive Tok
  | size (i len : Nat)
  | data (i : Nat) (ty : Ty) (bytes : List Byte)
  | eor

def Tok.fin (off : Nat) : Tok → Nat
  | .size _ _ => off + ALIGN
  | .data _ ty bytes => roundup (off + roundup HDR ty.ext + bytes.length) ALIGN
  | .eor => off + ALIGN

def Tok.writes (off : Nat) : Tok → List Write
  | .size i len => [⟨1, off, header i 0⟩, ⟨4, off + HDR, be32 len⟩]
  | .data i ty bytes => [⟨1, off, header i 1⟩, ⟨ty.ext, off + roundup HDR ty.ext, bytes⟩]
  | .eor => [⟨1, off, header 0 2⟩]

def finL (off : Nat) (ts : List Tok) : Nat := ts.foldl Tok.fin off

def layout : Nat → List Tok → List Write
  | _, [] => []
  | off, t :: ts => t.writes off ++ layout (t.fin off) ts

theorem layout_append (off : Nat) (a b : List Tok) : layout off (a ++ b) = layout off a ++ layout (finL off a) b := by
  induction a generalizing off with
  | nil => rfl
  | cons t a ih => simp [layout, ih, finL, List.append_assoc]

theorem finL_append (off : Nat) (a b : List Tok) : finL off (a ++ b) = finL (finL off a) b := by
  simp [finL, List.foldl_append]

theorem finL_cons (off : Nat) (t : Tok) (b : List Tok) : finL off (t :: b) = finL (t.fin off) b := rfl

theorem roundup8 (a : Nat) : a ≤ roundup a ALIGN ∧ roundup a ALIGN < a + 8 ∧ roundup a ALIGN % 8 = 0 := by
  unfold roundup ALIGN
  omega

theorem roundup_aligned (a : Nat) : roundup a ALIGN % 8 = 0 := (roundup8 a).2.2

theorem hdrUp (ty : Ty) : 4 ≤ roundup HDR ty.ext := by cases ty <;> decide

theorem Tok.lt_fin (off : Nat) (t : Tok) : off + 4 ≤ t.fin off := by
  cases t with
  | size => simp only [Tok.fin, ALIGN]; omega
  | eor => simp only [Tok.fin, ALIGN]; omega
  | data i ty bytes =>
    have := (roundup8 (off + roundup HDR ty.ext + bytes.length)).1
    have := hdrUp ty
    simp only [Tok.fin]; omega

theorem finL_ge (off : Nat) (ts : List Tok) : off + 4 * ts.length ≤ finL off ts := by
  induction ts generalizing off with
  | nil => simp [finL]
  | cons t ts ih =>
    have := ih (t.fin off)
    have := t.lt_fin off
    rw [finL_cons]
    simp only [List.length_cons]
    omega

theorem Holds.append {f size a b} : Holds f size (a ++ b) ↔ Holds f size a ∧ Holds f size b := by
  constructor
  · intro h
    exact ⟨fun wr hw => h wr (List.mem_append_left _ hw), fun wr hw => h wr (List.mem_append_right _ hw)⟩
  · rintro ⟨ha, hb⟩ wr hw
    rcases List.mem_append.1 hw with h | h
    · exact ha wr h
    · exact hb wr h

theorem Holds.read {f size wr out} (h : Holds f size out) (hm : wr ∈ out) :
    readBytes f size wr.offset wr.bytes.length = some wr.bytes := by
  obtain ⟨h1, h2⟩ := h wr hm
  unfold readBytes
  rw [if_neg (by omega)]
  congr 1
  apply List.ext_getElem
  · simp
  · intro k hk1 hk2
    simp only [List.getElem_map, List.getElem_range]
    exact h2 k hk2

theorem be32_back (n : Nat) (h : n < 2 ^ 31) : ofBe32 (be32 n) = n := by
  unfold be32 ofBe32
  simp only [UInt8.toNat_ofNat']
  omega

/-! ## One record -/

def Tok.toRec : Tok → Rec
  | .size i len => .size i len
  | .data i _ bytes => .data i bytes
  | .eor => .eor

/-- a record that the reader can make sense of -/
def Valid (vars : List RVar) : Tok → Prop
  | .size i len => i < 128 ∧ ∃ v, vars[i]? = some v ∧ 0 < len ∧ len < 2 ^ 31 ∧ len % v.ty.ext = 0
  | .data i ty bytes => i < 128 ∧ ∃ v, vars[i]? = some v ∧ v.ty = ty ∧ v.flength = bytes.length
  | .eor => True

theorem readSize_tok (f : Nat → Byte) (size off i len : Nat) (v : RVar)
    (hr : readBytes f size (off + HDR) (be32 len).length = some (be32 len)) (h0 : 0 < len) (h1 : len < 2 ^ 31)
    (h2 : len % v.ty.ext = 0) : readSize f size v off i = .size i len := by
  unfold readSize
  rw [show (be32 len).length = 4 from rfl] at hr
  rw [hr]
  simp only [be32_back len h1]
  unfold checkSize
  rw [if_neg (by omega), if_neg (by omega), if_neg (by simp [h2])]

theorem readRec_tok (f : Nat → Byte) (size maxOffset off : Nat) (vars : List RVar) (t : Tok)
    (hf : Holds f size (t.writes off)) (hm : off < maxOffset) (hv : Valid vars t) :
    readRec f size maxOffset vars off = t.toRec := by
  have hd : ∃ i c, (⟨1, off, header i c⟩ : Write) ∈ t.writes off := by
    cases t with
    | size i len => exact ⟨i, 0, List.mem_cons_self⟩
    | data i ty bytes => exact ⟨i, 1, List.mem_cons_self⟩
    | eor => exact ⟨0, 2, List.mem_cons_self⟩
  obtain ⟨i0, c0, hmem0⟩ := hd
  have hsz : off + 4 ≤ size := (hf _ hmem0).1
  have hb : ∀ i c, (⟨1, off, header i c⟩ : Write) ∈ t.writes off → f off = UInt8.ofNat i ∧ f (off + 2) = UInt8.ofNat c := by
    intro i c hmem
    exact ⟨(hf _ hmem).2 0 (by simp [header]), (hf _ hmem).2 2 (by simp [header])⟩
  unfold readRec
  rw [if_neg (by omega), if_neg (by simp only [HDR]; omega)]
  cases t with
  | eor =>
    have h2 := (hb 0 2 List.mem_cons_self).2
    rw [if_pos (h2.trans (by decide))]
    rfl
  | size i len =>
    obtain ⟨h1, h2⟩ := hb i 0 List.mem_cons_self
    obtain ⟨hi, v, hvi, hl0, hl1, hl2⟩ := hv
    have hin : (f off).toNat = i := by rw [h1, UInt8.toNat_ofNat']; omega
    have hrv : recVar vars (f off) = some v := by
      unfold recVar
      rw [if_neg (by omega), hin]; exact hvi
    have h3 : ¬ f (off + 2) = 2 := by rw [h2]; decide
    have h4 : f (off + 2) = 0 := h2.trans (by decide)
    have hr : readBytes f size (off + HDR) (be32 len).length = some (be32 len) :=
      Holds.read hf (wr := ⟨4, off + HDR, be32 len⟩) (List.mem_cons_of_mem _ List.mem_cons_self)
    rw [if_neg h3, hrv]
    simp only [if_pos h4, hin]
    exact readSize_tok f size off i len v hr hl0 hl1 hl2
  | data i ty bytes =>
    obtain ⟨h1, h2⟩ := hb i 1 List.mem_cons_self
    obtain ⟨hi, v, hvi, hty, hfl⟩ := hv
    have hin : (f off).toNat = i := by rw [h1, UInt8.toNat_ofNat']; omega
    have hrv : recVar vars (f off) = some v := by
      unfold recVar
      rw [if_neg (by omega), hin]; exact hvi
    have h3 : ¬ f (off + 2) = 2 := by rw [h2]; decide
    have h4 : ¬ f (off + 2) = 0 := by rw [h2]; decide
    have h5 : f (off + 2) = 1 := h2.trans (by decide)
    have hr : readBytes f size (off + roundup HDR v.ty.ext) v.flength = some bytes := by
      rw [hty, hfl]
      exact Holds.read hf (wr := ⟨ty.ext, off + roundup HDR ty.ext, bytes⟩)
        (List.mem_cons_of_mem _ List.mem_cons_self)
    rw [if_neg h3, hrv]
    simp only [if_neg h4, if_pos h5, hin]
    unfold readData
    rw [hr]
    rfl

/-! ## A block of records -/

/-- what a record of a variable does to the variable -/
def Tok.act (c : Nat) (v : RVar) : Tok → RVar
  | .size _ len => takeSize v c len
  | .data _ _ bytes => takeData v c bytes
  | .eor => v

/-- the index of the variable -/
def Tok.var : Tok → Nat
  | .size i _ => i
  | .data i _ _ => i
  | .eor => 0

def actAll (c : Nat) (vars : List RVar) (t : Tok) : List RVar :=
  match vars[t.var]? with
  | none => vars
  | some v => vars.set t.var (t.act c v)

def copyAll (vars : List RVar) (b : Bool) (t : Tok) : Bool :=
  b || (match vars[t.var]? with | none => false | some v => v.copy)

def ValidAll (c : Nat) : List RVar → List Tok → Prop
  | _, [] => True
  | vars, t :: ts => Valid vars t ∧ ValidAll c (actAll c vars t) ts

theorem validAll_append (c : Nat) (vars : List RVar) (a b : List Tok) :
    ValidAll c vars (a ++ b) ↔ ValidAll c vars a ∧ ValidAll c (a.foldl (actAll c) vars) b := by
  induction a generalizing vars with
  | nil => simp [ValidAll]
  | cons t a ih => simp [ValidAll, ih, and_assoc]

/-- is one of the variables of the records tracked? -/
def copyL (c : Nat) : List RVar → Bool → List Tok → Bool
  | _, b, [] => b
  | vars, b, t :: ts => copyL c (actAll c vars t) (copyAll vars b t) ts

def Tok.isVar : Tok → Prop
  | .eor => False
  | _ => True

theorem applyRec_tok (c : Nat) (l : Loop) (t : Tok) (ht : t.isVar) (hv : Valid l.vars t) :
    applyRec c l t.toRec = some ⟨actAll c l.vars t, t.fin l.off, copyAll l.vars l.copy t⟩ := by
  cases t with
  | eor => exact absurd ht (by simp [Tok.isVar])
  | size i len =>
    obtain ⟨_, v, hvi, _⟩ := hv
    simp only [Tok.toRec, applyRec, hvi, Option.map_some, Loop.update, actAll, copyAll, Tok.var, Tok.act, Tok.fin,
      takeSize]
  | data i ty bytes =>
    obtain ⟨_, v, hvi, hty, hfl⟩ := hv
    simp only [Tok.toRec, applyRec, hvi, Option.map_some, Loop.update, actAll, copyAll, Tok.var, Tok.act, Tok.fin,
      takeData, hty, hfl]

theorem scanLoop_block (f : Nat → Byte) (size : Nat) (r : Reader) (c : Nat) (ts : List Tok) (fuel : Nat) (l : Loop)
    (hv : ∀ t ∈ ts, t.isVar) (hval : ValidAll c l.vars ts)
    (hf : Holds f size (layout l.off (ts ++ [.eor]))) (hm : finL l.off (ts ++ [.eor]) ≤ r.maxOffset)
    (hfuel : ts.length < fuel) :
    scanLoop f size r c fuel l = .ok { r with
      vars := ts.foldl (actAll c) l.vars, callno := c, copy := copyL c l.vars l.copy ts,
      offset := finL l.off (ts ++ [.eor]) } := by
  induction ts generalizing fuel l with
  | nil =>
    obtain ⟨fuel, rfl⟩ : ∃ k, fuel = k + 1 := ⟨fuel - 1, by simp at hfuel; omega⟩
    have hlt : l.off < r.maxOffset := by
      have := Tok.lt_fin l.off .eor
      simp only [List.nil_append, finL, List.foldl_cons, List.foldl_nil] at hm
      omega
    have := readRec_tok f size r.maxOffset l.off l.vars .eor (by simpa [layout] using hf) hlt trivial
    simp only [scanLoop, this, Tok.toRec]
    rfl
  | cons t ts ih =>
    obtain ⟨fuel, rfl⟩ : ∃ k, fuel = k + 1 := ⟨fuel - 1, by simp at hfuel; omega⟩
    rw [List.cons_append] at hf hm ⊢
    have hf2 : Holds f size (t.writes l.off) ∧ Holds f size (layout (t.fin l.off) (ts ++ [.eor])) := Holds.append.1 hf
    have hm2 : finL (t.fin l.off) (ts ++ [.eor]) ≤ r.maxOffset := hm
    have hlt : l.off < r.maxOffset := by
      have := t.lt_fin l.off
      have := finL_ge (t.fin l.off) (ts ++ [.eor])
      omega
    have h1 := readRec_tok f size r.maxOffset l.off l.vars t hf2.1 hlt hval.1
    have h2 := applyRec_tok c l t (hv t List.mem_cons_self) hval.1
    have h3 := ih fuel ⟨actAll c l.vars t, t.fin l.off, copyAll l.vars l.copy t⟩
      (fun t' ht' => hv t' (List.mem_cons_of_mem _ ht')) hval.2 hf2.2 hm2 (by simp at hfuel; omega)
    have hne : t.toRec ≠ .eor := by
      have := hv t List.mem_cons_self
      cases t <;> simp_all [Tok.toRec, Tok.isVar]
    have hne2 : t.toRec ≠ .eof ∧ t.toRec ≠ .bad := by cases t <;> simp [Tok.toRec]
    rw [scanLoop, h1]
    rw [show (ts.foldl (actAll c) (actAll c l.vars t)) = (t :: ts).foldl (actAll c) l.vars from rfl] at h3
    cases t with
    | eor => exact absurd rfl hne
    | size i len =>
      simp only [Tok.toRec] at h2 ⊢
      rw [h2]
      exact h3
    | data i ty bytes =>
      simp only [Tok.toRec] at h2 ⊢
      rw [h2]
      exact h3

/-- the same for what follows the last record -/
theorem scanLoop_tail (f : Nat → Byte) (size : Nat) (r : Reader) (c : Nat) (ts : List Tok) (fuel : Nat) (l : Loop)
    (hv : ∀ t ∈ ts, t.isVar) (hval : ValidAll c l.vars ts)
    (hf : Holds f size (layout l.off ts)) (hm : finL l.off ts = r.maxOffset) (hfuel : ts.length < fuel) :
    scanLoop f size r c fuel l = .eof { r with
      vars := ts.foldl (actAll c) l.vars, callno := c, copy := copyL c l.vars l.copy ts } := by
  induction ts generalizing fuel l with
  | nil =>
    obtain ⟨fuel, rfl⟩ : ∃ k, fuel = k + 1 := ⟨fuel - 1, by simp at hfuel; omega⟩
    have hr : readRec f size r.maxOffset l.vars l.off = .eof := by
      unfold readRec
      rw [if_pos]
      have : l.off = r.maxOffset := hm
      omega
    simp only [scanLoop, hr]
    rfl
  | cons t ts ih =>
    obtain ⟨fuel, rfl⟩ : ∃ k, fuel = k + 1 := ⟨fuel - 1, by simp at hfuel; omega⟩
    have hf2 : Holds f size (t.writes l.off) ∧ Holds f size (layout (t.fin l.off) ts) := Holds.append.1 hf
    have hlt : l.off < r.maxOffset := by
      have := t.lt_fin l.off
      have := finL_ge (t.fin l.off) ts
      rw [finL_cons] at hm
      omega
    have h1 := readRec_tok f size r.maxOffset l.off l.vars t hf2.1 hlt hval.1
    have h2 := applyRec_tok c l t (hv t List.mem_cons_self) hval.1
    have h3 := ih fuel ⟨actAll c l.vars t, t.fin l.off, copyAll l.vars l.copy t⟩
      (fun t' ht' => hv t' (List.mem_cons_of_mem _ ht')) hval.2 hf2.2 hm (by simp at hfuel; omega)
    rw [scanLoop, h1]
    have hvt := hv t List.mem_cons_self
    cases t with
    | eor => exact absurd hvt (by simp [Tok.isVar])
    | size i len =>
      simp only [Tok.toRec] at h2 ⊢
      rw [h2]
      exact h3
    | data i ty bytes =>
      simp only [Tok.toRec] at h2 ⊢
      rw [h2]
      exact h3

/-! ## Writer and reader in step -/

theorem low16_length (n : Nat) (d : List Byte) (h : d.length = 4 * n) : (low16 d).length = 2 * n := by
  induction n generalizing d with
  | zero =>
    have : d = [] := List.length_eq_zero_iff.1 (by omega)
    subst this; rfl
  | succ n ih =>
    match d, h with
    | _ :: _ :: _ :: _ :: rest, h =>
      simp only [List.length_cons] at h
      simp only [low16, List.length_cons, ih rest (by omega)]
      omega
    | [], h => simp at h
    | [_], h => simp at h; omega
    | [_, _], h => simp at h; omega
    | [_, _, _], h => simp at h; omega

theorem sign16_low16 : ∀ d : List Byte, Fits16 d → sign16 (low16 d) = d
  | [], _ => rfl
  | a :: b :: c :: e :: rest, h => by
    obtain ⟨h1, h2, h3⟩ := h
    rw [low16, sign16, sign16_low16 rest h3]
    subst h1; subst h2; rfl
  | [_], h => h.elim
  | [_, _], h => h.elim
  | [_, _, _], h => h.elim

theorem toFile_length (ty : Ty) (n : Nat) (d : List Byte) (h : d.length = ty.mem * n) :
    (toFile ty d).length = ty.ext * n := by
  unfold toFile
  cases ty <;> simp only [Ty.mem, Ty.ext, reduceCtorEq, if_true, if_false] at h ⊢
  all_goals first | exact h | exact low16_length n d h

theorem fromFile_toFile (ty : Ty) (d : List Byte) (h : ty = .int2 → Fits16 d) : fromFile ty (toFile ty d) = d := by
  unfold fromFile toFile
  by_cases c : ty = .int2
  · rw [if_pos c, if_pos c, sign16_low16 d (h c)]
  · rw [if_neg c, if_neg c]

theorem ext_pos (ty : Ty) : 0 < ty.ext := by cases ty <;> decide
theorem mem_pos (ty : Ty) : 0 < ty.mem := by cases ty <;> decide
theorem ext_le_mem (ty : Ty) : ty.ext ≤ ty.mem := by cases ty <;> decide

/-- the writer's and the reader's idea of one variable -/
structure VarOk (spec : Option (List Byte)) (v : WVar) (u u0 : RVar) : Prop where
  name : u.name = v.name
  ty : u.ty = v.ty
  unset : spec = none → v.length = 0 ∧ u = u0
  set : ∀ d : List Byte, spec = some d → u.buf = some d ∧ u.flength = u.length ∧
    (∃ n, 0 < n ∧ d.length = v.ty.mem * n ∧ u.length = v.ty.ext * n) ∧
    (v.length ≠ 0 → v.length = u.length ∧ (v.nocheck = false → v.buf = d))

structure Sync (rv0 : List RVar) (spec : Name → Option (List Byte)) (w : Writer) (rv : List RVar) : Prop where
  vars : ∀ (i : Nat) (v : WVar), w.vars[i]? = some v → ∃ u u0 : RVar, rv[i]? = some u ∧ rv0[i]? = some u0 ∧
    VarOk (spec v.name) v u u0
  rest : ∀ i : Nat, w.vars.length ≤ i → rv[i]? = rv0[i]?
  names : (w.vars.map (·.name)).Nodup
  other : ∀ name, (∀ v ∈ w.vars, v.name ≠ name) → spec name = none
  len : rv.length = rv0.length
  aligned : w.offset % 8 = 0

theorem sync_new (rv0 : List RVar) : Sync rv0 (fun _ => none) newWriter rv0 where
  vars := by intro i v h; simp [newWriter] at h
  rest := fun _ _ => rfl
  names := List.nodup_nil
  other := fun _ _ => rfl
  len := rfl
  aligned := rfl

def rtable (vars : List RVar) : List (Name × Ty) := vars.map (fun u => (u.name, u.ty))

theorem locvar_some {vars : List WVar} {name : Name} {i : Nat} (h : locvar vars name = some i) :
    ∃ v, vars[i]? = some v ∧ v.name = name := by
  unfold locvar at h
  rw [List.findIdx?_eq_some_iff_getElem] at h
  obtain ⟨hi, h1, _⟩ := h
  exact ⟨vars[i], List.getElem?_eq_getElem hi, by simpa using h1⟩

theorem locvar_none {vars : List WVar} {name : Name} (h : locvar vars name = none) :
    ∀ v ∈ vars, v.name ≠ name := by
  unfold locvar at h
  rw [List.findIdx?_eq_none_iff] at h
  intro v hv
  simpa using h v hv

/-- the result of `uv_mkvar` -/
theorem mkvar_ok {rv0 spec w rv name ty w1 i} (h : mkvar w name ty = some (w1, i)) (hs : Sync rv0 spec w rv)
    (hp : table w1 <+: rtable rv0) :
    Sync rv0 spec w1 rv ∧ w1.out = w.out ∧ w1.offset = w.offset ∧ ∃ v, w1.vars[i]? = some v ∧ v.name = name := by
  unfold mkvar at h
  cases hl : locvar w.vars name with
  | some j =>
    rw [hl] at h
    simp only [Option.some.injEq, Prod.mk.injEq] at h
    obtain ⟨rfl, rfl⟩ := h
    exact ⟨hs, rfl, rfl, locvar_some hl⟩
  | none =>
    rw [hl] at h
    simp only at h
    by_cases c1 : MAXNAM < name.length
    · rw [if_pos c1] at h; exact absurd h (by simp)
    rw [if_neg c1] at h
    by_cases c2 : MAXVAR ≤ w.vars.length
    · rw [if_pos c2] at h; exact absurd h (by simp)
    rw [if_neg c2] at h
    simp only [Option.some.injEq, Prod.mk.injEq] at h
    obtain ⟨rfl, rfl⟩ := h
    have hnone := locvar_none hl
    refine ⟨?_, rfl, rfl, ⟨name, ty, 0, [], 0, false⟩, by simp, rfl⟩
    have hnew : ∃ u0, rv0[w.vars.length]? = some u0 ∧ u0.name = name ∧ u0.ty = ty := by
      obtain ⟨suf, hsuf⟩ := hp
      have h1 : (rtable rv0)[w.vars.length]? = some (name, ty) := by
        rw [← hsuf]
        simp [table]
      unfold rtable at h1
      rw [List.getElem?_map] at h1
      cases hu : rv0[w.vars.length]? with
      | none => rw [hu] at h1; simp at h1
      | some u0 =>
        rw [hu] at h1
        simp only [Option.map_some, Option.some.injEq, Prod.mk.injEq] at h1
        exact ⟨u0, rfl, h1.1, h1.2⟩
    refine ⟨?_, ?_, ?_, ?_, hs.len, hs.aligned⟩
    · intro i v hv
      rcases Nat.lt_trichotomy i w.vars.length with hi | hi | hi
      · rw [List.getElem?_append_left hi] at hv
        exact hs.vars i v hv
      · subst hi
        simp only [List.getElem?_concat_length, Option.some.injEq] at hv
        subst hv
        obtain ⟨u0, hu0, hn, ht⟩ := hnew
        refine ⟨u0, u0, (hs.rest _ (Nat.le_refl _)).trans hu0, hu0, hn, ht, fun _ => ⟨rfl, rfl⟩,
          fun d hc => absurd ((hs.other name hnone).symm.trans hc) (by simp)⟩
      · rw [List.getElem?_eq_none (by simp; omega)] at hv
        exact absurd hv (by simp)
    · intro i hi
      simp only [List.length_append, List.length_singleton] at hi
      exact hs.rest i (by omega)
    · rw [List.map_append, List.nodup_append]
      refine ⟨hs.names, by simp, ?_⟩
      intro a ha b hb
      simp only [List.map_cons, List.map_nil, List.mem_singleton] at hb
      obtain ⟨v, hv, rfl⟩ := List.mem_map.1 ha
      rw [hb]
      exact hnone v hv
    · intro nm hnm
      exact hs.other nm (fun v hv => hnm v (List.mem_append_left _ hv))

theorem nodup_name {w : Writer} (h : (w.vars.map (·.name)).Nodup) {i j : Nat} {v v' : WVar} (hi : w.vars[i]? = some v)
    (hj : w.vars[j]? = some v') (hij : i ≠ j) : v.name ≠ v'.name := by
  intro hc
  have h1 : (w.vars.map (·.name))[i]? = some v.name := by rw [List.getElem?_map, hi]; rfl
  have h2 : (w.vars.map (·.name))[j]? = some v.name := by rw [List.getElem?_map, hj, hc]; rfl
  obtain ⟨hi', _⟩ := List.getElem?_eq_some_iff.1 h1
  exact hij ((List.getElem?_inj hi' h).1 (h1.trans h2.symm))

/-- replace one variable on both sides -/
theorem sync_set {rv0 spec w rv} (hs : Sync rv0 spec w rv) {i : Nat} {v v' : WVar} {u' u0 : RVar}
    (hv : w.vars[i]? = some v) (hu0 : rv0[i]? = some u0) (hn : v'.name = v.name) (off : Nat) (hoff : off % 8 = 0)
    (out : List Write)
    {spec' : Name → Option (List Byte)} (hspec : ∀ nm, nm ≠ v.name → spec' nm = spec nm)
    (hok : VarOk (spec' v.name) v' u' u0) :
    Sync rv0 spec' ⟨w.vars.set i v', off, out⟩ (rv.set i u') := by
  have hi : i < w.vars.length := (List.getElem?_eq_some_iff.1 hv).1
  obtain ⟨u, _, hu, _, _⟩ := hs.vars i v hv
  have hi2 : i < rv.length := (List.getElem?_eq_some_iff.1 hu).1
  have hnames : (w.vars.set i v').map (·.name) = w.vars.map (·.name) := by
    rw [List.map_set, hn]
    apply List.ext_getElem?
    intro j
    rw [List.getElem?_set]
    by_cases hj : i = j
    · subst hj
      simp only [if_true, List.length_map, hi, List.getElem?_map, hv, Option.map_some]
    · simp [hj]
  refine ⟨?_, ?_, ?_, ?_, by simp [hs.len], hoff⟩
  · intro j x hx
    by_cases hj : i = j
    · subst hj
      simp only [List.getElem?_set_self hi, Option.some.injEq] at hx
      subst hx
      exact ⟨u', u0, List.getElem?_set_self hi2, hu0, by rw [hn]; exact hok⟩
    · simp only [List.getElem?_set_ne hj] at hx ⊢
      obtain ⟨a, a0, h1, h2, h3⟩ := hs.vars j x hx
      refine ⟨a, a0, h1, h2, ?_⟩
      rw [hspec x.name (nodup_name hs.names hx hv (Ne.symm hj))]
      exact h3
  · intro j hj
    simp only [List.length_set] at hj
    rw [List.getElem?_set_ne (by omega)]
    exact hs.rest j hj
  · exact hnames ▸ hs.names
  · intro nm hnm
    have hmem : ∀ x ∈ w.vars, x.name ≠ nm := by
      intro x hx hc
      have h1 : nm ∈ w.vars.map (·.name) := List.mem_map.2 ⟨x, hx, hc⟩
      rw [← hnames] at h1
      obtain ⟨y, hy, hy2⟩ := List.mem_map.1 h1
      exact hnm y hy hy2
    rw [hspec nm (fun hc => hmem v (List.mem_of_getElem? hv) hc.symm)]
    exact hs.other nm hmem

/-- the specification after an assignment -/
def upd (spec : Name → Option (List Byte)) (name : Name) (d : List Byte) : Name → Option (List Byte) :=
  fun nm => if nm = name then some d else spec nm

theorem upd_self (spec : Name → Option (List Byte)) (name : Name) (d : List Byte) : upd spec name d name = some d := by
  simp [upd]

theorem upd_ne (spec : Name → Option (List Byte)) (name : Name) (d : List Byte) (nm : Name) (h : nm ≠ name) :
    upd spec name d nm = spec nm := by simp [upd, h]

theorem putVar_ok {rv0 spec w rv} {i : Nat} {v : WVar} (hs : Sync rv0 spec w rv) (hv : w.vars[i]? = some v)
    {n : Nat} (hn : 0 < n) {d : List Byte} (hd : d.length = v.ty.mem * n) (hl : d.length < 2 ^ 31)
    (hfit : v.ty = .int2 → Fits16 d) (hi : i < 128) (c : Nat) :
    ∃ ts : List Tok, (∀ t ∈ ts, t.isVar ∧ t.var = i) ∧ (v.nocheck = true → ts ≠ []) ∧ ValidAll c rv ts ∧
      (putVar w i v d n).1.out = w.out ++ layout w.offset ts ∧ (putVar w i v d n).1.offset = finL w.offset ts ∧
      (putVar w i v d n).1.vars = w.vars ∧
      Sync rv0 (upd spec v.name d)
        ⟨w.vars.set i (putVar w i v d n).2, (putVar w i v d n).1.offset, (putVar w i v d n).1.out⟩
        (ts.foldl (actAll c) rv) := by
  obtain ⟨u, u0, hu, hu0, hok⟩ := hs.vars i v hv
  have hir : i < rv.length := (List.getElem?_eq_some_iff.1 hu).1
  have hext := ext_pos v.ty
  have hlen : 0 < v.ty.ext * n := Nat.mul_pos hext hn
  have hlen2 : v.ty.ext * n < 2 ^ 31 := by
    have := Nat.mul_le_mul_right n (ext_le_mem v.ty)
    omega
  have htf := toFile_length v.ty n d hd
  have hback := fromFile_toFile v.ty d hfit
  by_cases hres : v.length ≠ v.ty.ext * n
  · -- a new size
    refine ⟨[.size i (v.ty.ext * n), .data i v.ty (toFile v.ty d)], ?_, fun _ => List.cons_ne_nil _ _, ?_, ?_, ?_, ?_, ?_⟩
    · intro t ht
      simp only [List.mem_cons, List.not_mem_nil, or_false] at ht
      rcases ht with rfl | rfl <;> exact ⟨trivial, rfl⟩
    · refine ⟨⟨hi, u, hu, hlen, hlen2, ?_⟩, ⟨hi, takeSize u c (v.ty.ext * n), ?_, hok.ty, htf.symm⟩, trivial⟩
      · rw [hok.ty]; exact Nat.mul_mod_right _ _
      · simp only [actAll, Tok.var, hu, Tok.act]
        exact List.getElem?_set_self hir
    · simp only [putVar, hres, if_true, true_or, ne_eq, not_false_eq_true, putSize, putData, layout, Tok.writes,
        Tok.fin, List.append_assoc, List.append_nil]
    · simp only [putVar, hres, if_true, true_or, ne_eq, not_false_eq_true, putSize, putData, finL, List.foldl_cons,
        List.foldl_nil, Tok.fin, htf]
    · simp only [putVar, hres, if_true, true_or, ne_eq, not_false_eq_true, putSize, putData]
    · have hal : roundup (w.offset + ALIGN + roundup HDR v.ty.ext + v.ty.ext * n) ALIGN = (putVar w i v d n).1.offset := by
        simp only [putVar, hres, if_true, true_or, ne_eq, not_false_eq_true, putSize, putData]
      have e1 : ([.size i (v.ty.ext * n), .data i v.ty (toFile v.ty d)] : List Tok).foldl (actAll c) rv =
          rv.set i (takeData (takeSize u c (v.ty.ext * n)) c (toFile v.ty d)) := by
        simp only [List.foldl_cons, List.foldl_nil, actAll, Tok.var, hu, Tok.act, List.getElem?_set_self hir,
          List.set_set]
      rw [e1]
      have e2 : (putVar w i v d n).2 = { v with
          length := v.ty.ext * n,
          callno := v.callno + 1,
          nocheck := if THRESH < v.callno then true else v.nocheck,
          buf := if THRESH < v.callno then (if v.nocheck then v.buf else resize (n * v.ty.mem) v.buf)
            else if v.nocheck then (if v.nocheck then v.buf else resize (n * v.ty.mem) v.buf) else d } := by
        simp only [putVar, hres, if_true, true_or, ne_eq, not_false_eq_true, putSize, putData]
      rw [e2]
      refine sync_set hs hv hu0 (by exact rfl) _ (hal ▸ roundup_aligned _) _ (fun nm hnm => upd_ne spec v.name d nm hnm) ?_
      rw [upd_self]
      refine ⟨hok.name, hok.ty, fun h0 => absurd h0 (by simp), fun d' hd' => ?_⟩
      rw [Option.some.injEq] at hd'
      subst hd'
      refine ⟨?_, rfl, ⟨n, hn, hd, rfl⟩, fun _ => ⟨rfl, ?_⟩⟩
      · show (if v.ty.ext * n = 0 then _ else some (fromFile u.ty (toFile v.ty d))) = some d
        rw [if_neg (by omega), hok.ty, hback]
      · intro hnc
        by_cases ct : THRESH < v.callno
        · simp only [ct, if_true] at hnc
          exact absurd hnc (by simp)
        · simp only [ct, if_false] at hnc ⊢
          simp only [hnc, Bool.false_eq_true, if_false]
  · have hres' : v.length = v.ty.ext * n := Classical.not_not.1 hres
    have hsome : ∃ d0, spec v.name = some d0 := by
      cases hc : spec v.name with
      | some d0 => exact ⟨d0, rfl⟩
      | none => exact absurd (hok.unset hc).1 (by omega)
    obtain ⟨d0, hsp⟩ := hsome
    obtain ⟨hub, hfl0, ⟨n0, hn0, hd0, hv0⟩, hrest⟩ := hok.set d0 hsp
    obtain ⟨hll0, hnc⟩ := hrest (by omega)
    have hll : u.length = v.length := hll0.symm
    have hfl : u.flength = v.length := hfl0.trans hll
    by_cases hch : v.nocheck = true ∨ v.buf ≠ d
    · refine ⟨[.data i v.ty (toFile v.ty d)], ?_, fun _ => List.cons_ne_nil _ _, ?_, ?_, ?_, ?_, ?_⟩
      · intro t ht
        simp only [List.mem_cons, List.not_mem_nil, or_false] at ht
        rcases ht with rfl
        exact ⟨trivial, rfl⟩
      · exact ⟨⟨hi, u, hu, hok.ty, by rw [hfl, hres', htf]⟩, trivial⟩
      · simp only [putVar, hres, if_false, false_or, hch, if_true, putData, layout, Tok.writes, List.append_nil]
      · simp only [putVar, hres, if_false, false_or, hch, if_true, putData, finL, List.foldl_cons,
          List.foldl_nil, Tok.fin, htf]
        rw [hres']
      · simp only [putVar, hres, if_false, false_or, hch, if_true, putData]
      · have hal : roundup (w.offset + roundup HDR v.ty.ext + v.length) ALIGN = (putVar w i v d n).1.offset := by
          simp only [putVar, hres, if_false, false_or, hch, if_true, putData]
        have e1 : ([.data i v.ty (toFile v.ty d)] : List Tok).foldl (actAll c) rv =
            rv.set i (takeData u c (toFile v.ty d)) := by
          simp only [List.foldl_cons, List.foldl_nil, actAll, Tok.var, hu, Tok.act]
        rw [e1]
        have e2 : (putVar w i v d n).2 = { v with
            callno := v.callno + 1,
            nocheck := if THRESH < v.callno then true else v.nocheck,
            buf := if THRESH < v.callno then v.buf else if v.nocheck then v.buf else d } := by
          simp only [putVar, hres, if_false, false_or, hch, if_true, putData]
        rw [e2]
        refine sync_set hs hv hu0 (by exact rfl) _ (hal ▸ roundup_aligned _) _ (fun nm hnm => upd_ne spec v.name d nm hnm) ?_
        rw [upd_self]
        refine ⟨hok.name, hok.ty, fun h0 => absurd h0 (by simp), fun d' hd' => ?_⟩
        rw [Option.some.injEq] at hd'
        subst hd'
        refine ⟨?_, hfl0, ⟨n, hn, hd, hll.trans hres'⟩, fun _ => ⟨hll0, ?_⟩⟩
        · show (if u.flength = 0 then _ else some (fromFile u.ty (toFile v.ty d))) = some d
          rw [if_neg (by omega), hok.ty, hback]
        · intro hnc'
          by_cases ct : THRESH < v.callno
          · simp only [ct, if_true] at hnc'
            exact absurd hnc' (by simp)
          · simp only [ct, if_false] at hnc' ⊢
            simp only [hnc', Bool.false_eq_true, if_false]
    · have hnc1 : v.nocheck = false := by
        cases hb : v.nocheck with
        | false => rfl
        | true => exact absurd (Or.inl hb) hch
      have hbuf : v.buf = d := Classical.not_not.1 (fun hb => hch (Or.inr hb))
      have hdd : d0 = d := (hnc hnc1).symm.trans hbuf
      refine ⟨[], by simp, fun hc => absurd (hnc1.symm.trans hc) (by simp), trivial, ?_, ?_, ?_, ?_⟩
      · simp only [putVar, hres, if_false, false_or, hch, layout, List.append_nil]
      · simp only [putVar, hres, if_false, false_or, hch, finL, List.foldl_nil]
      · simp only [putVar, hres, if_false, false_or, hch]
      · have hal : w.offset = (putVar w i v d n).1.offset := by
          simp only [putVar, hres, if_false, false_or, hch]
        have e1 : ([] : List Tok).foldl (actAll c) rv = rv.set i u := by
          rw [List.foldl_nil]
          apply List.ext_getElem?
          intro j
          rw [List.getElem?_set]
          by_cases hj : i = j
          · subst hj; simp only [if_true, hir, hu]
          · simp [hj]
        rw [e1]
        have e2 : (putVar w i v d n).2 = { v with callno := 0 } := by
          simp only [putVar, hres, if_false, false_or, hch]
        rw [e2]
        refine sync_set hs hv hu0 (by exact rfl) _ (hal ▸ hs.aligned) _ (fun nm hnm => upd_ne spec v.name d nm hnm) ?_
        rw [upd_self]
        refine ⟨hok.name, hok.ty, fun h0 => absurd h0 (by simp), fun d' hd' => ?_⟩
        rw [Option.some.injEq] at hd'
        subst hd'
        exact ⟨by rw [hub, hdd], hfl0, ⟨n, hn, hd, hll.trans hres'⟩, fun _ => ⟨hll0, fun _ => hbuf⟩⟩

/-! ## The table of variables only grows -/

theorem table_set {w : Writer} {i : Nat} {v v' : WVar} (hv : w.vars[i]? = some v) (hn : v'.name = v.name)
    (ht : v'.ty = v.ty) : (w.vars.set i v').map (fun x => (x.name, x.ty)) = w.vars.map (fun x => (x.name, x.ty)) := by
  rw [List.map_set, hn, ht]
  apply List.ext_getElem?
  intro j
  rw [List.getElem?_set]
  have hi : i < w.vars.length := (List.getElem?_eq_some_iff.1 hv).1
  by_cases hj : i = j
  · subst hj
    simp only [if_true, List.length_map, hi, List.getElem?_map, hv, Option.map_some]
  · simp [hj]

theorem mkvar_table {w w1 : Writer} {name : Name} {ty : Ty} {i : Nat} (h : mkvar w name ty = some (w1, i)) :
    table w <+: table w1 := by
  unfold mkvar at h
  cases hl : locvar w.vars name with
  | some j =>
    rw [hl] at h
    simp only [Option.some.injEq, Prod.mk.injEq] at h
    rw [h.1]
    exact List.prefix_rfl
  | none =>
    rw [hl] at h
    simp only at h
    by_cases c1 : MAXNAM < name.length
    · rw [if_pos c1] at h; exact absurd h (by simp)
    rw [if_neg c1] at h
    by_cases c2 : MAXVAR ≤ w.vars.length
    · rw [if_pos c2] at h; exact absurd h (by simp)
    rw [if_neg c2] at h
    simp only [Option.some.injEq, Prod.mk.injEq] at h
    obtain ⟨rfl, rfl⟩ := h
    unfold table
    rw [List.map_append]
    exact List.prefix_append _ _

theorem putVar_frame (w : Writer) (i : Nat) (v : WVar) (d : List Byte) (n : Nat) :
    (putVar w i v d n).1.vars = w.vars ∧ (putVar w i v d n).2.name = v.name ∧ (putVar w i v d n).2.ty = v.ty := by
  by_cases h1 : v.length ≠ v.ty.ext * n
  · simp only [putVar, h1, if_true, true_or, ne_eq, not_false_eq_true, putSize, putData, and_self]
  · by_cases h2 : v.nocheck = true ∨ v.buf ≠ d
    · simp only [putVar, h1, if_false, false_or, h2, if_true, putData, and_self]
    · simp only [putVar, h1, if_false, false_or, h2, and_self]

/-- what a successful `uvputvr_c` did -/
theorem put_some {w w' : Writer} {name : Name} {ty : Ty} {d : List Byte} (h : put w name ty d = some w')
    (hn : d.length / ty.mem ≠ 0) : ∃ w1 i v, mkvar w name ty = some (w1, i) ∧ w1.vars[i]? = some v ∧ v.ty = ty ∧
      w' = ⟨w1.vars.set i (putVar w1 i v d (d.length / ty.mem)).2, (putVar w1 i v d (d.length / ty.mem)).1.offset,
        (putVar w1 i v d (d.length / ty.mem)).1.out⟩ := by
  unfold put at h
  simp only [if_neg hn] at h
  cases hm : mkvar w name ty with
  | none => rw [hm] at h; simp at h
  | some p =>
    obtain ⟨w1, i⟩ := p
    rw [hm] at h
    simp only at h
    cases hv : w1.vars[i]? with
    | none => rw [hv] at h; simp at h
    | some v =>
      rw [hv] at h
      simp only at h
      by_cases hty : v.ty ≠ ty
      · rw [if_pos hty] at h; simp at h
      · rw [if_neg hty] at h
        simp only [Option.some.injEq] at h
        refine ⟨w1, i, v, rfl, hv, Classical.not_not.1 hty, ?_⟩
        rw [← h, (putVar_frame w1 i v d _).1]

theorem noCheck_some {w w' : Writer} {name : Name} {ty : Ty} (h : noCheck w name ty = some w') :
    ∃ w1 i v, mkvar w name ty = some (w1, i) ∧ w1.vars[i]? = some v ∧
      w' = ⟨w1.vars.set i { v with nocheck := true }, w1.offset, w1.out⟩ := by
  unfold noCheck at h
  cases hm : mkvar w name ty with
  | none => rw [hm] at h; simp at h
  | some p =>
    obtain ⟨w1, i⟩ := p
    rw [hm] at h
    simp only at h
    cases hv : w1.vars[i]? with
    | none => rw [hv] at h; simp at h
    | some v =>
      rw [hv] at h
      simp only [Option.some.injEq] at h
      exact ⟨w1, i, v, rfl, hv, h.symm⟩

theorem wstep_table {w w' : Writer} {e : Ev} (h : wstep w e = some w') : table w <+: table w' := by
  cases e with
  | next =>
    simp only [wstep, Option.some.injEq] at h
    subst h
    exact List.prefix_rfl
  | reopen =>
    simp only [wstep, Option.some.injEq] at h
    subst h
    unfold table
    simp only [reopen, List.map_map, Function.comp_def]
    exact List.prefix_rfl
  | noCheck name ty =>
    obtain ⟨w1, i, v, hm, hv, rfl⟩ := noCheck_some h
    have e := table_set (v' := { v with nocheck := true }) hv rfl rfl
    exact (mkvar_table hm).trans (by unfold table; rw [e]; exact List.prefix_rfl)
  | put name ty d =>
    by_cases hn : d.length / ty.mem = 0
    · simp only [wstep, put, if_pos hn, Option.some.injEq] at h
      subst h
      exact List.prefix_rfl
    · obtain ⟨w1, i, v, hm, hv, hty, rfl⟩ := put_some h hn
      have e := table_set hv (putVar_frame w1 i v d (d.length / ty.mem)).2.1
        (putVar_frame w1 i v d (d.length / ty.mem)).2.2
      exact (mkvar_table hm).trans (by unfold table; rw [e]; exact List.prefix_rfl)

theorem wrun_table {w w' : Writer} {h : List Ev} (hr : wrun w h = some w') : table w <+: table w' := by
  induction h generalizing w with
  | nil =>
    simp only [wrun, Option.some.injEq] at hr
    subst hr
    exact List.prefix_rfl
  | cons e es ih =>
    simp only [wrun] at hr
    cases hs : wstep w e with
    | none => rw [hs] at hr; simp at hr
    | some w1 =>
      rw [hs] at hr
      exact (wstep_table hs).trans (ih hr)

theorem wrun_append (w : Writer) (a b : List Ev) : wrun w (a ++ b) = (wrun w a).bind (fun w' => wrun w' b) := by
  induction a generalizing w with
  | nil => rfl
  | cons e es ih =>
    simp only [List.cons_append, wrun]
    cases wstep w e with
    | none => rfl
    | some w1 => exact ih w1

/-! ## Blocks and histories -/

/-- the records of a step are about a variable that was assigned in it -/
def Caused (rv0 : List RVar) (b : List Ev) (ts : List Tok) : Prop :=
  ∀ t ∈ ts, t.isVar ∧ ∃ u0 : RVar, rv0[t.var]? = some u0 ∧ ∃ ty d, Ev.put u0.name ty d ∈ b ∧ d ≠ []

/-- a variable that is not checked for changes gets a record with every assignment -/
def Touched (rv0 : List RVar) (w : Writer) (b : List Ev) (ts : List Tok) : Prop :=
  ∀ (b1 : List Ev) (name : Name) (ty : Ty) (d : List Byte) (b2 : List Ev) (w1 : Writer), b = b1 ++ .put name ty d :: b2 →
    d ≠ [] → wrun w b1 = some w1 → (∃ v ∈ w1.vars, v.name = name ∧ v.nocheck = true) →
    ∃ t ∈ ts, ∃ u0 : RVar, rv0[t.var]? = some u0 ∧ u0.name = name

theorem mkvar_keeps {w w1 : Writer} {name : Name} {ty : Ty} {i : Nat} (h : mkvar w name ty = some (w1, i)) :
    ∀ (j : Nat) (v : WVar), w.vars[j]? = some v → w1.vars[j]? = some v := by
  intro j v hj
  unfold mkvar at h
  cases hl : locvar w.vars name with
  | some k =>
    rw [hl] at h
    simp only [Option.some.injEq, Prod.mk.injEq] at h
    rw [← h.1]
    exact hj
  | none =>
    rw [hl] at h
    simp only at h
    by_cases c1 : MAXNAM < name.length
    · rw [if_pos c1] at h; exact absurd h (by simp)
    rw [if_neg c1] at h
    by_cases c2 : MAXVAR ≤ w.vars.length
    · rw [if_pos c2] at h; exact absurd h (by simp)
    rw [if_neg c2] at h
    simp only [Option.some.injEq, Prod.mk.injEq] at h
    obtain ⟨rfl, rfl⟩ := h
    show (w.vars ++ _)[j]? = _
    rw [List.getElem?_append_left (List.getElem?_eq_some_iff.1 hj).1]
    exact hj

theorem roundup_same {a : Nat} (h : a % 8 = 0) : roundup a ALIGN = a := by
  have := roundup8 a
  omega

/-- the values are gone from the writer, not from the file -/
theorem sync_reopen {rv0 spec w rv} (hs : Sync rv0 spec w rv) : Sync rv0 spec (reopen w) rv := by
  refine ⟨?_, ?_, ?_, ?_, hs.len, roundup_aligned _⟩
  · intro i v hv
    simp only [reopen, List.getElem?_map] at hv
    cases hx : w.vars[i]? with
    | none => rw [hx] at hv; simp at hv
    | some x =>
      rw [hx] at hv
      simp only [Option.map_some, Option.some.injEq] at hv
      subst hv
      obtain ⟨u, u0, h1, h2, h3⟩ := hs.vars i x hx
      refine ⟨u, u0, h1, h2, h3.name, h3.ty, fun hn => ⟨rfl, (h3.unset hn).2⟩, fun d hd => ?_⟩
      obtain ⟨a, b, c, _⟩ := h3.set d hd
      exact ⟨a, b, c, fun hc => absurd rfl hc⟩
  · intro i hi
    simp only [reopen, List.length_map] at hi
    exact hs.rest i hi
  · simpa [reopen, List.map_map, Function.comp_def] using hs.names
  · intro nm hnm
    refine hs.other nm (fun v hv hc => hnm ⟨v.name, v.ty, 0, [], 0, false⟩ ?_ hc)
    exact List.mem_map.2 ⟨v, hv, rfl⟩

theorem step_ok {rv0 spec w rv w'} (hs : Sync rv0 spec w rv) {e : Ev} (he : e ≠ .next) (hok : EvOk e)
    (hr : wstep w e = some w') (hp : table w' <+: rtable rv0) (h128 : rv0.length ≤ 128) (c : Nat) :
    ∃ ts : List Tok, Caused rv0 [e] ts ∧ ValidAll c rv ts ∧ w'.out = w.out ++ layout w.offset ts ∧
      w'.offset = finL w.offset ts ∧
      Sync rv0 (fun nm => assign nm (spec nm) e) w' (ts.foldl (actAll c) rv) ∧
      ∀ name ty d, e = .put name ty d → d ≠ [] → (∃ v ∈ w.vars, v.name = name ∧ v.nocheck = true) →
        ∃ t ∈ ts, ∃ u0 : RVar, rv0[t.var]? = some u0 ∧ u0.name = name := by
  cases e with
  | next => exact absurd rfl he
  | noCheck name ty =>
    obtain ⟨w1, i, v, hm, hv, rfl⟩ := noCheck_some hr
    have e := table_set (v' := { v with nocheck := true }) hv rfl rfl
    have hp1 : table w1 <+: rtable rv0 := by
      unfold table at hp ⊢
      rw [e] at hp
      exact hp
    obtain ⟨hs1, ho, hf, _⟩ := mkvar_ok hm hs hp1
    obtain ⟨u, u0, hu, hu0, hvo⟩ := hs1.vars i v hv
    refine ⟨[], fun t ht => absurd ht (by simp), trivial, by simpa [layout] using ho, by simpa [finL] using hf, ?_,
      fun _ _ _ hc => absurd hc (by simp)⟩
    have hset : rv = rv.set i u := by
      apply List.ext_getElem?
      intro j
      rw [List.getElem?_set]
      by_cases hj : i = j
      · subst hj; simp only [if_true, (List.getElem?_eq_some_iff.1 hu).1, hu]
      · simp [hj]
    rw [List.foldl_nil, hset]
    refine sync_set hs1 hv hu0 (by exact rfl) _ hs1.aligned _ (fun nm _ => rfl) ?_
    refine ⟨hvo.name, hvo.ty, hvo.unset, fun d hd => ?_⟩
    obtain ⟨h1, h2, h3, h4⟩ := hvo.set d hd
    exact ⟨h1, h2, h3, fun hne => ⟨(h4 hne).1, fun hf => absurd (show true = false from hf) (by simp)⟩⟩
  | reopen =>
    simp only [wstep, Option.some.injEq] at hr
    subst hr
    refine ⟨[], fun t ht => absurd ht (by simp), trivial, by simp [layout, reopen], ?_, sync_reopen hs,
      fun _ _ _ hc => absurd hc (by simp)⟩
    exact roundup_same hs.aligned
  | put name ty d =>
    obtain ⟨hd1, hd2, hfit⟩ := hok
    by_cases hn : d.length / ty.mem = 0
    · have hd0 : d = [] := by
        apply List.length_eq_zero_iff.1
        have := Nat.div_add_mod d.length ty.mem
        rw [hn, hd1] at this
        omega
      simp only [wstep, put, if_pos hn, Option.some.injEq] at hr
      subst hr
      refine ⟨[], fun t ht => absurd ht (by simp), trivial, by simp [layout], by simp [finL], ?_, ?_⟩
      rotate_left
      · intro nm ty' d' he hd' _
        simp only [Ev.put.injEq] at he
        exact absurd (he.2.2.symm.trans hd0) hd'
      have hsp : (fun nm => assign nm (spec nm) (.put name ty d)) = spec := by
        funext nm
        simp [assign, hd0]
      rw [hsp]
      exact hs
    · obtain ⟨w1, i, v, hm, hv, hty, rfl⟩ := put_some hr hn
      have e := table_set hv (putVar_frame w1 i v d (d.length / ty.mem)).2.1
        (putVar_frame w1 i v d (d.length / ty.mem)).2.2
      have hp1 : table w1 <+: rtable rv0 := by
        unfold table at hp ⊢
        rw [e] at hp
        exact hp
      obtain ⟨hs1, ho, hf, v1, hv1, hname⟩ := mkvar_ok hm hs hp1
      rw [hv] at hv1
      simp only [Option.some.injEq] at hv1
      subst hv1
      have hd : d.length = v.ty.mem * (d.length / ty.mem) := by
        rw [hty]
        have := Nat.div_add_mod d.length ty.mem
        omega
      have hi : i < 128 := by
        have h1 := (List.getElem?_eq_some_iff.1 hv).1
        have h2 := hp1.length_le
        simp only [table, rtable, List.length_map] at h2
        omega
      obtain ⟨ts, h1, hnce, h2, h3, h4, h5, h6⟩ := putVar_ok hs1 hv (Nat.pos_of_ne_zero hn) hd hd2
        (fun hh => hfit (hty ▸ hh)) hi c
      obtain ⟨u, u0, hu, hu0, hvo⟩ := hs1.vars i v hv
      have hdne : d ≠ [] := by
        intro hc
        subst hc
        exact hn (by simp)
      have hu0n : u0.name = v.name := by
        have : (rtable rv0)[i]? = some (v.name, v.ty) := by
          obtain ⟨suf, hsuf⟩ := hp1
          rw [← hsuf, List.getElem?_append_left (by simp [table, (List.getElem?_eq_some_iff.1 hv).1])]
          simp [table, hv]
        unfold rtable at this
        rw [List.getElem?_map, hu0] at this
        simp only [Option.map_some, Option.some.injEq, Prod.mk.injEq] at this
        exact this.1
      refine ⟨ts, ?_, h2, ?_, ?_, ?_, ?_⟩
      rotate_right
      · intro nm ty' d' he hd' ⟨v', hv', hn', hc'⟩
        simp only [Ev.put.injEq] at he
        obtain ⟨rfl, rfl, rfl⟩ := he
        obtain ⟨j, hj⟩ := List.getElem?_of_mem hv'
        have hj1 := mkvar_keeps hm j v' hj
        have hij : j = i := Classical.byContradiction fun hc =>
          nodup_name hs1.names hj1 hv hc (hn'.trans hname.symm)
        subst hij
        rw [hv, Option.some.injEq] at hj1
        subst hj1
        obtain ⟨t, ht⟩ := List.exists_mem_of_ne_nil ts (hnce hc')
        exact ⟨t, ht, u0, by rw [(h1 t ht).2]; exact hu0, hu0n.trans hname⟩
      · intro t ht
        refine ⟨(h1 t ht).1, u0, ?_, ty, d, ?_, hdne⟩
        · rw [(h1 t ht).2]; exact hu0
        · rw [hu0n, hname]; exact List.mem_singleton.2 rfl
      · rw [← ho, ← hf]; exact h3
      · rw [← hf]; exact h4
      · have hsp : (fun nm => assign nm (spec nm) (.put name ty d)) = upd spec v.name d := by
          funext nm
          simp only [assign, upd, hname]
          by_cases hc : name = nm
          · rw [if_pos ⟨hc, hdne⟩, if_pos hc.symm]
          · rw [if_neg (fun hh => hc hh.1), if_neg (fun hh => hc hh.symm)]
        rw [hsp]
        exact h6

theorem block_ok {rv0 spec w rv w'} (hs : Sync rv0 spec w rv) {b : List Ev} (hb : ∀ e ∈ b, e ≠ .next) (hok : HistOk b)
    (hr : wrun w b = some w') (hp : table w' <+: rtable rv0) (h128 : rv0.length ≤ 128) (c : Nat) :
    ∃ ts : List Tok, Caused rv0 b ts ∧ ValidAll c rv ts ∧ w'.out = w.out ++ layout w.offset ts ∧
      w'.offset = finL w.offset ts ∧
      Sync rv0 (fun nm => b.foldl (assign nm) (spec nm)) w' (ts.foldl (actAll c) rv) ∧ Touched rv0 w b ts := by
  induction b generalizing spec w rv with
  | nil =>
    simp only [wrun, Option.some.injEq] at hr
    subst hr
    exact ⟨[], fun t ht => absurd ht (by simp), trivial, by simp [layout], by simp [finL], hs,
      fun b1 _ _ _ _ _ hc => absurd hc (by simp)⟩
  | cons e es ih =>
    simp only [wrun] at hr
    cases h1 : wstep w e with
    | none => rw [h1] at hr; simp at hr
    | some w1 =>
      rw [h1] at hr
      obtain ⟨ts1, a1, a2, a3, a4, a5, a6⟩ := step_ok hs (hb e List.mem_cons_self) (hok e List.mem_cons_self) h1
        ((wrun_table hr).trans hp) h128 c
      obtain ⟨ts2, b1, b2, b3, b4, b5, b6⟩ := ih a5 (fun e' he' => hb e' (List.mem_cons_of_mem _ he'))
        (fun e' he' => hok e' (List.mem_cons_of_mem _ he')) hr
      refine ⟨ts1 ++ ts2, ?_, ?_, ?_, ?_, ?_, ?_⟩
      · intro t ht
        rcases List.mem_append.1 ht with ht | ht
        · obtain ⟨x1, u0, x2, ty, d, x3, x4⟩ := a1 t ht
          exact ⟨x1, u0, x2, ty, d, by rw [List.mem_singleton.1 x3]; exact List.mem_cons_self, x4⟩
        · obtain ⟨x1, u0, x2, ty, d, x3, x4⟩ := b1 t ht
          exact ⟨x1, u0, x2, ty, d, List.mem_cons_of_mem _ x3, x4⟩
      · exact (validAll_append _ _ _ _).2 ⟨a2, b2⟩
      · rw [b3, a3, a4, layout_append, List.append_assoc]
      · rw [b4, a4, finL_append]
      · rw [List.foldl_append]; exact b5
      · intro c1 name ty d c2 w2 hsp hd hw2 hnc
        cases c1 with
        | nil =>
          simp only [List.nil_append, List.cons.injEq] at hsp
          simp only [wrun, Option.some.injEq] at hw2
          subst hw2
          obtain ⟨t, ht, hx⟩ := a6 name ty d hsp.1 hd hnc
          exact ⟨t, List.mem_append_left _ ht, hx⟩
        | cons e' c1 =>
          simp only [List.cons_append, List.cons.injEq] at hsp
          obtain ⟨rfl, hsp⟩ := hsp
          simp only [wrun, h1, Option.bind_some] at hw2
          obtain ⟨t, ht, hx⟩ := b6 c1 name ty d c2 w2 hsp hd hw2 hnc
          exact ⟨t, List.mem_append_right _ ht, hx⟩

/-- a history with a record begins with a block and the end of the record -/
theorem split_next {h : List Ev} (hn : records h ≠ 0) : ∃ b h', h = b ++ .next :: h' ∧ (∀ e ∈ b, e ≠ .next) ∧
    records h = records h' + 1 ∧ ∀ n, upTo (n + 1) h = b ++ .next :: upTo n h' := by
  induction h with
  | nil => exact absurd rfl hn
  | cons e es ih =>
    cases e with
    | next => exact ⟨[], es, rfl, by simp, rfl, fun n => rfl⟩
    | put name ty d =>
      obtain ⟨b, h', h1, h2, h3, h4⟩ := ih hn
      refine ⟨.put name ty d :: b, h', by rw [h1]; rfl, ?_, h3, fun n => ?_⟩
      · intro e he
        rcases List.mem_cons.1 he with rfl | he
        · simp
        · exact h2 e he
      · rw [List.cons_append, ← h4 n]; rfl
    | reopen =>
      obtain ⟨b, h', h1, h2, h3, h4⟩ := ih hn
      refine ⟨.reopen :: b, h', by rw [h1]; rfl, ?_, h3, fun n => ?_⟩
      · intro e he
        rcases List.mem_cons.1 he with rfl | he
        · simp
        · exact h2 e he
      · rw [List.cons_append, ← h4 n]; rfl
    | noCheck name ty =>
      obtain ⟨b, h', h1, h2, h3, h4⟩ := ih hn
      refine ⟨.noCheck name ty :: b, h', by rw [h1]; rfl, ?_, h3, fun n => ?_⟩
      · intro e he
        rcases List.mem_cons.1 he with rfl | he
        · simp
        · exact h2 e he
      · rw [List.cons_append, ← h4 n]; rfl

theorem sync_next {rv0 spec w rv} (hs : Sync rv0 spec w rv) : Sync rv0 spec (next w) rv :=
  ⟨hs.vars, hs.rest, hs.names, hs.other, hs.len, by
    show (w.offset + 8) % 8 = 0
    have := hs.aligned
    omega⟩

/-- writes are only added -/
theorem wrun_out {w w' : Writer} {h : List Ev} (hr : wrun w h = some w') :
    ∃ ws, w'.out = w.out ++ ws := by
  induction h generalizing w with
  | nil =>
    simp only [wrun, Option.some.injEq] at hr
    subst hr
    exact ⟨[], by simp⟩
  | cons e es ih =>
    simp only [wrun] at hr
    cases h1 : wstep w e with
    | none => rw [h1] at hr; simp at hr
    | some w1 =>
      rw [h1] at hr
      obtain ⟨ws2, hws2⟩ := ih hr
      have : ∃ ws1, w1.out = w.out ++ ws1 := by
        have hmk : ∀ {w w1 : Writer} {name ty i}, mkvar w name ty = some (w1, i) → w1.out = w.out := by
          intro w w1 name ty i h
          unfold mkvar at h
          cases hl : locvar w.vars name with
          | some j => rw [hl] at h; simp only [Option.some.injEq, Prod.mk.injEq] at h; rw [h.1]
          | none =>
            rw [hl] at h
            simp only at h
            by_cases c1 : MAXNAM < name.length
            · rw [if_pos c1] at h; exact absurd h (by simp)
            rw [if_neg c1] at h
            by_cases c2 : MAXVAR ≤ w.vars.length
            · rw [if_pos c2] at h; exact absurd h (by simp)
            rw [if_neg c2] at h
            simp only [Option.some.injEq, Prod.mk.injEq] at h
            rw [← h.1]
        cases e with
        | next =>
          simp only [wstep, Option.some.injEq] at h1
          subst h1
          exact ⟨_, rfl⟩
        | reopen =>
          simp only [wstep, Option.some.injEq] at h1
          subst h1
          exact ⟨[], by simp [reopen]⟩
        | noCheck name ty =>
          obtain ⟨w2, i, v, hm, hv, rfl⟩ := noCheck_some h1
          exact ⟨[], by simp [hmk hm]⟩
        | put name ty d =>
          by_cases hn : d.length / ty.mem = 0
          · simp only [wstep, put, if_pos hn, Option.some.injEq] at h1
            subst h1
            exact ⟨[], by simp⟩
          · obtain ⟨w2, i, v, hm, hv, hty, rfl⟩ := put_some h1 hn
            rw [← hmk hm]
            by_cases k1 : v.length ≠ v.ty.ext * (d.length / ty.mem)
            · simp only [putVar, k1, if_true, true_or, ne_eq, not_false_eq_true, putSize, putData, List.append_assoc]
              exact ⟨_, rfl⟩
            · by_cases k2 : v.nocheck = true ∨ v.buf ≠ d
              · simp only [putVar, k1, if_false, false_or, k2, if_true, putData]
                exact ⟨_, rfl⟩
              · simp only [putVar, k1, if_false, false_or, k2]
                exact ⟨[], by simp⟩
      obtain ⟨ws1, hws1⟩ := this
      exact ⟨ws1 ++ ws2, by rw [hws2, hws1, List.append_assoc]⟩

theorem mkvar_offset {w w1 : Writer} {name : Name} {ty : Ty} {i : Nat} (h : mkvar w name ty = some (w1, i)) :
    w1.offset = w.offset := by
  unfold mkvar at h
  cases hl : locvar w.vars name with
  | some j => rw [hl] at h; simp only [Option.some.injEq, Prod.mk.injEq] at h; rw [h.1]
  | none =>
    rw [hl] at h
    simp only at h
    by_cases c1 : MAXNAM < name.length
    · rw [if_pos c1] at h; exact absurd h (by simp)
    rw [if_neg c1] at h
    by_cases c2 : MAXVAR ≤ w.vars.length
    · rw [if_pos c2] at h; exact absurd h (by simp)
    rw [if_neg c2] at h
    simp only [Option.some.injEq, Prod.mk.injEq] at h
    rw [← h.1]

theorem wrun_offset {w w' : Writer} {h : List Ev} (hr : wrun w h = some w') : w.offset ≤ w'.offset := by
  induction h generalizing w with
  | nil =>
    simp only [wrun, Option.some.injEq] at hr
    subst hr
    exact Nat.le_refl _
  | cons e es ih =>
    simp only [wrun] at hr
    cases h1 : wstep w e with
    | none => rw [h1] at hr; simp at hr
    | some w1 =>
      rw [h1] at hr
      refine Nat.le_trans ?_ (ih hr)
      cases e with
      | next =>
        simp only [wstep, Option.some.injEq] at h1
        subst h1
        exact Nat.le_add_right _ _
      | reopen =>
        simp only [wstep, Option.some.injEq] at h1
        subst h1
        exact (roundup8 w.offset).1
      | noCheck name ty =>
        obtain ⟨w2, i, v, hm, hv, rfl⟩ := noCheck_some h1
        exact Nat.le_of_eq (mkvar_offset hm).symm
      | put name ty d =>
        by_cases hn : d.length / ty.mem = 0
        · simp only [wstep, put, if_pos hn, Option.some.injEq] at h1
          subst h1
          exact Nat.le_refl _
        · obtain ⟨w2, i, v, hm, hv, hty, rfl⟩ := put_some h1 hn
          rw [← mkvar_offset hm]
          by_cases k1 : v.length ≠ v.ty.ext * (d.length / ty.mem)
          · simp only [putVar, k1, if_true, true_or, ne_eq, not_false_eq_true, putSize, putData]
            have := (roundup8 (w2.offset + ALIGN + roundup HDR v.ty.ext + v.ty.ext * (d.length / ty.mem))).1
            omega
          · by_cases k2 : v.nocheck = true ∨ v.buf ≠ d
            · simp only [putVar, k1, if_false, false_or, k2, if_true, putData]
              have := (roundup8 (w2.offset + roundup HDR v.ty.ext + v.length)).1
              omega
            · simp only [putVar, k1, if_false, false_or, k2]
              exact Nat.le_refl _

theorem rnext_ok {rv0 spec w w'} {r : Reader} {b h' : List Ev} {f : Nat → Byte} {size : Nat}
    (hs : Sync rv0 spec w r.vars) (ho : r.offset = w.offset) (hb : ∀ e ∈ b, e ≠ .next)
    (hok : HistOk b) (hr : wrun w (b ++ .next :: h') = some w') (hp : table w' <+: rtable rv0)
    (h128 : rv0.length ≤ 128) (hf : Holds f size w'.out) (hm : w'.offset ≤ r.maxOffset) :
    ∃ (r' : Reader) (ts : List Tok) (w1 : Writer), rnext f size r = .ok r' ∧ wrun w1 h' = some w' ∧
      Sync rv0 (fun nm => b.foldl (assign nm) (spec nm)) w1 r'.vars ∧ r'.offset = w1.offset ∧
      r'.maxOffset = r.maxOffset ∧ r'.callno = r.callno + 1 ∧ r'.mark = r.callno + 1 ∧
      r'.copy = copyL (r.callno + 1) r.vars false ts ∧
      Caused rv0 b ts ∧ r'.vars = ts.foldl (actAll (r.callno + 1)) r.vars ∧ Touched rv0 w b ts ∧
      wrun w (b ++ [.next]) = some w1 := by
  rw [wrun_append] at hr
  cases hw : wrun w b with
  | none => rw [hw] at hr; simp at hr
  | some w0 =>
    rw [hw] at hr
    simp only [Option.bind_some, wrun, wstep] at hr
    have hp0 : table w0 <+: rtable rv0 :=
      (show table w0 <+: table w' from (wrun_table hr : table (next w0) <+: table w')).trans hp
    obtain ⟨ts, h1, h2, h3, h4, h5, h6⟩ := block_ok hs hb hok hw hp0 h128 (r.callno + 1)
    obtain ⟨ws, hws⟩ := wrun_out hr
    have hout : (next w0).out = w.out ++ layout w.offset (ts ++ [.eor]) := by
      simp only [next]
      rw [h3, layout_append, ← h4]
      simp [layout, Tok.writes]
    have hfin : (next w0).offset = finL w.offset (ts ++ [.eor]) := by
      rw [finL_append, ← h4]
      rfl
    have hfb : Holds f size (layout r.offset (ts ++ [.eor])) := by
      rw [hws, hout] at hf
      rw [ho]
      exact (Holds.append.1 (Holds.append.1 hf).1).2
    have hmx : finL r.offset (ts ++ [.eor]) ≤ r.maxOffset := by
      rw [ho, ← hfin]
      exact Nat.le_trans (wrun_offset hr) hm
    have hlen : ts.length < r.maxOffset - r.offset + 1 := by
      have := finL_ge r.offset (ts ++ [.eor])
      simp only [List.length_append, List.length_singleton] at this
      omega
    have hscan := scanLoop_block f size { r with mark := r.callno + 1, copy := false } (r.callno + 1) ts
      (r.maxOffset - r.offset + 1) ⟨r.vars, r.offset, false⟩ (fun t ht => (h1 t ht).1) h2 hfb hmx hlen
    refine ⟨_, ts, next w0, hscan, hr, sync_next h5, ?_, rfl, rfl, rfl, rfl, h1, rfl, h6, by rw [wrun_append, hw]; rfl⟩
    show finL r.offset (ts ++ [.eor]) = (next w0).offset
    rw [ho, hfin]

theorem readN_ok {rv0 : List RVar} {f : Nat → Byte} {size : Nat} {w' : Writer} (hp : table w' <+: rtable rv0)
    (h128 : rv0.length ≤ 128) (hf : Holds f size w'.out) (n : Nat) :
    ∀ (h : List Ev) (spec : Name → Option (List Byte)) (w : Writer) (r : Reader), Sync rv0 spec w r.vars →
      r.offset = w.offset → HistOk h → wrun w h = some w' → w'.offset ≤ r.maxOffset → n ≤ records h →
      ∃ (r' : Reader) (w1 : Writer) (h' : List Ev), readN f size n r = some r' ∧ h = upTo n h ++ h' ∧
        records h = n + records h' ∧ wrun w1 h' = some w' ∧
        Sync rv0 (fun nm => (upTo n h).foldl (assign nm) (spec nm)) w1 r'.vars ∧ r'.offset = w1.offset ∧
        r'.maxOffset = r.maxOffset ∧ r'.callno = r.callno + n ∧ wrun w (upTo n h) = some w1 := by
  induction n with
  | zero =>
    intro h spec w r hs ho hok hr hm hn
    have h0 : upTo 0 h = [] := by cases h <;> rfl
    rw [h0]
    exact ⟨r, w, h, rfl, rfl, by omega, hr, hs, ho, rfl, rfl, rfl⟩
  | succ n ih =>
    intro h spec w r hs ho hok hr hm hn
    obtain ⟨b, h', rfl, hb, hrec, hup⟩ := split_next (h := h) (by omega)
    obtain ⟨r1, ts, w1, a1, a2, a3, a4, a5, a6, a7, _, _, _, _, a8⟩ := rnext_ok hs ho hb
      (fun e he => hok e (List.mem_append_left _ he)) hr hp h128 hf hm
    obtain ⟨r2, w2, h2, b1, b2, b3, b4, b5, b6, b7, b8, b9⟩ := ih h' _ w1 r1 a3 a4
      (fun e he => hok e (List.mem_append_right _ (List.mem_cons_of_mem _ he))) a2 (by omega) (by omega)
    refine ⟨r2, w2, h2, ?_, ?_, by omega, b4, ?_, b6, by omega, by omega, ?_⟩
    rotate_right
    · rw [hup n, show b ++ Ev.next :: upTo n h' = (b ++ [.next]) ++ upTo n h' by simp, wrun_append, a8]
      exact b9
    · simp only [readN, a1, b1]
    · rw [hup n, List.append_assoc, List.cons_append, ← b2]
    · rw [hup n]
      have e : (fun nm => (b ++ Ev.next :: upTo n h').foldl (assign nm) (spec nm)) =
          (fun nm => (upTo n h').foldl (assign nm) (b.foldl (assign nm) (spec nm))) := by
        funext nm
        rw [List.foldl_append]
        rfl
      rw [e]
      exact b5

/-- what `uvgetvr_c` gives when writer and reader are in step -/
theorem getvr_sync {rv0 spec w} {r : Reader} (hs : Sync rv0 spec w r.vars) (hnd : ((rtable rv0).map (·.1)).Nodup)
    (hrt : rtable r.vars = rtable rv0) {name : Name} {ty : Ty} (hm : (name, ty) ∈ rtable rv0) {d : List Byte}
    (hd : spec name = some d) :
    getvr r name ty = some d ∧ ∃ upd, probe r name = some (ty, d.length / ty.mem, upd) := by
  have hex : ∃ v ∈ w.vars, v.name = name := by
    apply Classical.byContradiction
    intro hc
    have := hs.other name (fun v hv hn => hc ⟨v, hv, hn⟩)
    rw [hd] at this
    exact absurd this (by simp)
  obtain ⟨v, hv, hvn⟩ := hex
  obtain ⟨i, hi⟩ := List.getElem?_of_mem hv
  obtain ⟨u, u0, hu, hu0, hvo⟩ := hs.vars i v hi
  rw [hvn] at hvo
  obtain ⟨h4, _, ⟨n, hn, hdl, hvl⟩, _⟩ := hvo.set d hd
  have hun : u.name = name := hvo.name.trans hvn
  have hfind : rlocvar r.vars name = some u := by
    unfold rlocvar
    rw [List.find?_eq_some_iff_getElem]
    refine ⟨by simpa using hun, i, (List.getElem?_eq_some_iff.1 hu).1, (List.getElem?_eq_some_iff.1 hu).2, ?_⟩
    intro j hj
    have hil : i < r.vars.length := (List.getElem?_eq_some_iff.1 hu).1
    simp only [Bool.not_eq_eq_eq_not, Bool.not_true, decide_eq_false_iff_not]
    intro hc
    have e1 : ((rtable rv0).map (·.1))[j]? = some name := by
      rw [← hrt]
      unfold rtable
      rw [List.map_map, List.getElem?_map, List.getElem?_eq_getElem (by omega)]
      simp [hc]
    have e2 : ((rtable rv0).map (·.1))[i]? = some name := by
      rw [← hrt]
      unfold rtable
      rw [List.map_map, List.getElem?_map, hu]
      simp [hun]
    have := (List.getElem?_inj (List.getElem?_eq_some_iff.1 e1).1 hnd).1 (e1.trans e2.symm)
    omega
  have hty : u.ty = ty := by
    have e2 : (rtable rv0)[i]? = some (name, u.ty) := by
      rw [← hrt]
      unfold rtable
      rw [List.getElem?_map, hu]
      simp [hun]
    obtain ⟨j, hj⟩ := List.getElem?_of_mem hm
    have f1 : ((rtable rv0).map (·.1))[j]? = some name := by rw [List.getElem?_map, hj]; rfl
    have f2 : ((rtable rv0).map (·.1))[i]? = some name := by rw [List.getElem?_map, e2]; rfl
    have := (List.getElem?_inj (List.getElem?_eq_some_iff.1 f1).1 hnd).1 (f1.trans f2.symm)
    subst this
    rw [hj] at e2
    simp only [Option.some.injEq, Prod.mk.injEq, true_and] at e2
    exact e2.symm
  constructor
  rotate_left
  · refine ⟨decide (r.mark ≤ u.callno), ?_⟩
    unfold probe
    rw [hfind]
    have hvt : v.ty = ty := hvo.ty.symm.trans hty
    have he : 0 < ty.ext := by cases ty <;> decide
    have hmm : 0 < ty.mem := by cases ty <;> decide
    simp only [Option.map_some, Option.some.injEq, Prod.mk.injEq]
    rw [hty, hvl, hvt, hdl, hvt, Nat.mul_div_cancel_left _ he, Nat.mul_div_cancel_left _ hmm]
    simp
  unfold getvr
  rw [hfind]
  simp only
  rw [if_neg (by rw [hty]; simp), h4]
  simp only [Option.map_some, Option.some.injEq]
  have : u.ty.mem * u.length / u.ty.ext = d.length := by
    rw [hvl, hvo.ty, Nat.mul_left_comm, Nat.mul_div_cancel_left _ (ext_pos _), hdl]
  rw [this]
  exact List.take_length

theorem sync_rtable {rv0 spec w rv} (hs : Sync rv0 spec w rv) (hp : table w <+: rtable rv0) :
    rtable rv = rtable rv0 := by
  apply List.ext_getElem?
  intro i
  by_cases hi : i < w.vars.length
  · obtain ⟨u, u0, hu, hu0, hvo⟩ := hs.vars i w.vars[i] (List.getElem?_eq_getElem hi)
    have h1 : (rtable rv0)[i]? = some (w.vars[i].name, w.vars[i].ty) := by
      obtain ⟨suf, hsuf⟩ := hp
      rw [← hsuf, List.getElem?_append_left (by simpa [table] using hi)]
      simp [table, hi]
    rw [h1]
    unfold rtable
    rw [List.getElem?_map, hu]
    simp [hvo.name, hvo.ty]
  · unfold rtable
    rw [List.getElem?_map, List.getElem?_map, hs.rest i (by omega)]

theorem put_in_table {w w' : Writer} {h : List Ev} (hr : wrun w h = some w') (hok : HistOk h) {name : Name} {ty : Ty}
    {d : List Byte} (hm : Ev.put name ty d ∈ h) (hd : d ≠ []) : (name, ty) ∈ table w' := by
  induction h generalizing w with
  | nil => simp at hm
  | cons e es ih =>
    simp only [wrun] at hr
    cases h1 : wstep w e with
    | none => rw [h1] at hr; simp at hr
    | some w1 =>
      rw [h1] at hr
      rcases List.mem_cons.1 hm with rfl | hm
      · have hn : d.length / ty.mem ≠ 0 := by
          intro hn
          have hmod : d.length % ty.mem = 0 := (hok _ List.mem_cons_self).1
          have := Nat.div_add_mod d.length ty.mem
          rw [hn, hmod] at this
          exact hd (List.length_eq_zero_iff.1 (by omega))
        obtain ⟨w2, i, v, hmk, hv, hty, rfl⟩ := put_some h1 hn
        have hvn : v.name = name := by
          unfold mkvar at hmk
          cases hl : locvar w.vars name with
          | some j =>
            rw [hl] at hmk
            simp only [Option.some.injEq, Prod.mk.injEq] at hmk
            obtain ⟨rfl, rfl⟩ := hmk
            obtain ⟨v1, hv1, hn1⟩ := locvar_some hl
            rw [hv, Option.some.injEq] at hv1
            subst hv1; exact hn1
          | none =>
            rw [hl] at hmk
            simp only at hmk
            by_cases c1 : MAXNAM < name.length
            · rw [if_pos c1] at hmk; exact absurd hmk (by simp)
            rw [if_neg c1] at hmk
            by_cases c2 : MAXVAR ≤ w.vars.length
            · rw [if_pos c2] at hmk; exact absurd hmk (by simp)
            rw [if_neg c2] at hmk
            simp only [Option.some.injEq, Prod.mk.injEq] at hmk
            obtain ⟨rfl, rfl⟩ := hmk
            simp only [List.getElem?_concat_length, Option.some.injEq] at hv
            subst hv; rfl
        have hmem : (name, ty) ∈ table w2 := by
          unfold table
          exact List.mem_map.2 ⟨v, List.mem_of_getElem? hv, by rw [hvn, hty]⟩
        have e := table_set hv (putVar_frame w2 i v d (d.length / ty.mem)).2.1
          (putVar_frame w2 i v d (d.length / ty.mem)).2.2
        apply (wrun_table hr).subset
        unfold table at hmem ⊢
        rw [e]
        exact hmem
      · exact ih hr (fun e' he' => hok e' (List.mem_cons_of_mem _ he')) hm

theorem open_rtable (t : List (Name × Ty)) (n : Nat) : rtable (openReader t n).vars = t := by
  unfold rtable openReader
  rw [List.map_map]
  exact (List.map_congr_left (fun _ _ => rfl)).trans (List.map_id _)

theorem sync_names {rv0 spec w rv} (hs : Sync rv0 spec w rv) : ((table w).map (·.1)).Nodup := by
  have := hs.names
  unfold table
  rw [List.map_map]
  exact this

theorem readN_all {h : List Ev} {w : Writer} {f : Nat → Byte} {size n : Nat} {r0 : Reader}
    (hr : wrun newWriter h = some w) (hok : HistOk h) (h128 : (table w).length ≤ 128) (hf : Holds f size w.out)
    (hrt : rtable r0.vars = table w) (h0 : r0.offset = 0) (hm : r0.maxOffset = w.offset) (hn : n ≤ records h) :
    ∃ (r : Reader) (w1 : Writer) (h' : List Ev), readN f size n r0 = some r ∧ h = upTo n h ++ h' ∧
      records h = n + records h' ∧ wrun w1 h' = some w ∧ Sync r0.vars (valueAfter (upTo n h)) w1 r.vars ∧
      r.offset = w1.offset ∧ r.maxOffset = w.offset ∧ r.callno = r0.callno + n ∧ rtable r.vars = table w ∧
      wrun newWriter (upTo n h) = some w1 := by
  have hp : table w <+: rtable r0.vars := by rw [hrt]; exact List.prefix_rfl
  have hl : r0.vars.length ≤ 128 := by
    have : (rtable r0.vars).length = r0.vars.length := by simp [rtable]
    rw [← this, hrt]; exact h128
  obtain ⟨r, w1, h', a1, a2, a3, a4, a5, a6, a7, a8, a9⟩ := readN_ok hp hl hf n h (fun _ => none) newWriter r0
    (sync_new r0.vars) h0 hok hr (by omega) hn
  refine ⟨r, w1, h', a1, a2, a3, a4, a5, a6, by omega, a8, ?_, a9⟩
  rw [← hrt]
  exact sync_rtable a5 ((wrun_table a4).trans hp)

theorem table_nodup {h : List Ev} {w : Writer} (hr : wrun newWriter h = some w) (hok : HistOk h)
    (h128 : (table w).length ≤ 128) : ((table w).map (·.1)).Nodup := by
  -- the writer alone: a reader that never reads
  have key : ∀ (h : List Ev) (spec : Name → Option (List Byte)) (w0 : Writer) (rv0 rv : List RVar), Sync rv0 spec w0 rv →
      HistOk h → wrun w0 h = some w → table w <+: rtable rv0 → rv0.length ≤ 128 →
      ((table w).map (·.1)).Nodup := by
    intro h
    induction h with
    | nil =>
      intro spec w0 rv0 rv hs _ hr _ _
      simp only [wrun, Option.some.injEq] at hr
      subst hr
      exact sync_names hs
    | cons e es ih =>
      intro spec w0 rv0 rv hs hok hr hp h128
      simp only [wrun] at hr
      cases h1 : wstep w0 e with
      | none => rw [h1] at hr; simp at hr
      | some w1 =>
        rw [h1] at hr
        by_cases he : e = .next
        · subst he
          simp only [wstep, Option.some.injEq] at h1
          subst h1
          exact ih spec _ rv0 rv (sync_next hs) (fun e' he' => hok e' (List.mem_cons_of_mem _ he')) hr hp h128
        · obtain ⟨ts, _, _, _, _, a5, _⟩ := step_ok hs he (hok e List.mem_cons_self) h1 ((wrun_table hr).trans hp) h128 0
          exact ih _ _ rv0 _ a5 (fun e' he' => hok e' (List.mem_cons_of_mem _ he')) hr hp h128
  have hrt : rtable (openReader (table w) 0).vars = table w := by
    exact open_rtable _ _
  refine key h _ newWriter (openReader (table w) 0).vars _ (sync_new _) hok hr ?_ ?_
  · rw [hrt]; exact List.prefix_rfl
  · simpa [openReader] using h128

/-! ## Theorems -/

/-- the value of an assigned variable, whatever the reader held before it started at the beginning of the file -/
theorem getvr_assigned {h : List Ev} {w : Writer} {f : Nat → Byte} {size n : Nat} {r0 r : Reader}
    (hr : wrun newWriter h = some w) (hok : HistOk h) (h128 : (table w).length ≤ 128) (hf : Holds f size w.out)
    (hrt : rtable r0.vars = table w) (h0 : r0.offset = 0) (hm : r0.maxOffset = w.offset) (hn : n ≤ records h)
    (hread : readN f size n r0 = some r) {name : Name} {ty : Ty} {d0 d : List Byte} (hput : Ev.put name ty d0 ∈ h)
    (hd0 : d0 ≠ []) (hv : valueAfter (upTo n h) name = some d) :
    getvr r name ty = some d ∧ ∃ upd, probe r name = some (ty, d.length / ty.mem, upd) := by
  obtain ⟨r', w1, h', a1, a2, a3, a4, a5, a6, a7, a8, a9, a10⟩ := readN_all hr hok h128 hf hrt h0 hm hn
  rw [hread, Option.some.injEq] at a1
  subst a1
  refine getvr_sync a5 ?_ (a9.trans hrt.symm) ?_ hv
  · rw [hrt]; exact table_nodup hr hok h128
  · rw [hrt]; exact put_in_table hr hok hput hd0

theorem getvr_unassigned {rv0 spec w} {r : Reader} (hs : Sync rv0 spec w r.vars) (hfresh : ∀ u ∈ rv0, u.buf = none)
    {name : Name} {ty : Ty} (hd : spec name = none) : getvr r name ty = none := by
  unfold getvr
  cases hl : rlocvar r.vars name with
  | none => rfl
  | some u =>
    simp only
    unfold rlocvar at hl
    have hun : u.name = name := by simpa using List.find?_some hl
    obtain ⟨i, hi⟩ := List.getElem?_of_mem (List.mem_of_find?_eq_some hl)
    have hb : u.buf = none := by
      by_cases hlt : i < w.vars.length
      · obtain ⟨u', u0, hu', hu0, hvo⟩ := hs.vars i w.vars[i] (List.getElem?_eq_getElem hlt)
        rw [hi, Option.some.injEq] at hu'
        subst hu'
        rw [(hvo.unset (by rw [← hvo.name, hun, hd])).2]
        exact hfresh u0 (List.mem_of_getElem? hu0)
      · rw [hs.rest i (by omega)] at hi
        exact hfresh u (List.mem_of_getElem? hi)
    rw [hb]
    split <;> rfl

/-- **C47**: after `n` records every variable has the value it was last given before the `n`-th record was written (and
none if it had not been given any). -/
theorem c47_variables {h : List Ev} {w : Writer} {f : Nat → Byte} {size : Nat} (hr : wrun newWriter h = some w)
    (hok : HistOk h) (h128 : (table w).length ≤ 128) (hf : Holds f size w.out) (n : Nat) (hn : n ≤ records h) :
    ∃ r, readN f size n (openReader (table w) w.offset) = some r ∧
      ∀ name ty d, Ev.put name ty d ∈ h → d ≠ [] → getvr r name ty = valueAfter (upTo n h) name ∧
        ∀ d', valueAfter (upTo n h) name = some d' → ∃ upd, probe r name = some (ty, d'.length / ty.mem, upd) := by
  have hrt : rtable (openReader (table w) w.offset).vars = table w := open_rtable _ _
  obtain ⟨r, w1, h', a1, a2, a3, a4, a5, a6, a7, a8, a9, a10⟩ := readN_all hr hok h128 hf hrt rfl rfl hn
  refine ⟨r, a1, fun name ty d hput hd => ?_⟩
  cases hv : valueAfter (upTo n h) name with
  | some d' =>
    have := getvr_assigned hr hok h128 hf hrt rfl rfl hn a1 hput hd hv
    refine ⟨this.1, fun d'' hd'' => ?_⟩
    rw [Option.some.injEq] at hd''
    subst hd''
    exact this.2
  | none =>
    refine ⟨?_, fun d'' hd'' => by simp at hd''⟩
    refine getvr_unassigned a5 (fun u hu => ?_) hv
    simp only [openReader, List.mem_map] at hu
    obtain ⟨p, _, rfl⟩ := hu
    rfl

/-- **C47**: there are as many records as were written: the next read reports the end of the file. -/
theorem c47_end {h : List Ev} {w : Writer} {f : Nat → Byte} {size : Nat} (hr : wrun newWriter h = some w)
    (hok : HistOk h) (h128 : (table w).length ≤ 128) (hf : Holds f size w.out) :
    ∃ r r', readN f size (records h) (openReader (table w) w.offset) = some r ∧ rnext f size r = .eof r' := by
  have hrt : rtable (openReader (table w) w.offset).vars = table w := open_rtable _ _
  have hp : table w <+: rtable (openReader (table w) w.offset).vars := by rw [hrt]; exact List.prefix_rfl
  obtain ⟨r, w1, h', a1, a2, a3, a4, a5, a6, a7, a8, a9, a10⟩ := readN_all hr hok h128 hf hrt rfl rfl (Nat.le_refl _)
  have hz : records h' = 0 := by omega
  have hb : ∀ e ∈ h', e ≠ .next := by
    clear a2 a3 a4 hr hok
    induction h' with
    | nil => simp
    | cons e es ih =>
      cases e with
      | next => simp [records] at hz
      | put n t d =>
        intro e' he'
        rcases List.mem_cons.1 he' with rfl | he'
        · simp
        · exact ih hz e' he'
      | reopen =>
        intro e' he'
        rcases List.mem_cons.1 he' with rfl | he'
        · simp
        · exact ih hz e' he'
      | noCheck n t =>
        intro e' he'
        rcases List.mem_cons.1 he' with rfl | he'
        · simp
        · exact ih hz e' he'
  have hok' : HistOk h' := by
    intro e he
    apply hok e
    rw [a2]
    exact List.mem_append_right _ he
  obtain ⟨ts, b1, b2, b3, b4, b5⟩ := block_ok a5 hb hok' a4 hp (by simpa [openReader] using h128) (r.callno + 1)
  have hf2 : Holds f size (layout r.offset ts) := by
    rw [b3] at hf
    rw [a6]
    exact (Holds.append.1 hf).2
  have hfin : finL r.offset ts = r.maxOffset := by rw [a6, ← b4, a7]
  have := scanLoop_tail f size { r with mark := r.callno + 1, copy := false } (r.callno + 1) ts
    (r.maxOffset - r.offset + 1) ⟨r.vars, r.offset, false⟩ (fun t ht => (b1 t ht).1) b2 hf2 hfin (by
      have := finL_ge r.offset ts
      show ts.length < r.maxOffset - r.offset + 1
      omega)
  exact ⟨r, _, a1, this⟩

/-- **C47**: the same after `uvrewind_c`, wherever the reader was, for every variable that had a value by then. -/
theorem c47_rewind {h : List Ev} {w : Writer} {f : Nat → Byte} {size : Nat} (hr : wrun newWriter h = some w)
    (hok : HistOk h) (h128 : (table w).length ≤ 128) (hf : Holds f size w.out) (m n : Nat) (hm : m ≤ records h)
    (hn : n ≤ records h) : ∃ r r', readN f size m (openReader (table w) w.offset) = some r ∧
      readN f size n (rewind r) = some r' ∧
      ∀ name ty d d', Ev.put name ty d ∈ h → d ≠ [] → valueAfter (upTo n h) name = some d' →
        getvr r' name ty = some d' ∧ ∃ upd, probe r' name = some (ty, d'.length / ty.mem, upd) := by
  have hrt : rtable (openReader (table w) w.offset).vars = table w := open_rtable _ _
  obtain ⟨r, w1, h', a1, a2, a3, a4, a5, a6, a7, a8, a9, a10⟩ := readN_all hr hok h128 hf hrt rfl rfl hm
  have hrt2 : rtable (rewind r).vars = table w := by
    rw [← a9]
    simp [rtable, rewind]
  obtain ⟨r', w1', h'', b1, _⟩ := readN_all (r0 := rewind r) hr hok h128 hf hrt2 rfl a7 hn
  exact ⟨r, r', a1, b1, fun name ty d d' hput hd hv =>
    getvr_assigned hr hok h128 hf hrt2 rfl a7 hn b1 hput hd hv⟩

/-! ### Which variables were updated -/

theorem fold_untouched (c : Nat) (ts : List Tok) (rv : List RVar) (i : Nat) (h : ∀ t ∈ ts, t.var ≠ i) :
    (ts.foldl (actAll c) rv)[i]? = rv[i]? := by
  induction ts generalizing rv with
  | nil => rfl
  | cons t ts ih =>
    rw [List.foldl_cons, ih _ (fun t' ht' => h t' (List.mem_cons_of_mem _ ht'))]
    unfold actAll
    cases hv : rv[t.var]? with
    | none => rfl
    | some v => simp only; rw [List.getElem?_set_ne (h t List.mem_cons_self)]

theorem act_callno (c : Nat) (v : RVar) (t : Tok) (h : t.isVar) : (t.act c v).callno = c := by
  cases t with
  | eor => exact absurd h (by simp [Tok.isVar])
  | size => rfl
  | data => rfl

theorem fold_touched (c : Nat) (ts : List Tok) (rv : List RVar) (i : Nat) (hi : i < rv.length)
    (hv : ∀ t ∈ ts, t.isVar) (h : ∃ t ∈ ts, t.var = i) : ∃ u, (ts.foldl (actAll c) rv)[i]? = some u ∧ u.callno = c := by
  have keep : ∀ (ts : List Tok) (rv : List RVar), (∀ t ∈ ts, t.isVar) → (∃ u, rv[i]? = some u ∧ u.callno = c) →
      ∃ u, (ts.foldl (actAll c) rv)[i]? = some u ∧ u.callno = c := by
    intro ts
    induction ts with
    | nil => intro rv _ h; exact h
    | cons t ts ih =>
      intro rv hv h
      refine ih _ (fun t' ht' => hv t' (List.mem_cons_of_mem _ ht')) ?_
      obtain ⟨u, hu, huc⟩ := h
      by_cases hti : t.var = i
      · unfold actAll
        rw [hti, hu]
        exact ⟨t.act c u, List.getElem?_set_self (List.getElem?_eq_some_iff.1 hu).1,
          act_callno c u t (hv t List.mem_cons_self)⟩
      · refine ⟨u, ?_, huc⟩
        rw [← hu]
        exact fold_untouched c [t] rv i (fun t' ht' => by rw [List.mem_singleton.1 ht']; exact hti)
  induction ts generalizing rv with
  | nil => obtain ⟨t, ht, _⟩ := h; simp at ht
  | cons t ts ih =>
    have hlen : (actAll c rv t).length = rv.length := by
      unfold actAll
      split <;> simp
    by_cases hti : t.var = i
    · refine keep ts _ (fun t' ht' => hv t' (List.mem_cons_of_mem _ ht')) ?_
      unfold actAll
      rw [hti, List.getElem?_eq_getElem hi]
      exact ⟨t.act c rv[i], List.getElem?_set_self hi, act_callno c _ t (hv t List.mem_cons_self)⟩
    · obtain ⟨t', ht', hvt'⟩ := h
      rcases List.mem_cons.1 ht' with rfl | ht'
      · exact absurd hvt' hti
      · exact ih _ (by omega) (fun t' ht' => hv t' (List.mem_cons_of_mem _ ht')) ⟨t', ht', hvt'⟩

theorem scanLoop_callno (f : Nat → Byte) (size : Nat) (r : Reader) (c fuel : Nat) (l : Loop) (r' : Reader)
    (h : scanLoop f size r c fuel l = .ok r') : r'.callno = c ∧ ∀ u ∈ r'.vars, u ∈ l.vars ∨ u.callno = c := by
  induction fuel generalizing l with
  | zero => simp [scanLoop] at h
  | succ fuel ih =>
    rw [scanLoop] at h
    cases hrec : readRec f size r.maxOffset l.vars l.off with
    | eof => rw [hrec] at h; simp at h
    | bad => rw [hrec] at h; simp at h
    | eor =>
      rw [hrec] at h
      simp only [Scan.ok.injEq] at h
      subst h
      exact ⟨rfl, fun u hu => Or.inl hu⟩
    | size i len =>
      rw [hrec] at h
      simp only [applyRec] at h
      cases hv : l.vars[i]? with
      | none => rw [hv] at h; simp at h
      | some v =>
        rw [hv] at h
        simp only [Option.map_some] at h
        obtain ⟨h1, h2⟩ := ih _ h
        refine ⟨h1, fun u hu => ?_⟩
        rcases h2 u hu with h3 | h3
        · rcases List.mem_or_eq_of_mem_set h3 with h4 | h4
          · exact Or.inl h4
          · right; rw [h4]; rfl
        · exact Or.inr h3
    | data i bytes =>
      rw [hrec] at h
      simp only [applyRec] at h
      cases hv : l.vars[i]? with
      | none => rw [hv] at h; simp at h
      | some v =>
        rw [hv] at h
        simp only [Option.map_some] at h
        obtain ⟨h1, h2⟩ := ih _ h
        refine ⟨h1, fun u hu => ?_⟩
        rcases h2 u hu with h3 | h3
        · rcases List.mem_or_eq_of_mem_set h3 with h4 | h4
          · exact Or.inl h4
          · right; rw [h4]; rfl
        · exact Or.inr h3

theorem readN_callno (f : Nat → Byte) (size n : Nat) (r r' : Reader) (h : readN f size n r = some r')
    (hc : ∀ u ∈ r.vars, u.callno ≤ r.callno) : ∀ u ∈ r'.vars, u.callno ≤ r'.callno := by
  induction n generalizing r with
  | zero =>
    simp only [readN, Option.some.injEq] at h
    subst h; exact hc
  | succ n ih =>
    rw [readN] at h
    cases hs : rnext f size r with
    | eof => rw [hs] at h; simp at h
    | bad => rw [hs] at h; simp at h
    | ok r1 =>
      rw [hs] at h
      refine ih r1 h ?_
      obtain ⟨h1, h2⟩ := scanLoop_callno _ _ _ _ _ _ _ hs
      intro u hu
      have h1' : r1.callno = r.callno + 1 := h1
      rcases h2 u hu with h3 | h3
      · have := hc u h3; omega
      · have h3' : u.callno = r.callno + 1 := h3
        omega

theorem readN_succ (f : Nat → Byte) (size n : Nat) (r : Reader) : readN f size (n + 1) r =
    (readN f size n r).bind (fun r' => match rnext f size r' with | .ok r'' => some r'' | _ => none) := by
  induction n generalizing r with
  | zero =>
    simp only [readN, Option.bind_some]
    cases rnext f size r <;> rfl
  | succ n ih =>
    rw [readN]
    cases hs : rnext f size r with
    | eof => simp only [readN, hs]; rfl
    | bad => simp only [readN, hs]; rfl
    | ok r1 =>
      simp only
      rw [ih r1]
      simp only [readN, hs]

/-- **C47**: `uvprobvr_c` tells which variables changed with the last record: if it reports no update the value is what
it was before the record, and it reports an update only if the variable was assigned between the two records. -/
theorem c47_updated {h : List Ev} {w : Writer} {f : Nat → Byte} {size : Nat} (hr : wrun newWriter h = some w)
    (hok : HistOk h) (h128 : (table w).length ≤ 128) (hf : Holds f size w.out) (n : Nat) (hn : n < records h) :
    ∃ (r : Reader) (b : List Ev), readN f size (n + 1) (openReader (table w) w.offset) = some r ∧
      upTo (n + 1) h = upTo n h ++ b ∧
      ∀ name ty d, Ev.put name ty d ∈ h → d ≠ [] → ∃ len updated, probe r name = some (ty, len, updated) ∧
        (updated = false → valueAfter (upTo (n + 1) h) name = valueAfter (upTo n h) name) ∧
        (updated = true → ∃ ty' d', Ev.put name ty' d' ∈ b ∧ d' ≠ []) := by
  have hrt : rtable (openReader (table w) w.offset).vars = table w := open_rtable _ _
  have hp : table w <+: rtable (openReader (table w) w.offset).vars := by rw [hrt]; exact List.prefix_rfl
  have h128' : (openReader (table w) w.offset).vars.length ≤ 128 := by simpa [openReader] using h128
  obtain ⟨r0, w1, h', a1, a2, a3, a4, a5, a6, a7, a8, a9, a10⟩ := readN_all hr hok h128 hf hrt rfl rfl (Nat.le_of_lt hn)
  have hok' : HistOk h' := by
    intro e he
    apply hok e
    rw [a2]
    exact List.mem_append_right _ he
  obtain ⟨b, h'', b1, b2, b3, b4⟩ := split_next (h := h') (by omega)
  obtain ⟨r1, ts, w2, c1, c2, c3, c4, c5, c6, c7, _, c8, c9, c10⟩ := rnext_ok (r := r0) (h' := h'') a5 a6 b2
    (fun e he => hok' e (by rw [b1]; exact List.mem_append_left _ he)) (by rw [← b1]; exact a4) hp h128' hf
    (by rw [a7]; exact Nat.le_refl _)
  have hr1 : readN f size (n + 1) (openReader (table w) w.offset) = some r1 := by
    rw [readN_succ, a1, Option.bind_some, c1]
  have hup : upTo (n + 1) h = upTo n h ++ (b ++ [.next]) := by
    have key : ∀ (n : Nat) (h b h'' : List Ev), n ≤ records h → h = upTo n h ++ (b ++ .next :: h'') →
        (∀ e ∈ b, e ≠ .next) → upTo (n + 1) h = upTo n h ++ (b ++ [.next]) := by
      intro n
      induction n with
      | zero =>
        intro h b h'' _ hh hb
        have h0 : upTo 0 h = [] := by cases h <;> rfl
        rw [h0, List.nil_append] at hh ⊢
        subst hh
        clear h0
        induction b with
        | nil =>
          simp only [List.nil_append, upTo]
        | cons e es ih =>
          have := ih (fun e' he' => hb e' (List.mem_cons_of_mem _ he')) (Nat.zero_le _)
          cases e with
          | next => exact absurd rfl (hb .next List.mem_cons_self)
          | put => simp only [List.cons_append, upTo, this]
          | reopen => simp only [List.cons_append, upTo, this]
          | noCheck => simp only [List.cons_append, upTo, this]
      | succ n ih =>
        intro h b h'' hn hh hb
        obtain ⟨b1, h1, e1, e2, e3, e4⟩ := split_next (h := h) (by omega)
        rw [e4 n, e4 (n + 1)]
        have : h1 = upTo n h1 ++ (b ++ .next :: h'') := by
          rw [e4 n] at hh
          rw [e1] at hh
          rw [List.append_assoc, List.cons_append] at hh
          exact (List.cons.inj (List.append_cancel_left hh)).2
        rw [ih h1 b h'' (by omega) this hb, List.append_assoc, List.cons_append]
    exact key n h b h'' (Nat.le_of_lt hn) (by rw [← b1]; exact a2) b2
  refine ⟨r1, b ++ [.next], hr1, hup, fun name ty d hput hd => ?_⟩
  -- the variable
  have hmem : (name, ty) ∈ rtable r1.vars := by
    obtain ⟨r', _, _, x1, _, _, _, _, _, _, _, x9, _⟩ := readN_all (n := n + 1) hr hok h128 hf hrt rfl rfl (by omega)
    rw [hr1, Option.some.injEq] at x1
    rw [x1, x9]
    exact put_in_table hr hok hput hd
  have hnd : ((rtable r1.vars).map (·.1)).Nodup := by
    obtain ⟨r', _, _, x1, _, _, _, _, _, _, _, x9, _⟩ := readN_all (n := n + 1) hr hok h128 hf hrt rfl rfl (by omega)
    rw [hr1, Option.some.injEq] at x1
    rw [x1, x9]
    exact table_nodup hr hok h128
  have hrt1 : rtable r1.vars = rtable r0.vars := by
    obtain ⟨r', _, _, x1, _, _, _, _, _, _, _, x9, _⟩ := readN_all (n := n + 1) hr hok h128 hf hrt rfl rfl (by omega)
    rw [hr1, Option.some.injEq] at x1
    rw [x1, x9, a9]
  -- the place of a name in the table
  have place : ∀ (vars : List RVar) (nm : Name) (i : Nat) (u : RVar), ((rtable vars).map (·.1)).Nodup → vars[i]? = some u →
      u.name = nm → rlocvar vars nm = some u := by
    intro vars nm i u hnd hu hun
    unfold rlocvar
    rw [List.find?_eq_some_iff_getElem]
    refine ⟨by simpa using hun, i, (List.getElem?_eq_some_iff.1 hu).1, (List.getElem?_eq_some_iff.1 hu).2, ?_⟩
    intro j hj
    have hil : i < vars.length := (List.getElem?_eq_some_iff.1 hu).1
    simp only [Bool.not_eq_eq_eq_not, Bool.not_true, decide_eq_false_iff_not]
    intro hc
    have e1 : ((rtable vars).map (·.1))[j]? = some nm := by
      unfold rtable
      rw [List.map_map, List.getElem?_map, List.getElem?_eq_getElem (by omega)]
      simp [hc]
    have e2 : ((rtable vars).map (·.1))[i]? = some nm := by
      unfold rtable
      rw [List.map_map, List.getElem?_map, hu]
      simp [hun]
    have := (List.getElem?_inj (List.getElem?_eq_some_iff.1 e1).1 hnd).1 (e1.trans e2.symm)
    omega
  obtain ⟨i, hi⟩ := List.getElem?_of_mem hmem
  unfold rtable at hi
  rw [List.getElem?_map] at hi
  cases hu1 : r1.vars[i]? with
  | none => rw [hu1] at hi; simp at hi
  | some u1 =>
    rw [hu1] at hi
    simp only [Option.map_some, Option.some.injEq, Prod.mk.injEq] at hi
    obtain ⟨hun, hut⟩ := hi
    have hl1 := place r1.vars name i u1 hnd hu1 hun
    refine ⟨u1.length / u1.ty.ext, decide (r1.mark ≤ u1.callno), ?_, ?_, ?_⟩
    · unfold probe
      rw [hl1]
      simp [hut]
    · intro hupd
      have hlt : u1.callno < r1.mark := by simpa using hupd
      have hnt : ∀ t ∈ ts, t.var ≠ i := by
        intro t ht hti
        have hlen : r1.vars.length = r0.vars.length := by
          have := congrArg List.length hrt1
          simpa [rtable] using this
        have hi0 : i < r0.vars.length := by
          rw [← hlen]; exact (List.getElem?_eq_some_iff.1 hu1).1
        obtain ⟨u, hu, huc⟩ := fold_touched (r0.callno + 1) ts r0.vars i hi0 (fun t ht => (c8 t ht).1) ⟨t, ht, hti⟩
        rw [← c9, hu1, Option.some.injEq] at hu
        subst hu
        omega
      have hu0 : r0.vars[i]? = some u1 := by
        rw [← fold_untouched (r0.callno + 1) ts r0.vars i hnt, ← c9]; exact hu1
      have hl0 := place r0.vars name i u1 (by rw [← hrt1]; exact hnd) hu0 hun
      obtain ⟨r', x1, x2⟩ := c47_variables hr hok h128 hf (n + 1) (by omega)
      rw [hr1, Option.some.injEq] at x1
      subst x1
      obtain ⟨r'', y1, y2⟩ := c47_variables hr hok h128 hf n (by omega)
      rw [a1, Option.some.injEq] at y1
      subst y1
      rw [← (x2 name ty d hput hd).1, ← (y2 name ty d hput hd).1]
      unfold getvr
      rw [hl1, hl0]
    · intro hupd
      have hge : r1.mark ≤ u1.callno := by simpa using hupd
      have htouch : ∃ t ∈ ts, t.var = i := by
        apply Classical.byContradiction
        intro hc
        have hnt : ∀ t ∈ ts, t.var ≠ i := fun t ht hti => hc ⟨t, ht, hti⟩
        have hu0 : r0.vars[i]? = some u1 := by
          rw [← fold_untouched (r0.callno + 1) ts r0.vars i hnt, ← c9]; exact hu1
        have := readN_callno f size n _ r0 a1 (by
          intro u hu
          simp only [openReader, List.mem_map] at hu
          obtain ⟨p, _, rfl⟩ := hu
          exact Nat.le_refl _) u1 (List.mem_of_getElem? hu0)
        omega
      obtain ⟨t, ht, hti⟩ := htouch
      obtain ⟨_, u0, hu0, ty', d', hmem', hd'⟩ := c8 t ht
      refine ⟨ty', d', ?_, hd'⟩
      have hname : u0.name = name := by
        have e1 : (rtable r1.vars)[i]? = some (name, ty) := by
          unfold rtable
          rw [List.getElem?_map, hu1]
          simp [hun, hut]
        rw [hrt1, a9, ← hrt] at e1
        rw [hti] at hu0
        unfold rtable at e1
        rw [List.getElem?_map, hu0] at e1
        simp only [Option.map_some, Option.some.injEq, Prod.mk.injEq] at e1
        exact e1.1
      rw [← hname]
      exact List.mem_append_left _ hmem'

/-! ### A concrete file -/

/-- the bytes of a file written in this way, zero where nothing was written -/
def content (out : List Write) (k : Nat) : Byte :=
  out.foldl (fun b wr => if wr.offset ≤ k ∧ k < wr.offset + wr.bytes.length then wr.bytes.getD (k - wr.offset) 0 else b) 0

/-- two records; `x` changes its length, `y` comes only with the second -/
def sample : List Ev :=
  [.put ['x'] .real [1, 2, 3, 4], .next, .put ['y'] .byte [7, 8, 9], .put ['x'] .real [1, 2, 3, 4, 5, 6, 7, 8], .next]

def sampleW : Writer := (wrun newWriter sample).getD newWriter

theorem sample_ok : wrun newWriter sample = some sampleW ∧ HistOk sample ∧ (table sampleW).length ≤ 128 ∧
    Holds (content sampleW.out) sampleW.offset sampleW.out ∧ records sample = 2 := by
  refine ⟨by decide +kernel, ?_, by decide +kernel, ?_, rfl⟩
  · intro e he
    simp only [sample, List.mem_cons, List.not_mem_nil, or_false] at he
    rcases he with rfl | rfl | rfl | rfl | rfl
    · exact ⟨by decide, by decide, by simp⟩
    · trivial
    · exact ⟨by decide, by decide, by simp⟩
    · exact ⟨by decide, by decide, by simp⟩
    · trivial
  · unfold Holds
    decide +kernel

/-- after one record `x` has its first value and `y` none -/
example : ∃ r, readN (content sampleW.out) sampleW.offset 1 (openReader (table sampleW) sampleW.offset) = some r ∧
    getvr r ['x'] .real = some [1, 2, 3, 4] ∧ getvr r ['y'] .byte = none := by
  obtain ⟨h1, h2, h3, h4, h5⟩ := sample_ok
  obtain ⟨r, hr, hv⟩ := c47_variables h1 h2 h3 h4 1 (by omega)
  exact ⟨r, hr, (hv _ .real [1, 2, 3, 4] (by decide) (by decide)).1, (hv _ .byte [7, 8, 9] (by decide) (by decide)).1⟩

/-- **C47, disagreement**: after `rewind` a variable that has no value yet still shows the value of a later record. -/
theorem c47_rewind_stale : ∃ r r', readN (content sampleW.out) sampleW.offset 2
      (openReader (table sampleW) sampleW.offset) = some r ∧
    readN (content sampleW.out) sampleW.offset 1 (rewind r) = some r' ∧
    valueAfter (upTo 1 sample) ['y'] = none ∧ getvr r' ['y'] .byte = some [7, 8, 9] := by
  have h : ((readN (content sampleW.out) sampleW.offset 2 (openReader (table sampleW) sampleW.offset)).bind fun r =>
      (readN (content sampleW.out) sampleW.offset 1 (rewind r)).bind fun r' => getvr r' ['y'] .byte) = some [7, 8, 9] := by
    decide +kernel
  rw [Option.bind_eq_some_iff] at h
  obtain ⟨r, h1, h2⟩ := h
  rw [Option.bind_eq_some_iff] at h2
  obtain ⟨r', h2, h3⟩ := h2
  exact ⟨r, r', h1, h2, rfl, h3⟩

/-- **C47, disagreement**: the index of a variable is stored in a (signed) `char`; the record in which the 129th (or a
later) variable gets its first value cannot be read. -/
theorem c47_many_variables {w w' : Writer} {name : Name} {ty : Ty} {d : List Byte} {f : Nat → Byte} {size : Nat}
    (hnew : locvar w.vars name = none) (h128 : 128 ≤ w.vars.length) (hd : ty.mem ≤ d.length)
    (hput : put w name ty d = some w') (hf : Holds f size w'.out) {r : Reader} (ho : r.offset = w.offset)
    (hm : w.offset < r.maxOffset) : rnext f size r = .bad := by
  have hmm : 0 < ty.mem := by cases ty <;> decide
  have hn : d.length / ty.mem ≠ 0 := by
    have := (Nat.le_div_iff_mul_le hmm).2 (by rw [Nat.one_mul]; exact hd)
    omega
  have hlt : w.vars.length < 256 := by
    apply Classical.byContradiction
    intro hc
    unfold put mkvar at hput
    simp only [hn, hnew, if_false] at hput
    split at hput
    · rename_i h1
      simp at hput
    · rename_i h1
      split at h1
      · simp at h1
      · rw [if_pos (by show MAXVAR ≤ _; unfold MAXVAR; omega)] at h1
        simp at h1
  have hw : ∃ wr ∈ w'.out, wr.offset = w.offset ∧ wr.bytes = header w.vars.length 0 := by
    unfold put mkvar at hput
    simp only [hn, hnew, if_false] at hput
    by_cases hl : MAXNAM < name.length
    · simp only [if_pos hl] at hput
      simp at hput
    · simp only [if_neg hl] at hput
      have h2 : ¬ MAXVAR ≤ w.vars.length := by unfold MAXVAR; omega
      simp only [if_neg h2, List.getElem?_concat_length, ne_eq, not_true, if_false] at hput
      rw [Option.some.injEq] at hput
      subst hput
      have hres : (⟨name, ty, 0, [], 0, false⟩ : WVar).length ≠
          (⟨name, ty, 0, [], 0, false⟩ : WVar).ty.ext * (d.length / ty.mem) := by
        show 0 ≠ ty.ext * _
        have := ext_pos ty
        intro hc
        have := Nat.mul_pos this (Nat.pos_of_ne_zero hn)
        omega
      refine ⟨⟨1, w.offset, header w.vars.length 0⟩, ?_, rfl, rfl⟩
      unfold putVar
      simp only [hres, ne_eq, not_false_eq_true, if_true, true_or]
      simp [putSize, putData]
  obtain ⟨wr, hwm, hwo, hwb⟩ := hw
  obtain ⟨hs, hk⟩ := hf wr hwm
  rw [hwo, hwb] at hs
  have hs' : w.offset + 4 ≤ size := hs
  have f0 : f w.offset = UInt8.ofNat w.vars.length := by
    have := hk 0 (by rw [hwb]; show 0 < 4; omega)
    rw [hwo] at this
    simpa [hwb, header] using this
  have f2 : f (w.offset + 2) = 0 := by
    have := hk 2 (by rw [hwb]; show 2 < 4; omega)
    rw [hwo] at this
    simpa [hwb, header] using this
  have hrec : readRec f size r.maxOffset r.vars w.offset = .bad := by
    unfold readRec
    rw [if_neg (by omega), if_neg (by show ¬ size < w.offset + 4; omega), if_neg (by rw [f2]; decide)]
    have : recVar r.vars (f w.offset) = none := by
      unfold recVar
      rw [if_pos]
      rw [f0]
      simp only [UInt8.toNat_ofNat']
      omega
    rw [this]
  unfold rnext scan
  simp only [ho]
  rw [scanLoop]
  simp only [hrec]

/-- 129 variables -/
def many : List Ev :=
  (List.range 129).map (fun (i : Nat) => Ev.put [Char.ofNat (97 + i / 16), Char.ofNat (97 + i % 16)] .byte [1])

example : ∃ w w', wrun newWriter (many.take 128) = some w ∧ locvar w.vars ['i', 'a'] = none ∧ 128 ≤ w.vars.length ∧
    put w ['i', 'a'] .byte [1] = some w' := by
  refine ⟨(wrun newWriter (many.take 128)).getD newWriter,
    ((wrun newWriter (many.take 128)).bind (fun w => put w ['i', 'a'] .byte [1])).getD newWriter, ?_⟩
  decide +kernel

/-- the other theorems apply to the sample as well -/
example : ∃ r r', readN (content sampleW.out) sampleW.offset 2 (openReader (table sampleW) sampleW.offset) = some r ∧
    rnext (content sampleW.out) sampleW.offset r = .eof r' := by
  obtain ⟨h1, h2, h3, h4, h5⟩ := sample_ok
  have := c47_end h1 h2 h3 h4
  rwa [h5] at this

example : ∃ r r', readN (content sampleW.out) sampleW.offset 2 (openReader (table sampleW) sampleW.offset) = some r ∧
    readN (content sampleW.out) sampleW.offset 1 (rewind r) = some r' ∧ getvr r' ['x'] .real = some [1, 2, 3, 4] := by
  obtain ⟨h1, h2, h3, h4, h5⟩ := sample_ok
  obtain ⟨r, r', a, b, c⟩ := c47_rewind h1 h2 h3 h4 2 1 (by omega) (by omega)
  exact ⟨r, r', a, b, (c ['x'] .real [1, 2, 3, 4] _ (by decide) (by decide) (by decide)).1⟩

example : ∃ r b, readN (content sampleW.out) sampleW.offset (1 + 1) (openReader (table sampleW) sampleW.offset) = some r ∧
    upTo 2 sample = upTo 1 sample ++ b := by
  obtain ⟨h1, h2, h3, h4, h5⟩ := sample_ok
  obtain ⟨r, b, a, c, _⟩ := c47_updated h1 h2 h3 h4 1 (by omega)
  exact ⟨r, b, a, c⟩

end Verif.Mir.Uv
