import Verif.Mir.UvGet

/-!
# Property C150 : what uvlist.py prints

The script opens every data set named on the command line and prints the names of its header items and variables, or, with
`-k`, the value of every keyword of the list.
-/
namespace Verif.Mir.UvList

open Verif.Mir.Uv
open Verif.Mir.Hio (Byte Tree)
open Verif.Mir.Mask (Mask run mkopen)
open Verif.Mir.Head (Conv itype HErr itemtable)

/-! ## The model -/

/-- `s.split(',')`, with what has been read of the current keyword -/
def splitComma (cur : PyStr) : PyStr → List PyStr
  | [] => [cur]
  | c :: cs => if c = 44 then cur :: splitComma [] cs else splitComma (cur ++ [c]) cs

/-- what a call of `print` shows: the name of a file (line 24), the list of names (line 26), a keyword (line 29), a value
(line 30), the rule (line 31).  How Python writes a value as text is not modelled. -/
inductive Line
  | file (name : PyStr)
  | names (l : List PyStr)
  | key (k : PyStr)
  | value (v : Got)
  | rule
  deriving DecidableEq, Repr

/-- what ends the script before its end: `UV(uvfile)`, `uv.items()` or `uv[key]` raises -/
inductive Stop
  | opening
  | items (e : HErr)
  | get (e : GetErr)
  deriving DecidableEq, Repr

/-- a data set on the disk: its name, its directory, its flags (which the model keeps apart, see `pyOpen`) -/
structure File where
  name : PyStr
  tree : Tree
  mask : Mask

/-- the loop over the keywords, scripts/uvlist.py 26-28: the keyword is printed before `uv[key]` is called -/
def printKeys (get : PyStr → Except GetErr Got) : List PyStr → List Line × Option GetErr
  | [] => ([], none)
  | k :: ks =>
    match get k with
    | .error e => ([.key k], some e)
    | .ok v => (.key k :: .value v :: (printKeys get ks).1, (printKeys get ks).2)

/-- lines 22-29 of scripts/uvlist.py for one file; `key` is `opts.key` -/
def listFile (E : Env) (c : Conv) (g : Nat → Byte) (key : Option PyStr) (F : File) : List Line × Option Stop :=
  match pyOpen E c g F.tree F.mask with
  | none => ([.file F.name], some .opening)
  | some (vt, _, S, _) =>
    match key with
    | none =>
      match listItems F.tree g itemtable with
      | .error e => ([.file F.name], some (.items e))
      | .ok l => ([.file F.name, .names (l.map asItem ++ varNames vt), .rule], none)
    | some k =>
      match printKeys (pyGet E c F.tree g vt S.r) (splitComma [] k) with
      | (ls, none) => (.file F.name :: ls ++ [.rule], none)
      | (ls, some e) => (.file F.name :: ls, some (.get e))

/-- the loop over the files, scripts/uvlist.py 21-29 -/
def uvlist (E : Env) (c : Conv) (g : Nat → Byte) (key : Option PyStr) : List File → List Line × Option Stop
  | [] => ([], none)
  | F :: Fs =>
    match listFile E c g key F with
    | (ls, some e) => (ls, some e)
    | (ls, none) => (ls ++ (uvlist E c g key Fs).1, (uvlist E c g key Fs).2)

/-! ## The specification -/

/-- the file is a data set that the program `h` wrote -/
def MadeBy (E : Env) (c : Conv) (F : File) (h : List DEv) : Prop :=
  ∃ o q junk bs W n names old g0, Origin E o q junk bs W n names h old ∧ FlagFile W F.mask ∧ directory c g0 h = some F.tree

/-- the keywords of a data set: the header items that were assigned and `vartable`, the variables that were given a value -/
def Keyword (h : List DEv) (k : PyStr) : Prop :=
  k = "vartable".toList.map Char.toNat ∨ (∃ n ∈ itemtable.map (·.1), k = asItem n ∧ ∃ o ∈ itemsOf h, Head.assigns n o ≠ none) ∨
    ∃ nm, k = asPy nm ∧ Named (evsOf h) nm

/-- the value of a keyword when the data set has been opened: that of a variable in the first record, that last assigned to
a header item -/
inductive Value (E : Env) (c : Conv) (h : List DEv) : PyStr → Got → Prop
  | var (nm : Name) (ty : Ty) (tc : Char) (v : PyVal) (d : List Byte) : (∃ d0, Ev.put nm ty d0 ∈ evsOf h ∧ d0 ≠ []) →
      valueAfter (upTo 1 (evsOf h)) nm = some d → encode E.fo tc v = some (ty, d) → Good tc v →
      Value E c h (asPy nm) (.var (shown E.fo tc v))
  | item (n : Hio.Name) (k : Head.Kind) (v : Head.Val) : itype n = some k → n ≠ itVartable →
      Head.lastOf (itemsOf h) n = some (.py v) → Value E c h (asItem n) (.item (Head.shown c k v))

/-- a keyword without a value, and what is raised: a variable that is given its first value after the first record, a
header item that was never assigned, a name that is neither -/
inductive NoValue (h : List DEv) : PyStr → GetErr → Prop
  | later (nm : Name) : Named (evsOf h) nm → valueAfter (upTo 1 (evsOf h)) nm = none → NoValue h (asPy nm) .var
  | unset (n : Hio.Name) (k : Head.Kind) : itype n = some k → n ≠ itVartable → Head.lastOf (itemsOf h) n = none →
      (∀ nm, Named (evsOf h) nm → asPy nm ≠ asItem n) → NoValue h (asItem n) (.item .io)
  | unknown (k : PyStr) : (∀ nm, Named (evsOf h) nm → asPy nm ≠ k) → (∀ q ∈ itemtable, asItem q.1 ≠ k) → NoValue h k .key

/-- keywords joined by commas, as they are given after `-k` -/
def joined : List PyStr → PyStr
  | [] => []
  | [k] => k
  | k :: ks => k ++ 44 :: joined ks

/-- keywords with their values, as they are printed -/
def pairs (ks : List (PyStr × Got)) : List Line := ks.flatMap fun p => [.key p.1, .value p.2]

/-! ## Lemmas -/

theorem split_comma (s : PyStr) (h : 44 ∉ s) (rest : PyStr) : ∀ cur, splitComma cur (s ++ 44 :: rest) = (cur ++ s) :: splitComma [] rest := by
  induction s with
  | nil => intro cur; simp [splitComma]
  | cons a s ih =>
    intro cur
    have ha : a ≠ 44 := fun e => h (by rw [e]; exact List.mem_cons_self)
    rw [List.cons_append, splitComma, if_neg ha, ih (fun hm => h (List.mem_cons_of_mem _ hm)), List.append_assoc]
    rfl

theorem split_end (s : PyStr) (h : 44 ∉ s) : ∀ cur, splitComma cur s = [cur ++ s] := by
  induction s with
  | nil => intro cur; simp [splitComma]
  | cons a s ih =>
    intro cur
    have ha : a ≠ 44 := fun e => h (by rw [e]; exact List.mem_cons_self)
    rw [splitComma, if_neg ha, ih (fun hm => h (List.mem_cons_of_mem _ hm)), List.append_assoc]
    rfl

theorem split_joined : ∀ ks : List PyStr, ks ≠ [] → (∀ k ∈ ks, 44 ∉ k) → splitComma [] (joined ks) = ks
  | [], h, _ => absurd rfl h
  | [k], _, h => by rw [joined, split_end k (h k (by simp))]; rfl
  | k :: l :: ks, _, h => by
    show splitComma [] (k ++ 44 :: joined (l :: ks)) = _
    rw [split_comma k (h k (by simp)), split_joined (l :: ks) (by simp) (fun x hx => h x (List.mem_cons_of_mem _ hx))]
    rfl

theorem print_all {get : PyStr → Except GetErr Got} : ∀ ks : List (PyStr × Got), (∀ p ∈ ks, get p.1 = .ok p.2) →
    printKeys get (ks.map (·.1)) = (pairs ks, none)
  | [], _ => rfl
  | p :: ks, h => by
    rw [List.map_cons, printKeys, h p (by simp)]
    simp only [print_all ks (fun q hq => h q (List.mem_cons_of_mem _ hq))]
    rfl

theorem print_stop {get : PyStr → Except GetErr Got} {x : PyStr} {e : GetErr} (hx : get x = .error e) (rest : List PyStr) :
    ∀ ks : List (PyStr × Got), (∀ p ∈ ks, get p.1 = .ok p.2) →
      printKeys get (ks.map (·.1) ++ x :: rest) = (pairs ks ++ [.key x], some e)
  | [], _ => by
    rw [List.map_nil, List.nil_append, printKeys, hx]
    rfl
  | p :: ks, h => by
    rw [List.map_cons, List.cons_append, printKeys, h p (by simp)]
    simp only [print_stop hx rest ks (fun q hq => h q (List.mem_cons_of_mem _ hq))]
    rfl

theorem asPy_code (nm : Name) : asPy nm = nm.map Char.toNat := rfl

/-- the directory with the object that `UV(uvfile)` makes of it: what is listed, what has a value, what has none -/
theorem opened {E : Env} {c : Conv} {F : File} {h : List DEv} (H : MadeBy E c F h) (g : Nat → Byte) :
    ∃ vt it S n l, pyOpen E c g F.tree F.mask = some (vt, it, S, n) ∧ listItems F.tree g itemtable = .ok l ∧
      l.Nodup ∧ (varNames vt).Nodup ∧ (∀ k ∈ l.map asItem, k ∉ varNames vt) ∧
      (∀ k, k ∈ l.map asItem ++ varNames vt ↔ Keyword h k) ∧
      (∀ k v, Value E c h k v → pyGet E c F.tree g vt S.r k = .ok v) ∧
      ∀ k e, NoValue h k e → pyGet E c F.tree g vt S.r k = .error e := by
  obtain ⟨o, q, junk, bs, W, n, names, old, g0, O, hm, hd⟩ := H
  have hs := written_sessions O.arch.wr
  have hne' : allBlocks (bs.map .block) ≠ [] := by rw [allBlocks_map]; exact O.nonempty
  have hprog := hs.program hne' O.size O.ok O.evs O.flags O.count O.apart
  obtain ⟨t, vt, it, S, d1, d2, _, d4, d5, _⟩ := c101_get c O hm g0 g
  rw [hd, Option.some.injEq] at d1
  subst d1
  obtain ⟨t, e1, e2⟩ := c101_vars c g0 hprog
  rw [hd, Option.some.injEq] at e1
  subst e1
  obtain ⟨vt', a1, a2, a3, a4⟩ := e2 g
  obtain ⟨t, f1, f2⟩ := c101_items c g0 hprog
  rw [hd, Option.some.injEq] at f1
  subst f1
  obtain ⟨l, b1, b2, b3⟩ := f2 g
  obtain ⟨t, vt'', k1, k2, k3, k4⟩ := c101_header E c g0 g hprog S.r
  rw [hd, Option.some.injEq] at k1
  subst k1
  rw [a1, Option.some.injEq] at k2
  subst k2
  have hvt : vt = vt' := by
    unfold pyOpen at d2
    obtain ⟨x, _, d2⟩ := Option.bind_eq_some_iff.1 d2
    obtain ⟨y, hy, d2⟩ := Option.bind_eq_some_iff.1 d2
    rw [a1, Option.some.injEq] at hy
    subst hy
    cases hu : huvread g MAXCHAN x.1 ⟨x.2, 0, F.mask⟩ with
    | mk it' r =>
      rw [hu] at d2
      cases r with
      | ok S1 o1 =>
        simp only [Option.map_eq_some_iff, Prod.mk.injEq] at d2
        obtain ⟨_, _, rfl, _⟩ := d2
        rfl
      | eof _ => cases d2
      | bad => cases d2
  subst hvt
  have hnt : (itemtable.map (·.1)).Nodup := by decide
  have hap : ∀ n ∈ itemtable.map (·.1), ∀ nm, Named (evsOf h) nm → (∃ o ∈ itemsOf h, Head.assigns n o ≠ none) → asPy nm ≠ asItem n := by
    rintro n hn nm hnm ⟨o, ho, hoa⟩ heq
    obtain ⟨ty, ht⟩ := (named_new hprog.run hprog.ok.evs nm).2 hnm
    obtain ⟨x1, x2, _⟩ := hprog.apart _ ht
    obtain ⟨a, ha⟩ := Option.ne_none_iff_exists'.1 hoa
    have := (hprog.ok.named o ho n a ha).1
    rw [← nat_of_name x1] at heq
    exact x2 (by rw [bytes_inj heq]; exact this)
  refine ⟨vt, it, S, n, l, d2, b1, b2.nodup hnt, a2, ?_, ?_, ?_, ?_⟩
  · intro k hk
    obtain ⟨n, hn, rfl⟩ := List.mem_map.1 hk
    rcases (b3 n).1 hn with rfl | ⟨h1, h2⟩
    · intro hv
      obtain ⟨nm, hnm, hN⟩ := (a3 _).1 hv
      obtain ⟨ty, ht⟩ := (named_new hprog.run hprog.ok.evs nm).2 hN
      obtain ⟨x1, x2, _⟩ := hprog.apart _ ht
      rw [← nat_of_name x1] at hnm
      exact x2 (by rw [bytes_inj hnm.symm]; exact hprog.ok.own _ (by decide))
    · intro hv
      obtain ⟨nm, hnm, hN⟩ := (a3 _).1 hv
      exact hap n h1 nm hN h2 hnm.symm
  · intro k
    rw [List.mem_append, a3, List.mem_map]
    unfold Keyword
    have hvn : asItem itVartable = "vartable".toList.map Char.toNat := by decide +kernel
    constructor
    · rintro (⟨n, hn, rfl⟩ | hv)
      · rcases (b3 n).1 hn with rfl | ⟨h1, h2⟩
        · exact Or.inl hvn
        · exact Or.inr (Or.inl ⟨n, h1, rfl, h2⟩)
      · exact Or.inr (Or.inr hv)
    · rintro (rfl | ⟨n, hn, rfl, ho⟩ | hv)
      · exact Or.inl ⟨itVartable, (b3 _).2 (Or.inl rfl), hvn⟩
      · exact Or.inl ⟨n, (b3 n).2 (Or.inr ⟨hn, ho⟩), rfl⟩
      · exact Or.inr hv
  · intro k v hv
    cases hv with
    | var nm ty tc v d h1 h2 h3 h4 => exact d4 nm ty tc v d h1 h2 h3 h4
    | item n k v h1 h2 h3 => exact (k3 n k h1 h2).1 v h3
  · intro k e he
    cases he with
    | later nm h1 h2 => exact d5 nm h1 h2
    | unset n k h1 h2 h3 h4 => exact (k3 n k h1 h2).2 h3 h4
    | unknown k h1 h2 => exact k4 k h1 h2

/-- what has a value is a keyword -/
theorem value_keyword {E : Env} {c : Conv} {h : List DEv} {k : PyStr} {v : Got} (H : Value E c h k v) : Keyword h k := by
  cases H with
  | var nm ty tc v d h1 h2 h3 h4 =>
    obtain ⟨d0, a, b⟩ := h1
    exact Or.inr (Or.inr ⟨nm, rfl, Or.inl ⟨ty, d0, a, b⟩⟩)
  | item n k v h1 h2 h3 =>
    unfold itype at h1
    rw [Option.map_eq_some_iff] at h1
    obtain ⟨q, hq, _⟩ := h1
    have hn : q.1 = n := by simpa using List.find?_some hq
    unfold Head.lastOf at h3
    obtain ⟨o, ho, ha⟩ := List.exists_of_findSome?_eq_some h3
    exact Or.inr (Or.inl ⟨n, hn ▸ List.mem_map_of_mem (List.mem_of_find?_eq_some hq), rfl, o, List.mem_reverse.1 ho, by rw [ha]; simp⟩)

/-! ## The properties -/

/-- **C150.**  What can be printed is listed. -/
theorem c150_listed {E : Env} {c : Conv} {F : File} {h : List DEv} (H : MadeBy E c F h) (g : Nat → Byte) {k : PyStr} {v : Got}
    (hk : Value E c h k v) (hc : 44 ∉ k) : listFile E c g (some k) F = ([.file F.name, .key k, .value v, .rule], none) ∧
      ∃ l, listFile E c g none F = ([.file F.name, .names l, .rule], none) ∧ k ∈ l := by
  obtain ⟨vt, it, S, n, l, h1, h2, _, _, _, h6, h7, _⟩ := opened H g
  refine ⟨?_, l.map asItem ++ varNames vt, by unfold listFile; rw [h1]; simp only [h2], (h6 k).2 (value_keyword hk)⟩
  unfold listFile
  rw [h1]
  simp only [split_end k hc, List.nil_append, printKeys, h7 k v hk]
  rfl

/-- **C150.**  Without `-k` the name of the file and one list are printed.  The list has the header items that were assigned,
`vartable`, and the variables that were given a value, each once; nothing else is in it. -/
theorem c150_list {E : Env} {c : Conv} {F : File} {h : List DEv} (H : MadeBy E c F h) (g : Nat → Byte) :
    ∃ l, listFile E c g none F = ([.file F.name, .names l, .rule], none) ∧ l.Nodup ∧ ∀ k, k ∈ l ↔ Keyword h k := by
  obtain ⟨vt, it, S, n, l, h1, h2, h3, h4, h5, h6, _⟩ := opened H g
  refine ⟨l.map asItem ++ varNames vt, by unfold listFile; rw [h1]; simp only [h2], ?_, h6⟩
  rw [List.nodup_append]
  refine ⟨h3.map fun a b hab => bytes_inj hab, h4, ?_⟩
  rintro a ha b hb rfl
  exact h5 a ha hb

/-- **C150.**  With `-k` every keyword of the list is printed with its value, in the order of the list, when all of them have
values. -/
theorem c150_values {E : Env} {c : Conv} {F : File} {h : List DEv} (H : MadeBy E c F h) (g : Nat → Byte) (ks : List (PyStr × Got))
    (hne : ks ≠ []) (hk : ∀ p ∈ ks, 44 ∉ p.1 ∧ Value E c h p.1 p.2) :
    listFile E c g (some (joined (ks.map (·.1)))) F = (.file F.name :: pairs ks ++ [.rule], none) := by
  obtain ⟨vt, it, S, n, l, h1, _, _, _, _, _, h7, _⟩ := opened H g
  have e := split_joined (ks.map (·.1)) (by simpa using hne) (by
    intro k hkm
    obtain ⟨p, hp, rfl⟩ := List.mem_map.1 hkm
    exact (hk p hp).1)
  unfold listFile
  rw [h1]
  simp only [e]
  rw [print_all ks fun p hp => h7 _ _ (hk p hp).2]

/-- **C150.**  The first keyword without a value ends the script: those before it have been printed, those after it are not,
nor is any other file. -/
theorem c150_stops {E : Env} {c : Conv} {F : File} {h : List DEv} (H : MadeBy E c F h) (g : Nat → Byte) (ks : List (PyStr × Got))
    (hk : ∀ p ∈ ks, 44 ∉ p.1 ∧ Value E c h p.1 p.2) {x : PyStr} {e : GetErr} (hx : NoValue h x e) (hx' : 44 ∉ x) (rest : List PyStr)
    (hr : ∀ k ∈ rest, 44 ∉ k) (Fs : List File) :
    uvlist E c g (some (joined (ks.map (·.1) ++ x :: rest))) (F :: Fs) =
      (.file F.name :: (pairs ks ++ [.key x]), some (.get e)) := by
  obtain ⟨vt, it, S, n, l, h1, _, _, _, _, _, h7, h8⟩ := opened H g
  have he := split_joined (ks.map (·.1) ++ x :: rest) (by simp) (by
    intro k hkm
    rw [List.mem_append, List.mem_cons, List.mem_map] at hkm
    rcases hkm with ⟨p, hp, rfl⟩ | rfl | hkm
    · exact (hk p hp).1
    · exact hx'
    · exact hr k hkm)
  have : listFile E c g (some (joined (ks.map (·.1) ++ x :: rest))) F =
      (.file F.name :: (pairs ks ++ [.key x]), some (.get e)) := by
    unfold listFile
    rw [h1]
    simp only [he]
    rw [print_stop (h8 x e hx) rest ks fun p hp => h7 _ _ (hk p hp).2]
  rw [uvlist, this]

/-- **C150.**  Several files: when all keywords have values in all of them the files are printed one after the other. -/
theorem c150_files {E : Env} {c : Conv} (g : Nat → Byte) (keys : List PyStr) (hne : keys ≠ []) (hc : ∀ k ∈ keys, 44 ∉ k) :
    ∀ (Fs : List (File × (PyStr → Got))), (∀ F ∈ Fs, ∃ h, MadeBy E c F.1 h ∧ ∀ k ∈ keys, Value E c h k (F.2 k)) →
      uvlist E c g (some (joined keys)) (Fs.map (·.1)) =
        (Fs.flatMap fun F => .file F.1.name :: (keys.flatMap fun k => [.key k, .value (F.2 k)]) ++ [.rule], none)
  | [], _ => rfl
  | F :: Fs, hF => by
    obtain ⟨h, H, hv⟩ := hF F (by simp)
    have e := c150_values H g (keys.map fun k => (k, F.2 k)) (by simpa using hne) (by
      intro p hp
      obtain ⟨k, hk, rfl⟩ := List.mem_map.1 hp
      exact ⟨hc k hk, hv k hk⟩)
    rw [List.map_map] at e
    have e1 : ((fun x : PyStr × Got => x.1) ∘ fun k => (k, F.2 k)) = id := rfl
    rw [e1, List.map_id] at e
    rw [List.map_cons, uvlist, e]
    simp only [c150_files g keys hne hc Fs fun G hG => hF G (List.mem_cons_of_mem _ hG), List.flatMap_cons, pairs, List.flatMap_map]

/-! ## Where the script fails -/

/-- two records of two channels; `ra` is assigned between them for the first time -/
def lateSrc : List Block :=
  [⟨[⟨srcName, .byte, [65, 66, 0]⟩], ⟨1, 2, 3, 4, Codes.mkbl 0 1, List.replicate 16 9, [true, false]⟩⟩,
   ⟨[⟨raName, .dble, be64 7⟩], ⟨1, 2, 8, 6, Codes.mkbl 0 2, List.replicate 16 1, [true, true]⟩⟩]

theorem late_archive : ∃ W, writeAll .real lateSrc = some W ∧ Archive demoEnv demoOps demoQuant (fun _ => 0) .real lateSrc W 2 ∧
    ∃ m, FlagFile W m := by
  have hex : ∃ s0 s, openVis .real = some s0 ∧ writeBlocks demoOps demoQuant (fun _ => 0) .real s0 lateSrc = some s ∧
      (table s.w).length ≤ 122 ∧ s.flagOps = [.write 0 [true, false], .write 2 [true, true]] ∧
      (∀ x ∈ table s.w, x ∈ [(nmCorr, Ty.real), (srcName, .byte), (raName, .dble), (nmCoord, .dble), (nmTime, .dble), (nmBl, .real),
        (nmNchan, .int)]) :=
    ⟨_, _, rfl, rfl, by decide +kernel, rfl, by decide +kernel⟩
  obtain ⟨s0, s, h0, h1, h2, h4, h5⟩ := hex
  have hassign : assignAll s [] = some s := by
    cases s
    simp [assignAll, wrun]
  have hbl : ∀ b ∈ lateSrc, BlockOk b := by
    intro b hb
    simp only [lateSrc, List.mem_cons, List.not_mem_nil, or_false] at hb
    rcases hb with rfl | rfl
    · refine ⟨⟨by decide, by decide, by decide, by decide, by decide, by decide, by decide, by decide⟩, ?_, ?_⟩
      · intro p hp
        rw [List.mem_singleton.1 hp]
        exact ⟨by decide, by decide, by simp⟩
      · refine ⟨fun p hp _ => ?_, fun d hd => by simp [lastGiven, nmCoord, srcName] at hd,
          fun d hd => by simp [lastGiven, nmTime, srcName] at hd, fun d hd => by simp [lastGiven, nmBl, srcName] at hd⟩
        rw [List.mem_singleton.1 hp]
        exact ⟨by decide, by decide, by decide⟩
    · refine ⟨⟨by decide, by decide, by decide, by decide, by decide, by decide, by decide, by decide⟩, ?_, ?_⟩
      · intro p hp
        rw [List.mem_singleton.1 hp]
        exact ⟨by decide, by decide, by simp⟩
      · refine ⟨fun p hp _ => ?_, fun d hd => by simp [lastGiven, nmCoord, raName] at hd,
          fun d hd => by simp [lastGiven, nmTime, raName] at hd, fun d hd => by simp [lastGiven, nmBl, raName] at hd⟩
        rw [List.mem_singleton.1 hp]
        exact ⟨by decide, by decide, by decide⟩
  have hall : writeAll .real lateSrc = some s := by
    unfold writeAll
    rw [h0]
    exact h1
  refine ⟨s, hall, ⟨⟨demo_laws, demo_quant, Or.inl rfl, ⟨s0, s, [], h0, h1, hassign, by simp⟩, hbl, ?_, by omega⟩, ?_, by decide, ?_, ?_, ?_,
    ?_, h2⟩, ?_⟩
  · intro b hb
    simp only [lateSrc, List.head?_cons, Option.some.injEq] at hb
    subst hb
    exact ⟨fun _ => by decide, fun _ => by decide, fun _ => by decide⟩
  · intro b hb
    simp only [lateSrc, List.mem_cons, List.not_mem_nil, or_false] at hb
    rcases hb with rfl | rfl <;> rfl
  · intro b hb p hp hn
    simp only [lateSrc, List.mem_cons, List.not_mem_nil, or_false] at hb
    rcases hb with rfl | rfl <;> (rw [List.mem_singleton.1 hp] at hn; exact absurd hn (by decide))
  · intro b hb p hp
    simp only [lateSrc, List.mem_cons, List.not_mem_nil, or_false] at hb
    rcases hb with rfl | rfl <;> (rw [List.mem_singleton.1 hp]; decide)
  · intro b hb
    simp only [lateSrc, List.mem_cons, List.not_mem_nil, or_false] at hb
    rcases hb with rfl | rfl
    · exact ⟨0, 1, by decide, by decide, rfl⟩
    · exact ⟨0, 2, by decide, by decide, rfl⟩
  · intro x hx ty hxt
    have := h5 x hx
    clear hx h5
    revert hxt
    simp only [List.mem_cons, List.not_mem_nil, or_false] at this
    rcases this with rfl | rfl | rfl | rfl | rfl | rfl | rfl <;> cases ty <;> decide
  · have hr : ∃ m, run (mkopen (fun _ => 0) (fun _ => 0) 1) (s.flagOps ++ []) = .ok m := by
      rw [h4]
      exact ⟨_, rfl⟩
    obtain ⟨m, hr⟩ := hr
    exact ⟨m, fun _ => 0, fun _ => 0, 1, [], by simp, hr⟩

/-- the program that writes `lateSrc`, with the items of the example -/
theorem late_made : ∃ F h, MadeBy demoEnv Head.lowConv F h ∧ Named (evsOf h) raName ∧ valueAfter (upTo 1 (evsOf h)) raName = none ∧
    Value demoEnv Head.lowConv h (asPy srcName) (.var (.str [65, 66, 0])) ∧
    Value demoEnv Head.lowConv h (asItem Hio.hist) (.item (.str [104, 105, 10])) := by
  obtain ⟨W, h0, ha, m, hm⟩ := late_archive
  have hfacts : (writeAll .real lateSrc).any (fun W => decide (W.w.offset ≤ 2 ^ 31) && decide (W.flagOff < 2 ^ 63) &&
      ((table W.w).all fun p => decide ((p.1 ≠ [] ∧ ∀ c ∈ p.1, 33 ≤ c.toNat ∧ c.toNat ≤ 126) ∧ nameBytes p.1 ∉ demoItemNames ∧
        nameBytes p.1 ∉ otherFiles)) && decide (Ev.put raName .dble (be64 7) ∈ W.evs) && decide (valueAfter (upTo 1 W.evs) raName = none) &&
      decide (Ev.put srcName .byte [65, 66, 0] ∈ W.evs) && decide (valueAfter (upTo 1 W.evs) srcName = some [65, 66, 0])) = true := by
    decide +kernel
  rw [h0] at hfacts
  simp only [Option.any_some, Bool.and_eq_true, decide_eq_true_eq] at hfacts
  obtain ⟨⟨⟨⟨⟨⟨f1, f2⟩, f3⟩, f4⟩, f5⟩, f6⟩, f7⟩ := hfacts
  have O := demo_origin_of ha (by decide) f1 f2 f3
  obtain ⟨t, _, _, _, d1, _⟩ := c101_get Head.lowConv O hm (fun _ => 0) (fun _ => 0)
  refine ⟨⟨[], t, m⟩, _, ⟨_, _, _, _, _, _, _, _, _, O, hm, d1⟩, ?_, ?_, ?_, ?_⟩
  · exact Or.inl ⟨.dble, be64 7, by rw [O.evs]; exact f4, by decide⟩
  · rw [O.evs]; exact f5
  · exact Value.var srcName .byte 'a' (.str [65, 66]) [65, 66, 0] ⟨[65, 66, 0], by rw [O.evs]; exact f6, by simp⟩
      (by rw [O.evs]; exact f7) rfl (by show 3 ≤ 32768; decide)
  · exact Value.item Hio.hist .text (.str [104, 105, 10]) (by decide) (by decide) O.history

/-- **C150, violated.**  Not everything that is listed can be printed: a variable that got its first value after the first
record is in the list, and asking for it ends the script with an exception, also if other files follow. -/
theorem c150_later_violated : ∃ E c F h k, MadeBy E c F h ∧ Keyword h k ∧ ∀ g Fs,
    (∃ l, listFile E c g none F = ([.file F.name, .names l, .rule], none) ∧ k ∈ l) ∧
    uvlist E c g (some k) (F :: Fs) = ([.file F.name, .key k], some (.get .var)) := by
  obtain ⟨F, h, H, h1, h2, _⟩ := late_made
  have hk : Keyword h (asPy raName) := Or.inr (Or.inr ⟨raName, rfl, h1⟩)
  refine ⟨demoEnv, Head.lowConv, F, h, asPy raName, H, hk, fun g Fs => ⟨?_, ?_⟩⟩
  · obtain ⟨l, e1, _, e2⟩ := c150_list H g
    exact ⟨l, e1, (e2 _).2 hk⟩
  · exact c150_stops H g [] (by simp) (.later raName h1 h2) (by decide) [] (by simp) Fs

/-! ## Concrete cases -/

/-- `-k src,history`, twice for the same data set -/
example : ∃ F h, MadeBy demoEnv Head.lowConv F h ∧ ∀ g, uvlist demoEnv Head.lowConv g (some ("src,history".toList.map Char.toNat)) [F, F] =
    ([.file F.name, .key (asPy srcName), .value (.var (.str [65, 66, 0])), .key (asItem Hio.hist), .value (.item (.str [104, 105, 10])), .rule,
      .file F.name, .key (asPy srcName), .value (.var (.str [65, 66, 0])), .key (asItem Hio.hist), .value (.item (.str [104, 105, 10])),
      .rule], none) := by
  obtain ⟨F, h, H, _, _, h3, h4⟩ := late_made
  refine ⟨F, h, H, fun g => ?_⟩
  have hk : "src,history".toList.map Char.toNat = joined [asPy srcName, asItem Hio.hist] := by decide +kernel
  have hne : asItem Hio.hist ≠ asPy srcName := by decide
  have hF : ∀ G ∈ List.replicate 2 (F, fun k => if k = asPy srcName then Got.var (.str [65, 66, 0]) else .item (.str [104, 105, 10])),
      ∃ h, MadeBy demoEnv Head.lowConv G.1 h ∧ ∀ k ∈ [asPy srcName, asItem Hio.hist], Value demoEnv Head.lowConv h k (G.2 k) := by
    intro G hG
    rw [List.eq_of_mem_replicate hG]
    refine ⟨h, H, fun k hk => ?_⟩
    simp only [List.mem_cons, List.not_mem_nil, or_false] at hk
    rcases hk with rfl | rfl
    · simp only [if_pos]; exact h3
    · simp only [if_neg hne]; exact h4
  have e := c150_files g [asPy srcName, asItem Hio.hist] (by simp) (by decide) _ hF
  rw [hk]
  refine e.trans ?_
  simp [List.replicate, hne]

/-- the list of that data set has `ra`, and asking for `src,ra,history` prints `src` and the word `ra` -/
example : ∃ F h, MadeBy demoEnv Head.lowConv F h ∧ ∀ g,
    uvlist demoEnv Head.lowConv g (some ("src,ra,history".toList.map Char.toNat)) [F] =
      ([.file F.name, .key (asPy srcName), .value (.var (.str [65, 66, 0])), .key (asPy raName)], some (.get .var)) ∧
    ∃ l, listFile demoEnv Head.lowConv g none F = ([.file F.name, .names l, .rule], none) ∧ asPy raName ∈ l ∧ asItem Hio.hist ∈ l := by
  obtain ⟨F, h, H, h1, h2, h3, h4⟩ := late_made
  have hk : "src,ra,history".toList.map Char.toNat = joined [asPy srcName, asPy raName, asItem Hio.hist] := by decide +kernel
  refine ⟨F, h, H, fun g => ⟨?_, ?_⟩⟩
  · rw [hk]
    exact c150_stops H g [(asPy srcName, .var (.str [65, 66, 0]))] (by
      intro p hp
      rw [List.mem_singleton.1 hp]
      exact ⟨by decide, h3⟩) (.later raName h1 h2) (by decide) [asItem Hio.hist] (by decide) []
  · obtain ⟨l, e1, _, e2⟩ := c150_list H g
    refine ⟨l, e1, (e2 _).2 (Or.inr (Or.inr ⟨raName, rfl, h1⟩)), (e2 _).2 (value_keyword h4)⟩

end Verif.Mir.UvList
