import Verif.Util.Text
import Verif.Util.Dict
/-!
# C123: compress_uv.py loses no file

Model of `/repo/scripts/compress_uv.py` 24-39.  A disk is a dictionary from the paths of files to their contents (directories are the
paths that files begin with; empty directories and links are left out); the content of an archive is the list of its members with their
paths.  `os.system` hands a line to the shell, which cuts it at blanks (other characters that are special to a shell are not modelled).
`tar` may fail for reasons of its own (`fails`, by the number of the argument), and then leaves a damaged archive.  Paths are relative to
the directory the script runs in; of the ways to write a path differently only slashes at the end are modelled.
-/
namespace Verif.Misc.Compress
open Verif.Util

abbrev Path := List Char

inductive Content where
  | bytes (n : Nat)
  | arch (ms : List (Path × Content))

abbrev Disk := List (Path × Content)

/-- a path without the slashes at its end -/
def trim (p : Path) : Path := (p.reverse.dropWhile (· == '/')).reverse

/-- the file `f` is at `p` or in the directory `p` -/
def under (p f : Path) : Bool := f == trim p || (trim p ++ ['/']).isPrefixOf f

/-- `os.path.exists` -/
def exists? (p : Path) (d : Disk) : Bool := d.any fun x => under p x.1

/-- `rm -rf` of one path -/
def rm (p : Path) (d : Disk) : Disk := d.filter fun x => !under p x.1

/-- the shell cuts a line at blanks -/
def words (line : List Char) : List Path := (splitOn ' ' line).filter fun w => w != []

/-- `tar jcf OUT IN...`: the disk afterwards and whether the exit code is 0 (all inputs exist); `bad` tells that something else went
wrong.  The archive itself is not one of its members. -/
def tarCreate (bad : Bool) (ws : List Path) (d : Disk) : Disk × Bool :=
  match ws with
  | [] => (d, false)
  | out :: ins =>
    if bad then (dset out (.bytes 0) d, false)
    else
      (dset out (.arch (d.filter fun x => x.1 != out && ins.any fun p => under p x.1)) d,
        ins.all fun p => d.any fun x => x.1 != out && under p x.1)

/-- `tar xjf ARCHIVE`: every member is put at its path -/
def tarExtract (bad : Bool) (ws : List Path) (d : Disk) : Disk × Bool :=
  match ws with
  | [a] => match dget a d with
    | some (.arch ms) => if bad then (d, false) else (ms.foldl (fun d m => dset m.1 m.2 d) d, true)
    | _ => (d, false)
  | _ => (d, false)

/-- `rm -rf` of several paths -/
def rmAll (ws : List Path) (d : Disk) : Disk := ws.foldl (fun d w => rm w d) d

/-- `i + '.tar.bz2'`, compress_uv.py 30 -/
def tarName (i : Path) : Path := i ++ ".tar.bz2".toList

/-- one pass of the loop, compress_uv.py 26-39: the disk and whether the loop goes on -/
def step (expand delete bad : Bool) (i : Path) (d : Disk) : Disk × Bool :=
  if expand then tarExtract bad (words i) d
  else if exists? (tarName i) d then (d, true)
  else
    let r := tarCreate bad (words (tarName i ++ ' ' :: i)) d
    if r.2 then (if delete then rmAll (words i) r.1 else r.1, true)
    else (rmAll (words (tarName i)) r.1, false)

/-- the loop over the arguments, compress_uv.py 24-39; `k` counts them -/
def run (expand delete : Bool) (fails : Nat → Bool) : Nat → List Path → Disk → Disk
  | _, [], d => d
  | k, i :: is, d =>
    if (step expand delete (fails k) i d).2 then run expand delete fails (k + 1) is (step expand delete (fails k) i d).1
    else (step expand delete (fails k) i d).1

/-! ## Specification -/

/-- a name without blanks and without a slash at the end -/
def Plain (i : Path) : Prop := i ≠ [] ∧ ' ' ∉ i ∧ i.getLast? ≠ some '/'

/-- the content `n` of the file `f` is not lost: it is at its place, or in an archive that is not lost itself -/
inductive Kept (d : Disk) : Path → Content → Prop
  | here {f n} : dget f d = some n → Kept d f n
  | packed {f n a ms} : Kept d a (.arch ms) → (f, n) ∈ ms → Kept d f n

/-- `f` is the file `i` or lies in the directory `i` -/
def Within (i f : Path) : Prop := f = i ∨ ∃ r, f = i ++ '/' :: r

/-! ## Lemmas -/

theorem run_cons (expand delete : Bool) (fails : Nat → Bool) (k : Nat) (i : Path) (is : List Path) (d : Disk) :
    run expand delete fails k (i :: is) d =
      if (step expand delete (fails k) i d).2 then run expand delete fails (k + 1) is (step expand delete (fails k) i d).1
      else (step expand delete (fails k) i d).1 := rfl

theorem last_append (a b : List Char) (h : b ≠ []) : (a ++ b).getLast? = b.getLast? := by
  rw [List.getLast?_append]
  cases hb : b.getLast? with
  | none => exact absurd (List.getLast?_eq_none_iff.1 hb) h
  | some c => rfl

theorem trim_plain {i : Path} (h : Plain i) : trim i = i := by
  unfold trim
  have : i.reverse.dropWhile (· == '/') = i.reverse := by
    cases hr : i.reverse with
    | nil => rfl
    | cons c cs =>
      have hc : c ≠ '/' := by
        intro e
        apply h.2.2
        rw [← List.head?_reverse, hr, e]; rfl
      rw [List.dropWhile_cons_of_neg (by simpa using hc)]
  rw [this, List.reverse_reverse]

theorem under_iff {i f : Path} (h : Plain i) : under i f = true ↔ Within i f := by
  unfold under Within
  rw [trim_plain h]
  simp only [Bool.or_eq_true, beq_iff_eq, List.isPrefixOf_iff_prefix]
  constructor
  · rintro (h | ⟨r, h⟩)
    · exact Or.inl h
    · exact Or.inr ⟨r, by rw [← h]; simp⟩
  · rintro (h | ⟨r, h⟩)
    · exact Or.inl h
    · exact Or.inr ⟨r, by rw [h]; simp⟩

theorem words_plain {i : Path} (h : Plain i) : words i = [i] := by
  unfold words
  rw [splitOn_no_sep h.2.1]
  simp [h.1]

theorem words_two {i j : Path} (hi : Plain i) (hj : Plain j) : words (i ++ ' ' :: j) = [i, j] := by
  unfold words
  rw [splitOn_append_sep hi.2.1, splitOn_no_sep hj.2.1]
  simp [hi.1, hj.1]

theorem tarName_plain {i : Path} (h : Plain i) : Plain (tarName i) := by
  refine ⟨by simp [tarName, h.1], ?_, ?_⟩
  · unfold tarName
    rw [List.mem_append, not_or]
    exact ⟨h.2.1, by decide⟩
  · unfold tarName
    rw [last_append _ _ (by decide)]
    decide

theorem tarName_not_within (i : Path) : ¬ Within i (tarName i) := by
  rintro (h | ⟨r, h⟩)
  · have := congrArg List.length h
    simp [tarName] at this
  · unfold tarName at h
    have := List.append_cancel_left h
    have := congrArg List.head? this
    simp at this

theorem dget_filter (q : Path) (P : Path → Bool) (d : Disk) : dget q (d.filter fun x => P x.1) = if P q then dget q d else none := by
  induction d with
  | nil => simp [dget]
  | cons x d ih =>
    by_cases h : P x.1 = true
    · rw [List.filter_cons_of_pos (by simpa using h)]
      by_cases hx : x.1 = q
      · rw [← hx]; simp [dget, h]
      · simp only [dget, hx, if_false, ih]
    · rw [List.filter_cons_of_neg (by simpa using h), ih]
      by_cases hx : x.1 = q
      · have : P q = false := by rw [← hx]; simpa using h
        simp [this]
      · simp [dget, hx]

theorem dget_rm {i : Path} (hi : Plain i) (q : Path) (d : Disk) : (Within i q → dget q (rm i d) = none) ∧ (¬ Within i q → dget q (rm i d) = dget q d) := by
  have := dget_filter q (fun x => !under i x) d
  have e : rm i d = d.filter fun x => !under i x.1 := rfl
  rw [e, this]
  rw [← under_iff hi]
  constructor
  · intro h; simp [h]
  · intro h; simp [h]

theorem exists_false {i : Path} (hi : Plain i) {d : Disk} (h : exists? i d = false) {f : Path} (hf : Within i f) : dget f d = none := by
  rw [dget_none]
  intro hm
  obtain ⟨x, hx, rfl⟩ := List.mem_map.1 hm
  unfold exists? at h
  rw [List.any_eq_false] at h
  exact h x hx ((under_iff hi).2 hf)

/-- the disk after one argument was packed: as before, the archive added -/
theorem create_ok {i : Path} (hi : Plain i) (d : Disk) :
    tarCreate false (words (tarName i ++ ' ' :: i)) d =
      (dset (tarName i) (.arch (d.filter fun x => x.1 != tarName i && under i x.1)) d, d.any fun x => x.1 != tarName i && under i x.1) := by
  rw [words_two (tarName_plain hi) hi]
  simp [tarCreate]

theorem mem_filter_under {i : Path} (hi : Plain i) (d : Disk) (f : Path) (n : Content) :
    (f, n) ∈ d.filter (fun x => x.1 != tarName i && under i x.1) ↔ (f, n) ∈ d ∧ Within i f := by
  rw [List.mem_filter]
  simp only [Bool.and_eq_true, bne_iff_ne, ne_eq, under_iff hi]
  constructor
  · rintro ⟨h1, -, h2⟩; exact ⟨h1, h2⟩
  · rintro ⟨h1, h2⟩; exact ⟨h1, fun e => tarName_not_within i (e ▸ h2), h2⟩

theorem within_refl (i : Path) : Within i i := Or.inl rfl

/-- what the failed branch leaves: every file as it was -/
theorem failed_same {i : Path} (hi : Plain i) {d : Disk} (he : exists? (tarName i) d = false) (c : Content) (f : Path) :
    dget f (rmAll (words (tarName i)) (dset (tarName i) c d)) = dget f d := by
  rw [words_plain (tarName_plain hi)]
  simp only [rmAll, List.foldl_cons, List.foldl_nil]
  by_cases h : Within (tarName i) f
  · rw [(dget_rm (tarName_plain hi) f _).1 h, exists_false (tarName_plain hi) he h]
  · rw [(dget_rm (tarName_plain hi) f _).2 h, dget_dset_ne (fun e => h (by rw [← e]; exact within_refl _))]

theorem create_out {i : Path} (hi : Plain i) (bad : Bool) (d : Disk) : ∃ c, (tarCreate bad (words (tarName i ++ ' ' :: i)) d).1 = dset (tarName i) c d := by
  cases bad with
  | false => exact ⟨_, by rw [create_ok hi]⟩
  | true => exact ⟨.bytes 0, by rw [words_two (tarName_plain hi) hi]; rfl⟩

theorem kept_of_here {d d' : Disk} (h : ∀ f n, dget f d = some n → Kept d' f n) {f : Path} {n : Content} (hk : Kept d f n) : Kept d' f n := by
  induction hk with
  | here hd => exact h _ _ hd
  | packed _ hm ih => exact .packed ih hm

theorem step_kept {i : Path} (hi : Plain i) (delete bad : Bool) (d : Disk) {f : Path} {n : Content} (hk : Kept d f n) :
    Kept (step false delete bad i d).1 f n := by
  unfold step
  simp only [Bool.false_eq_true, if_false]
  cases he : exists? (tarName i) d with
  | true => exact hk
  | false =>
    simp only [Bool.false_eq_true, if_false]
    have hT : dget (tarName i) d = none := exists_false (tarName_plain hi) he (within_refl _)
    cases hr : (tarCreate bad (words (tarName i ++ ' ' :: i)) d).2 with
    | false =>
      obtain ⟨c, hc⟩ := create_out hi bad d
      simp only [Bool.false_eq_true, if_false]
      rw [hc]
      exact kept_of_here (fun f n h => .here (by rw [failed_same hi he]; exact h)) hk
    | true =>
      simp only [if_true]
      have hb : bad = false := by
        cases bad with
        | false => rfl
        | true => rw [words_two (tarName_plain hi) hi] at hr; simp [tarCreate] at hr
      subst hb
      rw [create_ok hi]
      have ne : ∀ {f n}, dget f d = some n → tarName i ≠ f := by rintro f n h rfl; rw [hT] at h; cases h
      cases delete with
      | false =>
        simp only [Bool.false_eq_true, if_false]
        exact kept_of_here (fun f n h => .here (by rw [dget_dset_ne (ne h)]; exact h)) hk
      | true =>
        simp only [if_true]
        rw [words_plain hi]
        simp only [rmAll, List.foldl_cons, List.foldl_nil]
        refine kept_of_here (fun f n h => ?_) hk
        by_cases hw : Within i f
        · refine .packed (a := tarName i) (ms := d.filter fun x => x.1 != tarName i && under i x.1) (.here ?_) ?_
          · rw [(dget_rm hi _ _).2 (tarName_not_within i), dget_dset_self]
          · exact (mem_filter_under hi d f n).2 ⟨dget_mem h, hw⟩
        · exact .here (by rw [(dget_rm hi _ _).2 hw, dget_dset_ne (ne h)]; exact h)

/-- C123: packing loses nothing.  Whatever the arguments (plain names), with or without `-d`, and whichever calls of `tar` fail: every file
that was on the disk is still at its place with its content, or is a member of an archive that is not lost itself. -/
theorem c123_kept_partial (delete : Bool) (fails : Nat → Bool) (args : List Path) (hp : ∀ i ∈ args, Plain i) (d : Disk) (f : Path) (n : Content)
    (hf : dget f d = some n) : Kept (run false delete fails 0 args d) f n := by
  have key : ∀ (args : List Path) (k : Nat) (d : Disk), (∀ i ∈ args, Plain i) → Kept d f n → Kept (run false delete fails k args d) f n := by
    intro args
    induction args with
    | nil => intro k d _ h; exact h
    | cons i is ih =>
      intro k d hp h
      have hs := step_kept (hp i (by simp)) delete (fails k) d h
      unfold run
      split
      · exact ih _ _ (fun j hj => hp j (by simp [hj])) hs
      · exact hs
  exact key args 0 d hp (.here hf)

/-- C123: without `-d` no file changes: archives are added, nothing else. -/
theorem c123_only_adds_partial (fails : Nat → Bool) (args : List Path) (hp : ∀ i ∈ args, Plain i) (d : Disk) (f : Path) (n : Content)
    (hf : dget f d = some n) : dget f (run false false fails 0 args d) = some n := by
  have key : ∀ (args : List Path) (k : Nat) (d : Disk), (∀ i ∈ args, Plain i) → dget f d = some n → dget f (run false false fails k args d) = some n := by
    intro args
    induction args with
    | nil => intro k d _ h; exact h
    | cons i is ih =>
      intro k d hp h
      have hi := hp i (by simp)
      have hs : dget f (step false false (fails k) i d).1 = some n := by
        unfold step
        simp only [Bool.false_eq_true, if_false]
        cases he : exists? (tarName i) d with
        | true => exact h
        | false =>
          simp only [Bool.false_eq_true, if_false]
          have hT : dget (tarName i) d = none := exists_false (tarName_plain hi) he (within_refl _)
          obtain ⟨c, hc⟩ := create_out hi (fails k) d
          rw [hc]
          split
          · rw [dget_dset_ne (fun e => by rw [e, h] at hT; cases hT)]; exact h
          · simp only; rw [failed_same hi he]; exact h
      unfold run
      split
      · exact ih _ _ (fun j hj => hp j (by simp [hj])) hs
      · exact hs
  exact key args 0 d hp hf

/-! ## Packing and unpacking -/

/-- arguments that can be packed one after the other: plain, different, each with a file, none within another, and no archive there yet -/
structure Ready (args : List Path) (d : Disk) : Prop where
  plain : ∀ i ∈ args, Plain i
  apart : args.Pairwise fun i j => ∀ f, Within i f → ¬ Within j f
  archives : ∀ i ∈ args, ∀ j ∈ args, ¬ Within j (i ++ ".tar.bz2".toList) ∧ ¬ Within (i ++ ".tar.bz2".toList) j
  fresh : ∀ i ∈ args, ∀ f, Within (i ++ ".tar.bz2".toList) f → dget f d = none
  there : ∀ i ∈ args, ∃ f n, Within i f ∧ dget f d = some n

theorem exists_of {i : Path} (hi : Plain i) {d : Disk} (h : ∀ f, Within i f → dget f d = none) : exists? i d = false := by
  unfold exists?
  rw [List.any_eq_false]
  intro x hx hu
  have := h x.1 ((under_iff hi).1 hu)
  rw [dget_none] at this
  exact this (List.mem_map_of_mem hx)

theorem step_ready {i : Path} (hi : Plain i) {d : Disk} (hfr : ∀ f, Within (tarName i) f → dget f d = none) (hth : ∃ f n, Within i f ∧ dget f d = some n) :
    step false true false i d =
      (rm i (dset (tarName i) (.arch (d.filter fun x => x.1 != tarName i && under i x.1)) d), true) := by
  unfold step
  simp only [Bool.false_eq_true, if_false]
  rw [exists_of (tarName_plain hi) hfr, create_ok hi, words_plain hi]
  have : (d.any fun x => x.1 != tarName i && under i x.1) = true := by
    obtain ⟨f, n, h1, h2⟩ := hth
    rw [List.any_eq_true]
    refine ⟨(f, n), dget_mem h2, ?_⟩
    simp only [Bool.and_eq_true, bne_iff_ne, ne_eq, under_iff hi]
    exact ⟨fun e => tarName_not_within i (e ▸ h1), h1⟩
  simp [this, rmAll]

theorem nodup_filter {d : Disk} (h : (d.map Prod.fst).Nodup) (P : Path × Content → Bool) : ((d.filter P).map Prod.fst).Nodup :=
  h.sublist (List.filter_sublist.map _)

/-- after packing: the archives hold what was within the arguments, the arguments are gone, the rest is as before -/
theorem pack_all (args : List Path) : ∀ (k : Nat) (d : Disk), Ready args d → (d.map Prod.fst).Nodup →
    (∀ i ∈ args, ∃ ms, dget (tarName i) (run false true (fun _ => false) k args d) = some (.arch ms) ∧
      ∀ f n, (f, n) ∈ ms ↔ Within i f ∧ dget f d = some n) ∧
    (∀ f, (∀ i ∈ args, f ≠ tarName i ∧ ¬ Within i f) → dget f (run false true (fun _ => false) k args d) = dget f d) ∧
    (∀ f, (∃ i ∈ args, Within i f) → dget f (run false true (fun _ => false) k args d) = none) := by
  induction args with
  | nil => intro k d _ _; simp [run]
  | cons i is ih =>
    intro k d hr hd
    have hi := hr.plain i (by simp)
    have hs := step_ready hi (hr.fresh i (by simp)) (hr.there i (by simp))
    have e : run false true (fun _ => false) k (i :: is) d = run false true (fun _ => false) (k + 1) is (step false true false i d).1 := by
      rw [run_cons, if_pos (by rw [hs])]
    rw [e, hs]
    generalize hd1 : rm i (dset (tarName i) (.arch (d.filter fun x => x.1 != tarName i && under i x.1)) d) = d1
    have g1 : ∀ f, f ≠ tarName i → ¬ Within i f → dget f d1 = dget f d := by
      intro f h1 h2
      rw [← hd1, (dget_rm hi _ _).2 h2, dget_dset_ne (Ne.symm h1)]
    have g2 : ∀ f, Within i f → dget f d1 = none := by
      intro f h
      rw [← hd1, (dget_rm hi _ _).1 h]
    have g3 : dget (tarName i) d1 = some (.arch (d.filter fun x => x.1 != tarName i && under i x.1)) := by
      rw [← hd1, (dget_rm hi _ _).2 (tarName_not_within i), dget_dset_self]
    have hp := List.pairwise_cons.1 hr.apart
    have apart : ∀ j ∈ is, ∀ f, Within j f → f ≠ tarName i ∧ ¬ Within i f := by
      intro j hj f hf
      exact ⟨fun e => (hr.archives i (by simp) j (by simp [hj])).1 (by rw [e] at hf; exact hf), fun h => hp.1 j hj f h hf⟩
    have nd : (d1.map Prod.fst).Nodup := by
      rw [← hd1]
      exact nodup_filter (nodup_dset _ _ _ hd) _
    have fresh_ne : ∀ j ∈ is, ∀ f, Within (tarName j) f → f ≠ tarName i ∧ ¬ Within i f := by
      intro j hj f hf
      constructor
      · intro e
        rw [e] at hf
        rcases hf with h | ⟨r, h⟩
        · have : i = j := by simpa [tarName] using h
          subst this
          exact hp.1 i hj i (within_refl i) (within_refl i)
        · -- the archive of `i` would lie in the archive of `j`: then its name has a slash after that of `j`
          have hj' := (hr.archives j (by simp [hj]) i (by simp)).2
          have : Within (tarName j) i ∨ ∃ t, t <:+ ".tar.bz2".toList ∧ '/' ∈ t := by
            have hpre : tarName j ++ ['/'] <+: i ++ ".tar.bz2".toList := ⟨r, by rw [show i ++ ".tar.bz2".toList = tarName i from rfl, h]; simp⟩
            rcases List.prefix_or_prefix_of_prefix hpre (List.prefix_append i _) with ⟨t, ht⟩ | ⟨t, ht⟩
            · left; exact Or.inr ⟨t, by rw [← ht]; simp⟩
            · right
              obtain ⟨q, hq⟩ := hpre
              rw [← ht, List.append_assoc] at hq
              cases t with
              | nil =>
                exfalso
                apply (hr.plain i (by simp)).2.2
                rw [List.append_nil] at ht
                rw [ht]; simp
              | cons c cs =>
                have hc := List.append_cancel_left hq
                refine ⟨(c :: cs) ++ q, by rw [hc]; exact List.suffix_refl _, ?_⟩
                have h3 := congrArg List.getLast? ht
                rw [last_append _ _ (by simp)] at h3
                have : (c :: cs).getLast? = some '/' := by rw [h3]; simp
                exact List.mem_append_left _ (List.mem_of_getLast? this)
          rcases this with h | ⟨t, h1, h2⟩
          · exact hj' h
          · exact absurd (h1.subset h2) (by decide)
      · intro h
        rcases hf with rfl | ⟨r, rfl⟩
        · exact (hr.archives j (by simp [hj]) i (by simp)).1 h
        · have hji := (hr.archives j (by simp [hj]) i (by simp))
          rcases h with h | ⟨r', h⟩
          · exact hji.2 (Or.inr ⟨r, h.symm⟩)
          · rcases List.append_eq_append_iff.1 h with ⟨t, h1, h2⟩ | ⟨t, h1, h2⟩
            · cases t with
              | nil => rw [List.append_nil] at h1; exact hji.2 (Or.inl h1)
              | cons c cs =>
                have : c = '/' := by simpa using (congrArg List.head? h2).symm
                subst this
                exact hji.2 (Or.inr ⟨cs, h1⟩)
            · cases t with
              | nil => rw [List.append_nil] at h1; exact hji.2 (Or.inl h1.symm)
              | cons c cs =>
                have : c = '/' := by simpa using (congrArg List.head? h2).symm
                subst this
                exact hji.1 (Or.inr ⟨cs, h1⟩)
    have hr1 : Ready is d1 := {
      plain := fun j hj => hr.plain j (by simp [hj])
      apart := hp.2
      archives := fun a ha b hb => hr.archives a (by simp [ha]) b (by simp [hb])
      fresh := fun j hj f hf => by
        have := fresh_ne j hj f hf
        rw [g1 f this.1 this.2]
        exact hr.fresh j (by simp [hj]) f hf
      there := fun j hj => by
        obtain ⟨f, n, h1, h2⟩ := hr.there j (by simp [hj])
        have := apart j hj f h1
        exact ⟨f, n, h1, by rw [g1 f this.1 this.2]; exact h2⟩ }
    obtain ⟨k1, k2, k3⟩ := ih (k + 1) d1 hr1 nd
    refine ⟨fun j hj => ?_, fun f hf => ?_, fun f hf => ?_⟩
    · rcases List.mem_cons.1 hj with rfl | hj
      · refine ⟨d.filter fun x => x.1 != tarName j && under j x.1, ?_, fun f n => ?_⟩
        · rw [k2 _ (fun a ha => ⟨fun e => ?_, ?_⟩), g3]
          · exact (fresh_ne a ha _ (Or.inl e)).1 rfl
          · exact (hr.archives j (by simp) a (by simp [ha])).1
        · rw [mem_filter_under hi]
          constructor
          · rintro ⟨h1, h2⟩; exact ⟨h2, dget_of_mem hd h1⟩
          · rintro ⟨h1, h2⟩; exact ⟨dget_mem h2, h1⟩
      · obtain ⟨ms, h1, h2⟩ := k1 j hj
        refine ⟨ms, h1, fun f n => ?_⟩
        rw [h2]
        constructor
        · rintro ⟨a, b⟩
          have := apart j hj f a
          exact ⟨a, by rw [← g1 f this.1 this.2]; exact b⟩
        · rintro ⟨a, b⟩
          have := apart j hj f a
          exact ⟨a, by rw [g1 f this.1 this.2]; exact b⟩
    · rw [k2 f (fun a ha => hf a (by simp [ha])), g1 f (hf i (by simp)).1 (hf i (by simp)).2]
    · obtain ⟨j, hj, hw⟩ := hf
      rcases List.mem_cons.1 hj with rfl | hj
      · rw [k2 f, g2 f hw]
        intro a ha
        refine ⟨fun e => ?_, fun h => hp.1 a ha f hw h⟩
        rw [e] at hw
        exact (hr.archives a (by simp [ha]) j (by simp)).1 hw
      · exact k3 f ⟨j, hj, hw⟩

theorem dget_members (ms : List (Path × Content)) : ∀ (d : Disk) (g : Path → Option Content), (∀ f n, (f, n) ∈ ms → g f = some n) → ∀ f,
    (dget f d = g f → dget f (ms.foldl (fun d m => dset m.1 m.2 d) d) = g f) ∧
    (∀ n, (f, n) ∈ ms → dget f (ms.foldl (fun d m => dset m.1 m.2 d) d) = g f) ∧
    ((∀ n, (f, n) ∉ ms) → dget f (ms.foldl (fun d m => dset m.1 m.2 d) d) = dget f d) := by
  induction ms with
  | nil => intro d g _ f; simp
  | cons m ms ih =>
    intro d g hg f
    have := ih (dset m.1 m.2 d) g (fun f n h => hg f n (by simp [h])) f
    rw [List.foldl_cons]
    have hm : g m.1 = some m.2 := hg m.1 m.2 (by simp)
    refine ⟨fun h => this.1 ?_, fun n hn => ?_, fun h => ?_⟩
    · by_cases he : m.1 = f
      · rw [← he, dget_dset_self, hm]
      · rw [dget_dset_ne he]; exact h
    · rcases List.mem_cons.1 hn with h | h
      · apply this.1
        have : m.1 = f := by rw [← h]
        rw [← this, dget_dset_self, hm]
      · exact this.2.1 n h
    · rw [this.2.2 (fun n hn => h n (by simp [hn]))]
      exact dget_dset_ne (fun e => h m.2 (by rw [← e]; simp)) _ _

theorem unpack_all (args : List Path) (hp : ∀ i ∈ args, Plain i) (mem : Path → Path → Content → Prop) (g : Path → Option Content)
    (hm : ∀ i f n, mem i f n → g f = some n) (hT : ∀ i ∈ args, ∀ j ∈ args, ∀ n, ¬ mem i (tarName j) n) :
    ∀ (todo : List Path), (∀ i ∈ todo, i ∈ args) → ∀ (k : Nat) (D : Disk),
    (∀ i ∈ args, ∃ ms, dget (tarName i) D = some (.arch ms) ∧ ∀ f n, (f, n) ∈ ms ↔ mem i f n) → ∀ f,
    (dget f D = g f → dget f (run true false (fun _ => false) k (todo.map tarName) D) = g f) ∧
    (∀ i ∈ todo, ∀ n, mem i f n → dget f (run true false (fun _ => false) k (todo.map tarName) D) = g f) ∧
    ((∀ i ∈ todo, ∀ n, ¬ mem i f n) → dget f (run true false (fun _ => false) k (todo.map tarName) D) = dget f D) := by
  intro todo
  induction todo with
  | nil => intro _ k D _ f; simp [run]
  | cons i is ih =>
    intro ht k D hD f
    have hia := ht i (by simp)
    obtain ⟨ms, h1, h2⟩ := hD i hia
    have hs : step true false false (tarName i) D = (ms.foldl (fun d m => dset m.1 m.2 d) D, true) := by
      unfold step
      rw [if_pos rfl, words_plain (tarName_plain (hp i hia))]
      simp [tarExtract, h1]
    have e : run true false (fun _ => false) k ((i :: is).map tarName) D =
        run true false (fun _ => false) (k + 1) (is.map tarName) (ms.foldl (fun d m => dset m.1 m.2 d) D) := by
      rw [List.map_cons, run_cons, hs]; rfl
    rw [e]
    have hms : ∀ f n, (f, n) ∈ ms → g f = some n := fun f n h => hm i f n ((h2 f n).1 h)
    have hD' : ∀ j ∈ args, ∃ ms', dget (tarName j) (ms.foldl (fun d m => dset m.1 m.2 d) D) = some (.arch ms') ∧ ∀ f n, (f, n) ∈ ms' ↔ mem j f n := by
      intro j hj
      obtain ⟨ms', h3, h4⟩ := hD j hj
      refine ⟨ms', ?_, h4⟩
      rw [(dget_members ms D g hms (tarName j)).2.2 (fun n hn => hT i hia j hj n ((h2 _ _).1 hn)), h3]
    have I := ih (fun j hj => ht j (by simp [hj])) (k + 1) _ hD' f
    have M := dget_members ms D g hms f
    refine ⟨fun h => I.1 (M.1 h), fun j hj n hn => ?_, fun h => ?_⟩
    · rcases List.mem_cons.1 hj with rfl | hj
      · exact I.1 (M.2.1 n ((h2 f n).2 hn))
      · exact I.2.1 j hj n hn
    · rw [I.2.2 (fun j hj n => h j (by simp [hj]) n), M.2.2 (fun n hn => h i (by simp) n ((h2 f n).1 hn))]

/-- C123: `compress_uv.py -d A B ...` followed by `compress_uv.py -x A.tar.bz2 B.tar.bz2 ...` gives every file back, content and all; between
the two the files are gone from their places. -/
theorem c123_roundtrip_partial (args : List Path) (d : Disk) (hr : Ready args d) (hd : (d.map Prod.fst).Nodup) :
    let packed := run false true (fun _ => false) 0 args d
    let back := run true false (fun _ => false) 0 (args.map fun i => i ++ ".tar.bz2".toList) packed
    (∀ f, (∃ i ∈ args, Within i f) → dget f packed = none) ∧
    ∀ f, (∀ i ∈ args, f ≠ i ++ ".tar.bz2".toList) → dget f back = dget f d := by
  intro packed back
  obtain ⟨k1, k2, k3⟩ := pack_all args 0 d hr hd
  refine ⟨k3, fun f hf => ?_⟩
  have U := unpack_all args hr.plain (fun i f n => Within i f ∧ dget f d = some n) (fun f => dget f d) (fun i f n h => h.2)
    (fun i hi j hj n h => (hr.archives j hj i hi).1 h.1) args (fun i hi => hi) 0 packed k1 f
  by_cases hw : ∃ i ∈ args, Within i f
  · cases hc : dget f d with
    | none =>
      have := U.1 ((k3 f hw).trans hc.symm)
      exact this.trans hc
    | some n =>
      obtain ⟨i, hi, hwi⟩ := hw
      exact (U.2.1 i hi n ⟨hwi, hc⟩).trans hc
  · apply U.1
    exact k2 f (fun i hi => ⟨hf i hi, fun h => hw ⟨i, hi, h⟩⟩)

/-- C123: when `tar` fails the loop ends: the disk is as it was before that argument, and the arguments after it are not touched. -/
theorem c123_stops (delete : Bool) (fails : Nat → Bool) (before : List Path) (i : Path) (rest : List Path) (hi : Plain i) (d : Disk)
    (hb : fails before.length = true) (hok : ∀ j ∈ before, exists? (tarName j) d = true)
    (hfr : ∀ f, Within (i ++ ".tar.bz2".toList) f → dget f d = none) (f : Path) :
    dget f (run false delete fails 0 (before ++ i :: rest) d) = dget f d := by
  have skip : ∀ (before : List Path) (k : Nat), (∀ j ∈ before, exists? (tarName j) d = true) →
      run false delete fails k (before ++ i :: rest) d = run false delete fails (k + before.length) (i :: rest) d := by
    intro before
    induction before with
    | nil => intro k _; rfl
    | cons j js ih =>
      intro k h
      have hs : step false delete (fails k) j d = (d, true) := by
        unfold step
        simp [h j (by simp)]
      rw [List.cons_append, run_cons, hs, if_pos rfl, ih (k + 1) (fun a ha => h a (by simp [ha])), List.length_cons]
      congr 1
      omega
  rw [skip before 0 hok, Nat.zero_add]
  have he := exists_of (tarName_plain hi) hfr
  have hc : tarCreate true (words (tarName i ++ ' ' :: i)) d = (dset (tarName i) (.bytes 0) d, false) := by
    rw [words_two (tarName_plain hi) hi]; rfl
  have hs : step false delete true i d = (rmAll (words (tarName i)) (dset (tarName i) (.bytes 0) d), false) := by
    unfold step
    simp [he, hc]
  unfold run
  rw [hb, hs]
  exact failed_same hi he _ f

/-- C123: a name with a blank.  The shell sees two names: `tar` writes its archive over the first, which is no argument of the script, fails
because there is no file named like the second with the suffix, and the script then removes the first: the file is lost. -/
theorem c123_blank_violated (delete : Bool) (a b : Path) (ha : Plain a) (hb : Plain b) (d : Disk) (n : Content) (_hf : dget a d = some n)
    (hno : ∀ f, Within (b ++ ".tar.bz2".toList) f → dget f d = none) (hex : exists? (tarName (a ++ ' ' :: b)) d = false) :
    dget a (run false delete (fun _ => false) 0 [a ++ ' ' :: b] d) = none := by
  have e1 : tarName (a ++ ' ' :: b) = a ++ ' ' :: tarName b := by simp [tarName]
  have w1 : words (tarName (a ++ ' ' :: b) ++ ' ' :: (a ++ ' ' :: b)) = [a, tarName b, a, b] := by
    rw [e1]
    unfold words
    have : a ++ ' ' :: tarName b ++ ' ' :: (a ++ ' ' :: b) = a ++ ' ' :: (tarName b ++ ' ' :: (a ++ ' ' :: b)) := by simp
    rw [this, splitOn_append_sep ha.2.1, splitOn_append_sep (tarName_plain hb).2.1, splitOn_append_sep ha.2.1, splitOn_no_sep hb.2.1]
    simp [ha.1, hb.1, (tarName_plain hb).1]
  have w2 : words (tarName (a ++ ' ' :: b)) = [a, tarName b] := by rw [e1]; exact words_two ha (tarName_plain hb)
  have hc : (tarCreate false (words (tarName (a ++ ' ' :: b) ++ ' ' :: (a ++ ' ' :: b))) d).2 = false := by
    rw [w1]
    have : (d.any fun x => x.1 != a && under (tarName b) x.1) = false := by
      rw [List.any_eq_false]
      intro x hx h
      simp only [Bool.and_eq_true, under_iff (tarName_plain hb)] at h
      have := hno x.1 h.2
      rw [dget_none] at this
      exact this (List.mem_map_of_mem hx)
    simp [tarCreate, this]
  have hs : step false delete false (a ++ ' ' :: b) d = (rmAll [a, tarName b] (tarCreate false (words (tarName (a ++ ' ' :: b) ++ ' ' :: (a ++ ' ' :: b))) d).1, false) := by
    unfold step
    simp only [Bool.false_eq_true, if_false, hex, hc, w2]
  unfold run
  rw [hs]
  simp only [Bool.false_eq_true, if_false, rmAll, List.foldl_cons, List.foldl_nil]
  by_cases h : Within (tarName b) a
  · exact (dget_rm (tarName_plain hb) _ _).1 h
  · rw [(dget_rm (tarName_plain hb) _ _).2 h]
    exact (dget_rm ha _ _).1 (within_refl a)

/-- C123: a directory written with a slash at its end, as a shell completes it.  The archive is put into the directory; if `tar` succeeds,
`-d` removes the directory and the archive with it, and nothing is left. -/
theorem c123_slash_violated (i : Path) (hi : Plain i) (d : Disk) (hdir : ∃ r n, dget (i ++ '/' :: r) d = some n)
    (hex : exists? (tarName (i ++ ['/'])) d = false) (f : Path) (hf : Within i f) :
    dget f (run false true (fun _ => false) 0 [i ++ ['/']] d) = none := by
  have hps : ' ' ∉ i ++ ['/'] := by
    rw [List.mem_append, not_or]; exact ⟨hi.2.1, by decide⟩
  have hT : Plain (tarName (i ++ ['/'])) := by
    refine ⟨by simp [tarName], ?_, ?_⟩
    · unfold tarName
      rw [List.mem_append, not_or]
      exact ⟨hps, by decide⟩
    · unfold tarName
      rw [last_append _ _ (by decide)]
      decide
  have w1 : words (tarName (i ++ ['/']) ++ ' ' :: (i ++ ['/'])) = [tarName (i ++ ['/']), i ++ ['/']] := by
    unfold words
    rw [splitOn_append_sep hT.2.1, splitOn_no_sep hps]
    simp [hT.1]
  have w2 : words (i ++ ['/']) = [i ++ ['/']] := by
    unfold words
    rw [splitOn_no_sep hps]
    simp
  have ht : trim (i ++ ['/']) = i := by
    have := trim_plain hi
    unfold trim at this ⊢
    rw [List.reverse_append]
    simpa using this
  have hu : ∀ f, under (i ++ ['/']) f = under i f := by
    intro f
    unfold under
    rw [ht, trim_plain hi]
  have hc : (tarCreate false (words (tarName (i ++ ['/']) ++ ' ' :: (i ++ ['/']))) d).2 = true := by
    rw [w1]
    obtain ⟨r, n, h⟩ := hdir
    have : (d.any fun x => x.1 != tarName (i ++ ['/']) && under (i ++ ['/']) x.1) = true := by
      rw [List.any_eq_true]
      refine ⟨_, dget_mem h, ?_⟩
      simp only [Bool.and_eq_true, bne_iff_ne, ne_eq, hu, under_iff hi]
      refine ⟨fun e => ?_, Or.inr ⟨r, rfl⟩⟩
      have := exists_false hT hex (within_refl _)
      rw [← e, h] at this
      cases this
    simpa [tarCreate] using this
  have hs : step false true false (i ++ ['/']) d = (rmAll [i ++ ['/']] (tarCreate false (words (tarName (i ++ ['/']) ++ ' ' :: (i ++ ['/']))) d).1, true) := by
    unfold step
    simp only [Bool.false_eq_true, if_false, hex, hc, w2, if_true]
  unfold run
  rw [hs]
  simp only [if_true, run, rmAll, List.foldl_cons, List.foldl_nil]
  have : ∀ D : Disk, rm (i ++ ['/']) D = rm i D := by
    intro D
    unfold rm
    congr 1
    funext x
    rw [hu]
  rw [this]
  exact (dget_rm hi _ _).1 hf

/-! ## Non-vacuity -/

def demo : Disk := [("a.uv/visdata".toList, .bytes 1), ("a.uv/flags".toList, .bytes 2), ("b.uv/visdata".toList, .bytes 3), ("notes".toList, .bytes 4)]

example : Plain "a.uv".toList ∧ Plain "b.uv".toList := by refine ⟨⟨?_, ?_, ?_⟩, ⟨?_, ?_, ?_⟩⟩ <;> decide
example : Ready ["a.uv".toList, "b.uv".toList] demo := by
  have pa : Plain "a.uv".toList := by refine ⟨?_, ?_, ?_⟩ <;> decide
  have pb : Plain "b.uv".toList := by refine ⟨?_, ?_, ?_⟩ <;> decide
  have fr : ∀ i, Plain i → exists? (tarName i) demo = false → ∀ f, Within (tarName i) f → dget f demo = none :=
    fun i h1 h2 f h3 => exists_false (tarName_plain h1) h2 h3
  have nw : ∀ {i f}, Plain i → under i f = false → ¬ Within i f := fun h1 h2 h3 => by rw [← under_iff h1, h2] at h3; cases h3
  refine ⟨?_, ?_, ?_, ?_, ?_⟩
  · simp only [List.mem_cons, List.not_mem_nil, or_false]; rintro i (rfl | rfl) <;> assumption
  · simp only [List.pairwise_cons, List.mem_cons, List.not_mem_nil, or_false, List.Pairwise.nil, and_true, false_imp_iff, implies_true]
    rintro j rfl f (rfl | ⟨r, rfl⟩)
    · exact nw pb (by decide)
    · rintro (h | ⟨q, h⟩) <;> simp at h
  · simp only [List.mem_cons, List.not_mem_nil, or_false]
    rintro i (rfl | rfl) j (rfl | rfl)
    · exact ⟨nw pa (by decide), nw (tarName_plain pa) (by decide)⟩
    · exact ⟨nw pb (by decide), nw (tarName_plain pa) (by decide)⟩
    · exact ⟨nw pa (by decide), nw (tarName_plain pb) (by decide)⟩
    · exact ⟨nw pb (by decide), nw (tarName_plain pb) (by decide)⟩
  · simp only [List.mem_cons, List.not_mem_nil, or_false]
    rintro i (rfl | rfl)
    · exact fr _ pa (by decide +kernel)
    · exact fr _ pb (by decide +kernel)
  · simp only [List.mem_cons, List.not_mem_nil, or_false]
    rintro i (rfl | rfl)
    · exact ⟨"a.uv/flags".toList, .bytes 2, Or.inr ⟨"flags".toList, by decide⟩, by simp [demo, dget]⟩
    · exact ⟨"b.uv/visdata".toList, .bytes 3, Or.inr ⟨"visdata".toList, by decide⟩, by simp [demo, dget]⟩
example : (dget "a.uv.tar.bz2".toList (run false true (fun _ => false) 0 ["a.uv".toList, "b.uv".toList] demo)).isSome = true := by decide +kernel
example : (dget "a.uv/flags".toList (run false true (fun _ => false) 0 ["a.uv".toList, "b.uv".toList] demo)).isSome = false := by decide +kernel
example : (run false true (fun _ => false) 0 ["a.uv/".toList] demo).map Prod.fst = ["b.uv/visdata".toList, "notes".toList] := by decide +kernel
example : (run false true (fun _ => false) 0 ["notes 1".toList] demo).map Prod.fst = ["a.uv/visdata".toList, "a.uv/flags".toList, "b.uv/visdata".toList] := by decide +kernel

end Verif.Misc.Compress
