import Verif.Mir.UvAppend

/-!
# Property C71 : the item `obstype`

`uvwrite_c` notes whether baselines of one antenna or of two are written (`UVF_AUTO`, `UVF_CROSS`), `uvflush_c` writes the
item `obstype` accordingly and `uvopen_c(.., "append")` reads it.
-/
namespace Verif.Mir.Uv

open Verif.Mir.Hio (Byte)

/-! ## Model -/

/-- the item `obstype` -/
inductive ObsItem
  | absent
  | auto
  | cross
  | mixed
  deriving DecidableEq, Repr

/-- `UVF_AUTO` and `UVF_CROSS` -/
structure Obs where
  auto : Bool
  cross : Bool
  deriving DecidableEq, Repr

/-- `uvflush_c`, uvio.c 911-916: without either of the flags the item is left as it is -/
def closeObs (old : ObsItem) (b : Obs) : ObsItem :=
  if b.auto && b.cross then .mixed else if b.auto then .auto else if b.cross then .cross else old

/-- `uvopen_c(.., "append")`, uvio.c 815-817 -/
def openObs : ObsItem → Obs
  | .auto => ⟨true, false⟩
  | .cross => ⟨false, true⟩
  | _ => ⟨false, false⟩

/-- the end of `uvwrite_c`, uvio.c 2121-2127: the flags are set where a baseline is written.  `isAuto` stands for
`uvbasant_c` and `i1 == i2`; `c` is the cache before the call. -/
def noteBl (isAuto : Nat → Bool) (o : FpOps) (c : Cache) (v : Vis) (b : Obs) : Obs :=
  if o.feq v.bl c.bl then b
  else if isAuto v.bl then { b with auto := true } else { b with cross := true }

/-- a data set that is written, the flags and the item on disk -/
structure ObsW where
  s : VisW
  obs : Obs
  item : ObsItem

/-- the calls of `Act`, with the flags -/
def obsAct (isAuto : Nat → Bool) (o : FpOps) (q : Quant) (junk : Nat → Nat) (x : ObsW) : Act → Option ObsW
  | .block b =>
    match assignAll x.s b.users, writeAct o q junk x.s (.block b) with
    | some s1, some s2 => some ⟨s2, noteBl isAuto o (theCache o junk s1 b.vis) b.vis x.obs, x.item⟩
    | _, _ => none
  | .append us m g =>
    (writeAct o q junk x.s (.append us m g)).map fun s2 =>
      ⟨s2, openObs (closeObs x.item x.obs), closeObs x.item x.obs⟩

def obsActs (isAuto : Nat → Bool) (o : FpOps) (q : Quant) (junk : Nat → Nat) : ObsW → List Act → Option ObsW
  | x, [] => some x
  | x, a :: as => (obsAct isAuto o q junk x a).bind fun x1 => obsActs isAuto o q junk x1 as

/-- the item after the data set is closed -/
def obstype (isAuto : Nat → Bool) (o : FpOps) (q : Quant) (junk : Nat → Nat) (mode : Ty) (as : List Act) : Option ObsItem :=
  ((openVis mode).bind fun s => obsActs isAuto o q junk ⟨s, ⟨false, false⟩, .absent⟩ as).map
    fun x => closeObs x.item x.obs

/-! ## Specification -/

/-- what the visibilities are -/
def kindOf (isAuto : Nat → Bool) (bs : List Block) : ObsItem :=
  let a := bs.any fun b => isAuto b.vis.bl
  let c := bs.any fun b => !isAuto b.vis.bl
  if a && c then .mixed else if a then .auto else if c then .cross else .absent

/-- the first block of a session does not assign `baseline`, and its baseline is not the number that stands for "not
written yet" -/
def FreshBl (o : FpOps) : Bool → List Act → Prop
  | _, [] => True
  | first, .block b :: as =>
    (first = true → ¬ Sets b.users nmBl ∧ o.feq b.vis.bl (o.bl1000 b.vis.time) = false) ∧ FreshBl o false as
  | _, .append _ _ _ :: as => FreshBl o true as

/-- when it is appended to, the data set does not have both kinds of baselines -/
def NotMixed (isAuto : Nat → Bool) : List Block → List Act → Prop
  | _, [] => True
  | bs, .block b :: as => NotMixed isAuto (bs ++ [b]) as
  | bs, .append _ _ _ :: as => kindOf isAuto bs ≠ .mixed ∧ NotMixed isAuto bs as

/-! ## Proof -/

/-- the flags say what there is -/
structure Noted (isAuto : Nat → Bool) (o : FpOps) (first : Bool) (bs : List Block) (x : ObsW) : Prop where
  auto : x.obs.auto = bs.any fun b => isAuto b.vis.bl
  cross : x.obs.cross = bs.any fun b => !isAuto b.vis.bl
  item : bs = [] → x.item = .absent
  cold : first = true → x.s.cache = none ∧ bufOf x.s.w nmBl = none
  hot : first = false → ∃ c b, x.s.cache = some c ∧ b ∈ bs ∧ isAuto c.bl = isAuto b.vis.bl

theorem close_kind {isAuto : Nat → Bool} {o : FpOps} {first : Bool} {bs : List Block} {x : ObsW}
    (h : Noted isAuto o first bs x) : closeObs x.item x.obs = kindOf isAuto bs := by
  unfold closeObs kindOf
  rw [h.auto, h.cross]
  cases bs with
  | nil => simp [h.item rfl]
  | cons b bs => cases hb : isAuto b.vis.bl <;> simp [hb]

theorem noted_block {isAuto : Nat → Bool} {o : FpOps} {q : Quant} {junk : Nat → Nat}
    (hk : ∀ a b, o.feq a b = true → isAuto a = isAuto b) {first : Bool} {bs : List Block} {b : Block} {x x2 : ObsW}
    (hn : Noted isAuto o first bs x)
    (hf : first = true → ¬ Sets b.users nmBl ∧ o.feq b.vis.bl (o.bl1000 b.vis.time) = false)
    (h : obsAct isAuto o q junk x (.block b) = some x2) : Noted isAuto o false (bs ++ [b]) x2 := by
  simp only [obsAct] at h
  cases h1 : assignAll x.s b.users with
  | none => rw [h1] at h; simp at h
  | some s1 =>
    cases h2 : writeAct o q junk x.s (.block b) with
    | none => rw [h1, h2] at h; simp at h
    | some s2 =>
      rw [h1, h2] at h
      simp only [Option.some.injEq] at h
      subst h
      simp only [writeAct] at h2
      cases hc : corrTy x.s.w with
      | none => rw [hc] at h2; simp at h2
      | some mode =>
        rw [hc] at h2
        obtain ⟨s1', ha, e1, _, _, _, _, _, e5, _⟩ := writeBlock_some h2
        rw [h1, Option.some.injEq] at ha
        subst ha
        -- the baseline of the cache
        have hcase : o.feq b.vis.bl (theCache o junk s1 b.vis).bl = true →
            ∃ b' ∈ bs, isAuto b.vis.bl = isAuto b'.vis.bl := by
          intro he
          cases first with
          | true =>
            exfalso
            obtain ⟨f1, f2⟩ := hf rfl
            obtain ⟨c1, c2⟩ := hn.cold rfl
            have hb := users_buf h1 nmBl c2 f1
            unfold theCache at he
            rw [e1, c1] at he
            simp only [initCache, hb] at he
            rw [f2] at he
            exact absurd he (by simp)
          | false =>
            obtain ⟨c, b', c1, c2, c3⟩ := hn.hot rfl
            unfold theCache at he
            rw [e1, c1] at he
            exact ⟨b', c2, (hk _ _ he).trans c3⟩
        refine ⟨?_, ?_, by simp, by simp, fun _ => ⟨_, b, e5, by simp, ?_⟩⟩
        · simp only [noteBl, List.any_append, List.any_cons, List.any_nil, Bool.or_false]
          by_cases he : o.feq b.vis.bl (theCache o junk s1 b.vis).bl = true
          · rw [if_pos he, hn.auto]
            obtain ⟨b', hb', hbb⟩ := hcase he
            cases hx : isAuto b.vis.bl with
            | false => simp
            | true =>
              rw [Bool.or_true]
              exact List.any_eq_true.2 ⟨b', hb', by rw [← hbb, hx]⟩
          · rw [if_neg he]
            cases hx : isAuto b.vis.bl <;> simp [hn.auto]
        · simp only [noteBl, List.any_append, List.any_cons, List.any_nil, Bool.or_false]
          by_cases he : o.feq b.vis.bl (theCache o junk s1 b.vis).bl = true
          · rw [if_pos he, hn.cross]
            obtain ⟨b', hb', hbb⟩ := hcase he
            cases hx : isAuto b.vis.bl with
            | true => simp
            | false =>
              rw [Bool.not_false, Bool.or_true]
              exact List.any_eq_true.2 ⟨b', hb', by rw [← hbb, hx]; rfl⟩
          · rw [if_neg he]
            cases hx : isAuto b.vis.bl <;> simp [hn.cross]
        · simp only [newCache]
          split
          · rename_i he
            exact (hk _ _ he).symm
          · rfl

theorem noted_append {isAuto : Nat → Bool} {o : FpOps} {q : Quant} {junk : Nat → Nat} {first : Bool} {bs : List Block}
    {us : List User} {m : Ty} {g : Nat → BitVec 32} {x x2 : ObsW} (hn : Noted isAuto o first bs x)
    (hm : kindOf isAuto bs ≠ .mixed) (h : obsAct isAuto o q junk x (.append us m g) = some x2) :
    Noted isAuto o true bs x2 := by
  simp only [obsAct] at h
  cases h2 : writeAct o q junk x.s (.append us m g) with
  | none => rw [h2] at h; simp at h
  | some s2 =>
    rw [h2] at h
    simp only [Option.map_some, Option.some.injEq] at h
    subst h
    simp only [writeAct] at h2
    cases h1 : assignAll x.s us with
    | none => rw [h1] at h2; simp at h2
    | some s1 =>
      rw [h1] at h2
      simp only [Option.bind_some] at h2
      obtain ⟨a1, a2, _⟩ := appendVis_some h2
      rw [close_kind hn]
      have hst : wstep (reopen s1.w) (.noCheck nmCorr m) = some s2.w := by
        simp only [wrun, Option.bind_some, wstep] at a1
        cases hx : noCheck (reopen s1.w) nmCorr m with
        | none => rw [hx] at a1; simp at a1
        | some y => rw [hx] at a1; simp only [Option.bind_some, Option.some.injEq] at a1; subst a1; exact hx
      refine ⟨?_, ?_, ?_, fun _ => ⟨a2, ?_⟩, by simp⟩
      · unfold kindOf at hm ⊢
        cases ha : (bs.any fun b => isAuto b.vis.bl) <;> cases hc : (bs.any fun b => !isAuto b.vis.bl) <;>
          simp [ha, hc, openObs] at hm ⊢
      · unfold kindOf at hm ⊢
        cases ha : (bs.any fun b => isAuto b.vis.bl) <;> cases hc : (bs.any fun b => !isAuto b.vis.bl) <;>
          simp [ha, hc, openObs] at hm ⊢
      · rintro rfl
        rfl
      · show bufOf s2.w nmBl = none
        unfold bufOf
        rw [wstep_find hst _ (by simp [nmCorr, nmBl]) (by simp)]
        exact reopen_buf s1.w _

theorem noted_acts {isAuto : Nat → Bool} {o : FpOps} {q : Quant} {junk : Nat → Nat}
    (hk : ∀ a b, o.feq a b = true → isAuto a = isAuto b) {as : List Act} : ∀ {first : Bool} {bs : List Block} {x x2 : ObsW},
      Noted isAuto o first bs x → FreshBl o first as → NotMixed isAuto bs as → obsActs isAuto o q junk x as = some x2 →
      ∃ first', Noted isAuto o first' (bs ++ allBlocks as) x2 := by
  induction as with
  | nil =>
    intro first bs x x2 hn _ _ h
    simp only [obsActs, Option.some.injEq] at h
    subst h
    exact ⟨first, by simpa [allBlocks] using hn⟩
  | cons a as ih =>
    intro first bs x x2 hn hf hm h
    simp only [obsActs] at h
    cases h1 : obsAct isAuto o q junk x a with
    | none => rw [h1] at h; simp at h
    | some x1 =>
      rw [h1] at h
      cases a with
      | block b =>
        have := ih (noted_block hk hn hf.1 h1) hf.2 hm h
        simpa [allBlocks] using this
      | append us m g => exact ih (noted_append hn hm.1 h1) hf hm.2 h

/-- **C71**, partial: `obstype` says what baselines there are in the data set, in whatever sessions it was written.
(Missing: data sets with both kinds that are appended to, and first visibilities of a session whose baseline was assigned
before; see the disagreements below.) -/
theorem c71_obstype_partial {isAuto : Nat → Bool} {o : FpOps} {q : Quant} {junk : Nat → Nat} {mode : Ty} {as : List Act}
    {item : ObsItem} (hk : ∀ a b, o.feq a b = true → isAuto a = isAuto b) (hf : FreshBl o true as)
    (hm : NotMixed isAuto [] as) (h : obstype isAuto o q junk mode as = some item) : item = kindOf isAuto (allBlocks as) := by
  unfold obstype at h
  cases h0 : openVis mode with
  | none => rw [h0] at h; simp at h
  | some s =>
    rw [h0] at h
    simp only [Option.bind_some] at h
    cases h1 : obsActs isAuto o q junk ⟨s, ⟨false, false⟩, .absent⟩ as with
    | none => rw [h1] at h; simp at h
    | some x =>
      rw [h1] at h
      simp only [Option.map_some, Option.some.injEq] at h
      have hc := open_cold h0
      have hn : Noted isAuto o true [] ⟨s, ⟨false, false⟩, .absent⟩ :=
        ⟨rfl, rfl, fun _ => rfl, fun _ => ⟨hc.cache, hc.bl⟩, by simp⟩
      obtain ⟨f, hx⟩ := noted_acts hk hn hf hm h1
      rw [← h, close_kind hx, List.nil_append]

/-- the flags do not change what is written: the data set is the one of C70 -/
theorem obsActs_same {isAuto : Nat → Bool} {o : FpOps} {q : Quant} {junk : Nat → Nat} {as : List Act} :
    ∀ {x : ObsW}, (obsActs isAuto o q junk x as).map (·.s) = writeActs o q junk x.s as := by
  induction as with
  | nil => intro x; rfl
  | cons a as ih =>
    intro x
    simp only [obsActs, writeActs]
    have hs : (obsAct isAuto o q junk x a).map (·.s) = writeAct o q junk x.s a := by
      cases a with
      | append us m g =>
        simp only [obsAct, Option.map_map, Function.comp_def, Option.map_id']
      | block b =>
        simp only [obsAct]
        cases h2 : writeAct o q junk x.s (.block b) with
        | none => cases assignAll x.s b.users <;> rfl
        | some s2 =>
          cases h1 : assignAll x.s b.users with
          | some s1 => rfl
          | none =>
            simp only [writeAct, writeBlock, h1, Option.bind_none] at h2
            cases hc : corrTy x.s.w with
            | none => rw [hc] at h2; simp at h2
            | some t => rw [hc] at h2; simp at h2
    cases h1 : obsAct isAuto o q junk x a with
    | none =>
      rw [h1] at hs
      rw [← hs]
      rfl
    | some x1 =>
      rw [h1] at hs
      rw [← hs]
      exact ih

/-! ## Examples -/

/-- baselines below ten are of one antenna -/
def demoAuto (b : Nat) : Bool := b < 10

def visBl (bl : Nat) : Vis := ⟨1, 2, 3, 4, bl, List.replicate 8 9, [true]⟩

/-- an appended session of the other kind -/
def obsDemo : List Act := [.block ⟨[], visBl 5⟩, .append [] .real (fun _ => 0), .block ⟨[], visBl 15⟩, .block ⟨[], visBl 5⟩]

example : obstype demoAuto demoOps demoQuant (fun _ => 0) .real obsDemo = some .mixed ∧ FreshBl demoOps true obsDemo ∧
    NotMixed demoAuto [] obsDemo := by
  refine ⟨by decide +kernel, ⟨fun _ => ⟨?_, by decide⟩, fun _ => ⟨?_, by decide⟩, by simp, trivial⟩, by decide, trivial⟩ <;>
    rintro ⟨p, hp, _⟩ <;> simp at hp

/-! ## Disagreements -/

/-- **C71, disagreement**: after a data set with both kinds of baselines is appended to with baselines of two antennas, its
`obstype` is `crosscorrelation`: `uvopen_c` does not know `mixed-auto-cross`. -/
theorem c71_mixed_lost : obstype demoAuto demoOps demoQuant (fun _ => 0) .real
    [.block ⟨[], visBl 5⟩, .block ⟨[], visBl 15⟩, .append [] .real (fun _ => 0), .block ⟨[], visBl 15⟩] = some .cross ∧
    kindOf demoAuto [⟨[], visBl 5⟩, ⟨[], visBl 15⟩, ⟨[], visBl 15⟩] = .mixed := by
  refine ⟨by decide +kernel, by decide⟩

/-- **C71, disagreement**: if the baseline is assigned (`uv['baseline'] = ..`) before the first visibility there is no
`obstype`. -/
theorem c71_assigned_lost : obstype demoAuto demoOps demoQuant (fun _ => 0) .real
    [.block ⟨[⟨nmBl, .real, be32 15⟩], visBl 15⟩] = some .absent ∧
    kindOf demoAuto [⟨[⟨nmBl, .real, be32 15⟩], visBl 15⟩] = .cross := by
  refine ⟨by decide +kernel, by decide⟩

end Verif.Mir.Uv
