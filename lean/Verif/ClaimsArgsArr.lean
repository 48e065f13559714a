import Verif.ClaimsArgs

/-
C35, C47, C48: the user interfaces of the array functions.
-/

namespace Dream
open Arith

variable {F : Type} [Arith F]

/-- A vector whose first `num` entries are `v` and that is zero filled otherwise. -/
def vecOf (num : Nat) (v : Nat → F) : Buf F := ⟨num, fun i => if i < num then v i else lit 0⟩

theorem copyN_eq (a : Arg F) (num : Nat) (h : a.size = num) :
    copyN a.buf num (zeroVec num) = .ok (vecOf num a.data) := by
  obtain ⟨b, e1, e2, e3⟩ := forO_map
    (fun i (d : Buf F) => (a.buf.read (i : Int)).bind fun x => d.write (i : Int) x)
    (fun i _ => a.data i) num num 0 (by omega) (zeroVec num) rfl (by
      intro i _ hi b _
      simp only [Arg.read_eq h (show i < num by omega), Outcome.bind])
  rw [copyN, e1]
  congr 1
  cases b with
  | mk n d =>
    simp only at e2 e3
    subst e2
    simp only [vecOf, Buf.mk.injEq, true_and]
    funext i
    rw [e3]
    simp [zeroVec]

/-- The focusing vector handed to the driver: all user defined delays, or the focal distance in the
first entry. -/
def focalOf (met : FocusMet) (num : Nat) (a : Arg F) : Buf F :=
  if met = .ud then vecOf num a.data else ⟨num, fun i => if i = 0 then a.data 0 else lit 0⟩

/-- The focusing arguments are as documented. -/
def FocArg (num : Nat) (str : StrArg) (val : Arg F) (met : FocusMet) : Prop :=
  (∃ s, str = .text s ∧ FocName s met) ∧ (if met = .ud then val.size = num else val.size = 1 ∧ 1 ≤ num)

theorem parseFocus_eq (fe : FrontEnd) (str : StrArg) {val : Arg F} (hv : val.IsVecArg fe) (num : Nat)
    (met : FocusMet) (h : FocArg num str val met) :
    parseFocus fe str val num (zeroVec num) = .ok (.ret true false (met, focalOf met num val)) := by
  obtain ⟨⟨s, rfl, hs⟩, hl⟩ := h
  have hs' := (focName_get fe s met).2 hs
  have hg := (C35_focus_names _ _).2 hs'
  simp only [parseFocus, Arg.count_eq hv, Outcome.bind, hg, Option.getD_some, focalOf]
  by_cases hu : met = .ud
  · have : getString fe s = "ud" := (focName_ud _ _ hs').1 hu
    rw [if_pos hu] at hl
    rw [if_pos this, if_neg (by simpa using hl), copyN_eq val num hl, if_pos hu]
  · have : getString fe s ≠ "ud" := fun h => hu ((focName_ud _ _ hs').2 h)
    rw [if_neg hu] at hl
    rw [if_neg this, if_neg (by simpa using hl.1), if_neg hu]
    have h1 : val.buf.read 0 = .ok (val.data 0) := Arg.read_eq hl.1 (i := 0) (by omega)
    rw [h1]
    have hw : (zeroVec num).write 0 (val.data 0) =
        .ok ⟨num, fun i => if i = 0 then val.data 0 else lit 0⟩ := by
      have : 0 < num := by omega
      simp [Buf.write, zeroVec, this]
    dsimp only
    rw [hw]
    simp

/-- Otherwise the driver is not called. -/
theorem parseFocus_no_call (fe : FrontEnd) (str : StrArg) {val : Arg F} (hv : val.IsVecArg fe)
    (num : Nat) (h : ¬ ∃ met, FocArg num str val met)
    {α : Type} (k : FocusMet × Buf F → Outcome (Front α)) :
    (∃ b, ((parseFocus fe str val num (zeroVec num)).bind fun r => r.next fe k) = .ok (.rejected b)) ∨
    (num = 0 ∧
      ((parseFocus fe str val num (zeroVec num)).bind fun r => r.next fe k) = .ub .oob) := by
  by_cases hn : 1 ≤ num
  · refine Or.inl (parseFocus_bad fe str hv num (zeroVec num) rfl hn ?_ k)
    rintro ⟨s, met, e1, e2, e3⟩
    refine h ⟨met, ⟨s, e1, e2⟩, ?_⟩
    split at e3
    · next hu => rw [if_pos hu]; exact e3
    · next hu => rw [if_neg hu]; exact ⟨e3, hn⟩
  · have h0 : num = 0 := by omega
    subst h0
    rcases str with s | _
    · simp only [parseFocus, Arg.count_eq hv, Outcome.bind]
      by_cases hu : getString fe s = "ud"
      · have hs : FocName s .ud := (focName_get fe s _).1 (hu ▸ .ud)
        have hl : val.size ≠ 0 := fun e => h ⟨.ud, ⟨s, rfl, hs⟩, by rw [if_pos rfl]; exact e⟩
        rw [if_pos hu, if_pos hl]
        left
        cases fe <;> exact ⟨_, rfl⟩
      · rw [if_neg hu]
        by_cases hl : val.size = 1
        · rw [if_neg (by simpa using hl)]
          have h1 : val.buf.read 0 = .ok (val.data 0) := Arg.read_eq hl (i := 0) (by omega)
          rw [h1]
          have hw : (zeroVec 0).write 0 (val.data 0) = .ub .oob := by simp [Buf.write, zeroVec]
          dsimp only
          rw [hw]
          exact Or.inr ⟨trivial, rfl⟩
        · rw [if_pos (by simpa using hl)]
          exact Or.inl ⟨_, failMsg_next _ _ _⟩
    · simp only [parseFocus, Outcome.bind]
      exact Or.inl ⟨_, failMsg_next _ _ _⟩

/-! ### Steering -/

/-- The steering arguments are as documented. -/
def SteerArg (fe : FrontEnd) (str : StrArg) (val : Arg F) (met : SteerMet) : Prop :=
  (∃ s, str = .text s ∧ SteerName s met) ∧ val.HasLen fe 2

theorem parseSteer_eq (fe : FrontEnd) (str : StrArg) (val : Arg F) (met : SteerMet)
    (h : SteerArg fe str val met) :
    parseSteer fe str val = .ok (.ret true false (met, val.data 0, val.data 1)) := by
  obtain ⟨⟨s, rfl, hs⟩, hl⟩ := h
  have hg := (C35_steer_names _ _).2 ((steerName_get fe s met).2 hs)
  have r0 : val.buf.read 0 = .ok (val.data 0) := Arg.read_eq hl.size (i := 0) (by omega)
  have r1 : val.buf.read 1 = .ok (val.data 1) := Arg.read_eq hl.size (i := 1) (by omega)
  simp only [parseSteer, hg, Arg.isVec_eq hl.vec, hl, decide_true, Outcome.bind, r0, r1,
    Option.isNone_some, Option.getD_some]
  simp

theorem parseSteer_no_call (fe : FrontEnd) (str : StrArg) {val : Arg F} (hv : val.IsVecArg fe)
    (h : ¬ ∃ met, SteerArg fe str val met)
    {α : Type} (k : SteerMet × F × F → Outcome (Front α)) :
    ((parseSteer fe str val).bind fun r => r.next fe k) = .ok (.rejected true) := by
  rcases str with s | _
  · simp only [parseSteer]
    by_cases hm : (lookup steerTab (getString fe s)).isNone = true ∧ fe = .matlab
    · rw [if_pos hm]; rfl
    · rw [if_neg hm, Arg.isVec_eq hv]
      simp only [Outcome.ok_bind]
      rw [if_pos]
      · simp only [Outcome.ok_bind, failMsg_next]
      · by_cases hl : val.HasLen fe 2
        · right
          cases hg : lookup steerTab (getString fe s) with
          | none => rfl
          | some met =>
            exact absurd ⟨met, ⟨s, rfl, (steerName_get fe s met).1 ((C35_steer_names _ _).1 hg)⟩, hl⟩ h
        · left; simp [hl]
  · simp only [parseSteer, Outcome.ok_bind, failMsg_next]

/-! ### Apodization -/

/-- The interfaces that look at the window parameter. -/
def FrontEnd.looksAtWindow : FrontEnd → Bool
  | .matlab => true | .octave => true | .python => false | .julia => false

/-- The apodization arguments are as checked: a documented name; for user defined weights one weight
for each element, which the MATLAB interface does not enforce; a scalar window parameter, in MATLAB
and Octave. -/
def ApodArg (fe : FrontEnd) (num : Nat) (str : StrArg) (val par : Arg F) (am : Option ApodMet) : Prop :=
  (∃ s, str = .text s ∧ ApodName s am) ∧
  (am = some .ud → val.size = num ∨ fe = .matlab) ∧
  (fe.looksAtWindow = true → par.shape = [1, 1])

/-- The settings handed to the driver. -/
def apodOf (fe : FrontEnd) (num : Nat) (val par : Arg F) (am : Option ApodMet) : Apod F where
  on := am.isSome
  met := am.getD .gauss
  vec := if am = some .ud ∧ val.size = num then vecOf num val.data else zeroVec num
  par := if fe.looksAtWindow = true ∧ ¬ (am = some .ud ∧ val.size ≠ num) then par.data 0 else lit 0

theorem apodName_ud (s : String) (am : Option ApodMet) (h : ApodName s am) :
    am = some .ud ↔ s = "ud" := by
  constructor
  · rintro rfl; cases h; rfl
  · rintro rfl
    have := (C35_apod_names _ _).2 h
    simp [lookup, apodTab] at this
    exact this.symm

theorem par_read {a : Arg F} (h : a.shape = [1, 1]) : a.buf.read 0 = .ok (a.data 0) :=
  Arg.read_eq (k := 1) (by simp [Arg.size, h]) (i := 0) (by omega)

theorem parseApod_next (fe : FrontEnd) (str : StrArg) {val par : Arg F} (hv : val.IsVecArg fe)
    (num : Nat) (am : Option ApodMet) (h : ApodArg fe num str val par am)
    {α : Type} (k : Apod F → Outcome (Front α)) :
    ((parseApod fe str val par num ⟨false, .gauss, zeroVec num, lit 0⟩).bind fun r => r.next fe k) =
      k (apodOf fe num val par am) := by
  obtain ⟨⟨s, rfl, hs⟩, hud, hpar⟩ := h
  have hs' := (apodName_get fe s am).2 hs
  have hg := (C35_apod_names _ _).2 hs'
  have hu := apodName_ud _ _ hs'
  simp only [parseApod, hg, udWeights]
  by_cases he : am = some .ud
  · have hse := hu.1 he
    subst he
    simp only [hse, if_true, Arg.count_eq hv, Outcome.ok_bind]
    by_cases hl : val.size = num
    · simp only [if_neg (show ¬ val.size ≠ num by simpa using hl), setApod, copyN_eq val num hl,
        Outcome.ok_bind]
      cases fe <;> first
        | (simp [PRes.next, apodOf, setApod, hl, FrontEnd.looksAtWindow]; done)
        | (have hp := hpar rfl
           simp [PRes.next, apodOf, setApod, hl, FrontEnd.looksAtWindow, Arg.dim_zero hp, Arg.dim_one hp,
            par_read hp])
    · have hm : fe = .matlab := (hud rfl).resolve_left hl
      subst hm
      have hp := hpar rfl
      simp [PRes.next, apodOf, setApod, hl, FrontEnd.looksAtWindow, Arg.dim_zero hp, Arg.dim_one hp]
  · have hse : getString fe s ≠ "ud" := fun e => he (hu.2 e)
    simp only [if_neg hse, Outcome.ok_bind]
    cases fe <;> first
      | (cases am <;> simp_all [PRes.next, apodOf, setApod, FrontEnd.looksAtWindow]; done)
      | (have hp := hpar rfl
         cases am <;> simp_all [PRes.next, apodOf, setApod, FrontEnd.looksAtWindow, Arg.dim_zero hp,
           Arg.dim_one hp, par_read hp])

theorem parseApod_no_call (fe : FrontEnd) (str : StrArg) {val par : Arg F} (hv : val.IsVecArg fe)
    (hp : fe.looksAtWindow = true → par.IsMatrix) (num : Nat)
    (h : ¬ ∃ am, ApodArg fe num str val par am)
    {α : Type} (k : Apod F → Outcome (Front α)) :
    ∃ b, ((parseApod fe str val par num ⟨false, .gauss, zeroVec num, lit 0⟩).bind
      fun r => r.next fe k) = .ok (.rejected b) := by
  rcases str with s | _
  swap
  · simp only [parseApod, Outcome.ok_bind, failMsg_next]; exact ⟨_, rfl⟩
  -- the first half never fails
  have first : ∃ good A2, udWeights fe (getString fe s) val num
      (setApod (lookup apodTab (getString fe s)) ⟨false, .gauss, zeroVec num, lit 0⟩) =
      .ok (good, A2) ∧ (getString fe s = "ud" → (good = true ↔ val.size = num)) ∧
      (getString fe s ≠ "ud" → good = true) := by
    unfold udWeights
    by_cases hu : getString fe s = "ud"
    · rw [if_pos hu, Arg.count_eq hv]
      simp only [Outcome.ok_bind]
      by_cases hl : val.size = num
      · have hvec : (setApod (lookup apodTab (getString fe s))
            (⟨false, .gauss, zeroVec num, lit 0⟩ : Apod F)).vec = zeroVec num := by
          unfold setApod; split <;> rfl
        rw [if_neg (by simpa using hl), hvec, copyN_eq val num hl]
        exact ⟨_, _, rfl, fun _ => ⟨fun _ => hl, fun _ => rfl⟩, fun h => absurd hu h⟩
      · rw [if_pos hl]
        exact ⟨_, _, rfl, fun _ => ⟨fun h => by simp at h, fun h => absurd h hl⟩, fun h => absurd hu h⟩
    · rw [if_neg hu]
      exact ⟨_, _, rfl, fun h => absurd h hu, fun _ => rfl⟩
  obtain ⟨good, A2, e1, e2, e3⟩ := first
  simp only [parseApod]
  rw [e1]
  simp only [Outcome.ok_bind]
  cases hg : lookup apodTab (getString fe s) with
  | none =>
    cases fe with
    | python => exact ⟨true, by simp [PRes.next]⟩
    | julia => exact ⟨true, by simp [PRes.next]⟩
    | matlab => exact ⟨true, by simp [PRes.next]⟩
    | octave =>
      obtain ⟨m, n, hmn⟩ := hp rfl
      simp only [Arg.dim_zero hmn, Arg.dim_one hmn, Outcome.ok_bind, Option.isNone_none]
      by_cases h1 : m = 1 ∧ n = 1
      · exact ⟨true, by simp [h1, PRes.next, failMsg]⟩
      · exact ⟨true, by simp [h1, PRes.next, failMsg]⟩
  | some am =>
    have hn := (C35_apod_names _ _).1 hg
    have hs := (apodName_get fe s am).1 hn
    have hbad : ¬ ((am = some .ud → val.size = num ∨ fe = .matlab) ∧
        (fe.looksAtWindow = true → par.shape = [1, 1])) := fun hh => h ⟨am, ⟨s, rfl, hs⟩, hh.1, hh.2⟩
    have hgood : good = true ↔ (am = some .ud → val.size = num) := by
      by_cases hu : getString fe s = "ud"
      · rw [e2 hu]
        have := (apodName_ud _ _ hn).2 hu
        simp [this]
      · have : am ≠ some .ud := fun e => hu ((apodName_ud _ _ hn).1 e)
        simp [e3 hu, this]
    cases fe with
    | python =>
      have : good = false := by
        cases hgd : good with
        | false => rfl
        | true => exact absurd ⟨fun e => Or.inl (hgood.1 hgd e), fun h => by cases h⟩ hbad
      exact ⟨false, by simp [PRes.next, this]⟩
    | julia =>
      have : good = false := by
        cases hgd : good with
        | false => rfl
        | true => exact absurd ⟨fun e => Or.inl (hgood.1 hgd e), fun h => by cases h⟩ hbad
      exact ⟨false, by simp [PRes.next, this]⟩
    | matlab =>
      obtain ⟨m, n, hmn⟩ := hp rfl
      have : ¬ (m = 1 ∧ n = 1) := by
        rintro ⟨rfl, rfl⟩; exact hbad ⟨fun _ => Or.inr rfl, fun _ => hmn⟩
      exact ⟨true, by simp [Arg.dim_zero hmn, Arg.dim_one hmn, this, failMsg, PRes.next]⟩
    | octave =>
      obtain ⟨m, n, hmn⟩ := hp rfl
      by_cases h1 : m = 1 ∧ n = 1
      · have : good = false := by
          cases hgd : good with
          | false => rfl
          | true =>
            exact absurd ⟨fun e => Or.inl (hgood.1 hgd e), fun _ => by rw [hmn, h1.1, h1.2]⟩ hbad
        exact ⟨false, by simp [Arg.dim_zero hmn, Arg.dim_one hmn, h1, PRes.next, this]⟩
      · exact ⟨true, by simp [Arg.dim_zero hmn, Arg.dim_one hmn, h1, failMsg, PRes.next]⟩

/-! ### Array functions -/

/-- The arguments have the types of the interface. -/
structure ArrArgs.Typed (fe : FrontEnd) (x : ArrArgs F) : Prop where
  ro : x.ro.IsMatrix
  geom : x.geom.IsVecArg fe
  grid : x.grid.IsMatrix
  sPar : x.sPar.IsVecArg fe
  delay : x.delay.IsVecArg fe
  mPar : x.mPar.IsVecArg fe
  focal : x.focal.IsVecArg fe
  steerPar : x.steerPar.IsVecArg fe
  apodVec : x.apodVec.IsVecArg fe
  winPar : fe.looksAtWindow = true → x.winPar.IsMatrix

/-- How many geometry parameters an element has: sides, radius, radius of curvature. -/
def ArrKind.docPars : ArrKind → Nat
  | .rect => 2
  | .circ => 1
  | .cylind => 3

theorem ArrKind.numPars_doc (kind : ArrKind) : kind.numPars = kind.docPars := by cases kind <;> rfl

/-- The arguments are as checked: `No` observation points, `num` array elements, response length `nt`,
focusing, steering and apodization methods and error level. -/
structure ArrDoc (fe : FrontEnd) (kind : ArrKind) (x : ArrArgs F) (No num nt : Nat) (met : FocusMet)
    (smet : SteerMet) (am : Option ApodMet) (level : ErrorLevel) : Prop where
  ro : x.ro.shape = [No, 3]
  geom : x.geom.HasLen fe kind.docPars
  grid : x.grid.shape = [num, 3]
  sPar : x.sPar.HasLen fe 4
  len : trunc (x.sPar.data 3) = some (nt : Int)
  fits : fe.idx.fits nt = true
  delay : x.delay.size = 0 ∨ x.delay.size = 1 ∨ x.delay.size = No
  mPar : x.mPar.HasLen fe 3
  foc : FocArg num x.foc x.focal met
  steer : SteerArg fe x.steer x.steerPar smet
  apod : ApodArg fe num x.apod x.apodVec x.winPar am
  err : ErrArg x.err level

/-- The driver call meant by the arguments. -/
def ArrArgs.meant (L : FFTLib F) (fe : FrontEnd) (kind : ArrKind) (x : ArrArgs F) (No num nt : Nat)
    (met : FocusMet) (smet : SteerMet) (am : Option ApodMet) (level : ErrorLevel) : ArrCall F :=
  { A := { num := num, G := x.grid.buf, focMet := met, focal := focalOf met num x.focal,
           steerMet := smet, theta := x.steerPar.data 0, phi := x.steerPar.data 1,
           doApod := am.isSome, apod := (apodOf fe num x.apodVec x.winPar am).vec,
           apodMet := am.getD .gauss, apodPar := (apodOf fe num x.apodVec x.winPar am).par }
    K := match kind with
      | .rect => .rect (x.geom.data 0) (x.geom.data 1)
      | .circ => .circ (x.geom.data 0)
      | .cylind => .cylind (x.geom.data 0) (x.geom.data 1) (x.geom.data 2)
    p := { dx := x.sPar.data 0, dy := x.sPar.data 1, dt := x.sPar.data 2, delay := lit 0,
           v := x.mPar.data 0, cp := x.mPar.data 1 }
    att := if Arith.lt epsilon (x.mPar.data 2) = true then
      some (attResp L { len := nt, dt := x.sPar.data 2, alpha := x.mPar.data 2 }) else none
    nt := nt
    ty := fe.idx
    level := level
    No := No
    Ro := x.ro.buf
    delayType := if x.delay.size = 1 then .single else .multiple
    delay := x.delay.buf }

theorem ArrKind.docPars_pos (kind : ArrKind) : 1 ≤ kind.docPars := by cases kind <;> decide

theorem arr_meant_kern (kind : ArrKind) (a : Arg F) :
    kind.kern (geomOf kind.docPars a) = match kind with
      | .rect => .rect (a.data 0) (a.data 1)
      | .circ => .circ (a.data 0)
      | .cylind => .cylind (a.data 0) (a.data 1) (a.data 2) := by
  cases kind <;> simp [ArrKind.kern, geomOf, ArrKind.docPars]

theorem checkArray_eq (fe : FrontEnd) {a : Arg F} {m n : Nat} (h : a.shape = [m, n]) :
    checkArray fe a = .ok (if n = 3 then .ret true false m else failMsg fe m) :=
  checkObs_eq fe h

/-- C35: documented arguments lead to the driver call they mean. -/
theorem C35_arr_call (L : FFTLib F) (fe : FrontEnd) (kind : ArrKind) (x : ArrArgs F)
    (hx : x.Typed fe) (No num nt : Nat) (met : FocusMet) (smet : SteerMet) (am : Option ApodMet)
    (level : ErrorLevel) (h : ArrDoc fe kind x No num nt met smet am level) :
    frontArr L fe kind x = .ok (.call (x.meant L fe kind No num nt met smet am level)) := by
  unfold frontArr
  rw [checkObs_eq fe h.ro, if_pos rfl]
  simp only [Outcome.ok_bind, ret_next]
  rw [kind.numPars_doc, parseGeometry_eq fe hx.geom _ kind.docPars_pos, if_pos h.geom]
  simp only [Outcome.ok_bind, ret_next]
  rw [checkArray_eq fe h.grid, if_pos rfl]
  simp only [Outcome.ok_bind, ret_next]
  rw [parseSampling_eq fe hx.sPar, if_pos h.sPar, h.len]
  simp only [castIdx, h.fits, if_true, Outcome.ok_bind, ret_next]
  rw [checkDelay_eq fe hx.delay, if_pos h.delay]
  simp only [Outcome.ok_bind, ret_next]
  rw [parseMaterial_eq fe hx.mPar, if_pos h.mPar]
  simp only [Outcome.ok_bind, ret_next]
  rw [parseFocus_eq fe x.foc hx.focal num met h.foc]
  simp only [Outcome.ok_bind, ret_next]
  rw [parseSteer_eq fe x.steer x.steerPar smet h.steer]
  simp only [Outcome.ok_bind, ret_next]
  rw [parseApod_next fe x.apod hx.apodVec num am h.apod]
  have herr : (parseError fe x.err) = .ret true false level := by
    rw [parseError_eq, (levelOf_iff fe _ _).2 h.err]
  have hnt : ¬ ((nt : Int) < 0) := by omega
  simp only [ret_next, herr, allocOut, hnt, if_false]
  rw [arr_meant_kern]
  cases kind <;> rfl

/-- What can happen with arguments of the right types: the driver call that is meant; a rejection; an
access outside a buffer for an array without elements; or a response length that is no number of the
index type. -/
theorem frontArr_cases (L : FFTLib F) (fe : FrontEnd) (kind : ArrKind) (x : ArrArgs F)
    (hx : x.Typed fe) :
    (∃ No num nt met smet am level, ArrDoc fe kind x No num nt met smet am level) ∨
    (∃ b, frontArr L fe kind x = .ok (.rejected b)) ∨
    (x.grid.shape = [0, 3] ∧ frontArr L fe kind x = .ub .oob) ∨
    ((∀ t, trunc (x.sPar.data 3) = some t → fe.idx.fits t = false) ∧
      frontArr L fe kind x = .ub .cast) := by
  obtain ⟨m, n, hro⟩ := hx.ro
  obtain ⟨num, n', hgr⟩ := hx.grid
  have rej : ∀ (o : Outcome (Front (ArrCall F))) (b : Bool), o = .ok (.rejected b) →
      ∃ b, o = .ok (.rejected b) := fun o b h => ⟨b, h⟩
  unfold frontArr
  rw [checkObs_eq fe hro]
  by_cases hn : n = 3
  swap
  · right; left; exact ⟨_, by rw [if_neg hn, Outcome.ok_bind, failMsg_next]⟩
  subst hn
  simp only [if_true, Outcome.ok_bind, ret_next]
  rw [kind.numPars_doc, parseGeometry_eq fe hx.geom _ kind.docPars_pos]
  by_cases hg : x.geom.HasLen fe kind.docPars
  swap
  · right; left; exact ⟨_, by rw [if_neg hg, Outcome.ok_bind, failMsg_next]⟩
  simp only [if_pos hg, Outcome.ok_bind, ret_next]
  rw [checkArray_eq fe hgr]
  by_cases hn' : n' = 3
  swap
  · right; left; exact ⟨_, by rw [if_neg hn', Outcome.ok_bind, failMsg_next]⟩
  subst hn'
  simp only [if_true, Outcome.ok_bind, ret_next]
  rw [parseSampling_eq fe hx.sPar]
  by_cases hs : x.sPar.HasLen fe 4
  swap
  · right; left; exact ⟨_, by rw [if_neg hs, Outcome.ok_bind, failMsg_next]⟩
  simp only [if_pos hs]
  cases ht : trunc (x.sPar.data 3) with
  | none => right; right; right; exact ⟨fun t h => by (cases h), by simp [castIdx]⟩
  | some t =>
  by_cases hfit : fe.idx.fits t = true
  swap
  · right; right; right
    refine ⟨fun t' h => ?_, by simp [castIdx, hfit]⟩
    cases h; simpa using hfit
  simp only [castIdx, if_pos hfit, Outcome.ok_bind, ret_next]
  rw [checkDelay_eq fe hx.delay]
  by_cases hd : x.delay.size = 0 ∨ x.delay.size = 1 ∨ x.delay.size = m
  swap
  · right; left; exact ⟨_, by rw [if_neg hd, Outcome.ok_bind, failMsg_next]⟩
  simp only [if_pos hd, Outcome.ok_bind, ret_next]
  rw [parseMaterial_eq fe hx.mPar]
  by_cases hm : x.mPar.HasLen fe 3
  swap
  · right; left; exact ⟨_, by rw [if_neg hm, Outcome.ok_bind, failMsg_next]⟩
  simp only [if_pos hm, Outcome.ok_bind, ret_next]
  by_cases hf : ∃ met, FocArg num x.foc x.focal met
  swap
  · rcases parseFocus_no_call fe x.foc hx.focal num hf _ with h | ⟨h0, h⟩
    · right; left; exact h
    · right; right; left; exact ⟨by rw [hgr, h0], h⟩
  obtain ⟨met, hf⟩ := hf
  rw [parseFocus_eq fe x.foc hx.focal num met hf]
  simp only [Outcome.ok_bind, ret_next]
  by_cases hst : ∃ smet, SteerArg fe x.steer x.steerPar smet
  swap
  · right; left; exact rej _ _ (parseSteer_no_call fe x.steer hx.steerPar hst _)
  obtain ⟨smet, hst⟩ := hst
  rw [parseSteer_eq fe x.steer x.steerPar smet hst]
  simp only [Outcome.ok_bind, ret_next]
  by_cases hap : ∃ am, ApodArg fe num x.apod x.apodVec x.winPar am
  swap
  · right; left; exact parseApod_no_call fe x.apod hx.apodVec hx.winPar num hap _
  obtain ⟨am, hap⟩ := hap
  rw [parseApod_next fe x.apod hx.apodVec num am hap]
  rw [parseError_eq]
  cases hl : levelOf fe x.err with
  | none => right; left; exact ⟨_, failMsg_next _ _ _⟩
  | some level =>
    simp only [ret_next, allocOut]
    by_cases hpos : t < 0
    · rw [if_pos hpos]; right; left; exact ⟨_, rfl⟩
    · left
      have hpos' : 0 ≤ t := by omega
      exact ⟨m, num, t.toNat, met, smet, am, level, hro, hg, hgr, hs,
        by rw [ht, Int.toNat_of_nonneg hpos'], by rw [Int.toNat_of_nonneg hpos']; exact hfit, hd, hm,
        hf, hst, hap, (levelOf_iff fe _ _).1 hl⟩

/-- C35: the driver is called exactly for arguments as checked, with the meant parameters. -/
theorem C35_arr_accepted (L : FFTLib F) (fe : FrontEnd) (kind : ArrKind) (x : ArrArgs F)
    (hx : x.Typed fe) (c : ArrCall F) :
    frontArr L fe kind x = .ok (.call c) ↔
      ∃ No num nt met smet am level, ArrDoc fe kind x No num nt met smet am level ∧
        c = x.meant L fe kind No num nt met smet am level := by
  constructor
  · intro h
    rcases frontArr_cases L fe kind x hx with ⟨No, num, nt, met, smet, am, level, hd⟩ | ⟨b, h'⟩ |
      ⟨-, h'⟩ | ⟨-, h'⟩
    · refine ⟨No, num, nt, met, smet, am, level, hd, ?_⟩
      have := C35_arr_call L fe kind x hx _ _ _ _ _ _ _ hd
      rw [h] at this
      cases this; rfl
    all_goals (rw [h] at h'; cases h')
  · rintro ⟨No, num, nt, met, smet, am, level, h, rfl⟩
    exact C35_arr_call L fe kind x hx No num nt met smet am level h

/-- C35: other arguments are rejected, when the array has elements and the response length is a
number of the index type. -/
theorem C35_arr_rejected (L : FFTLib F) (fe : FrontEnd) (kind : ArrKind) (x : ArrArgs F)
    (hx : x.Typed fe)
    (h : ¬ ∃ No num nt met smet am level, ArrDoc fe kind x No num nt met smet am level)
    (hg : x.grid.shape ≠ [0, 3])
    (hc : ∃ t, trunc (x.sPar.data 3) = some t ∧ fe.idx.fits t = true) :
    ∃ b, frontArr L fe kind x = .ok (.rejected b) := by
  rcases frontArr_cases L fe kind x hx with h' | h' | ⟨h', -⟩ | ⟨h', -⟩
  · exact absurd h' h
  · exact h'
  · exact absurd h' hg
  · obtain ⟨t, e1, e2⟩ := hc
    rw [h' t e1] at e2; cases e2

/-- C35: an array without elements is not rejected: with a focusing method other than user defined
delays the interface writes outside the focusing vector. -/
theorem C35_empty_array_unsafe (L : FFTLib F) (fe : FrontEnd) (kind : ArrKind) (x : ArrArgs F)
    (hx : x.Typed fe) (No : Nat) (hro : x.ro.shape = [No, 3]) (hg : x.geom.HasLen fe kind.docPars)
    (hgr : x.grid.shape = [0, 3]) (hs : x.sPar.HasLen fe 4) (t : Int)
    (ht : trunc (x.sPar.data 3) = some t) (hfit : fe.idx.fits t = true)
    (hd : x.delay.size = 0 ∨ x.delay.size = 1 ∨ x.delay.size = No) (hm : x.mPar.HasLen fe 3)
    (s : String) (met : FocusMet) (hf : x.foc = .text s) (hmet : FocName s met) (hu : met ≠ .ud)
    (hl : x.focal.size = 1) :
    frontArr L fe kind x = .ub .oob := by
  unfold frontArr
  rw [checkObs_eq fe hro, if_pos rfl]
  simp only [Outcome.ok_bind, ret_next]
  rw [kind.numPars_doc, parseGeometry_eq fe hx.geom _ kind.docPars_pos, if_pos hg]
  simp only [Outcome.ok_bind, ret_next]
  rw [checkArray_eq fe hgr, if_pos rfl]
  simp only [Outcome.ok_bind, ret_next]
  rw [parseSampling_eq fe hx.sPar, if_pos hs, ht]
  simp only [castIdx, hfit, if_true, Outcome.ok_bind, ret_next]
  rw [checkDelay_eq fe hx.delay, if_pos hd]
  simp only [Outcome.ok_bind, ret_next]
  rw [parseMaterial_eq fe hx.mPar, if_pos hm]
  simp only [Outcome.ok_bind, ret_next]
  have hne : getString fe s ≠ "ud" := fun h =>
    hu ((focName_ud _ _ ((focName_get fe s met).2 hmet)).2 h)
  have h1 : x.focal.buf.read 0 = .ok (x.focal.data 0) := Arg.read_eq hl (i := 0) (by omega)
  have hw : (zeroVec 0).write 0 (x.focal.data 0) = .ub .oob := by simp [Buf.write, zeroVec]
  have : parseFocus fe x.foc x.focal 0 (zeroVec 0) = .ub .oob := by
    rw [hf]
    simp only [parseFocus, Arg.count_eq hx.focal, Outcome.ok_bind, if_neg hne]
    rw [if_neg (by simpa using hl), h1, Outcome.ok_bind, hw]
    rfl
  rw [this]
  rfl

end Dream
