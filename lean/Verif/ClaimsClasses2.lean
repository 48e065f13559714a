import Verif.ClaimsClasses

/-
C88 for the array functions, for the observation points in MATLAB, and examples.
-/

namespace Dream
open Arith

variable {F : Type} [Arith F]

/-- C88, violated: in MATLAB the observation points given as numbers of a narrower class (single, 32 bit
integers) are accepted, and the computation of the last point reads memory after them. -/
theorem C88_matlab_points_violated (L : FFTLib F) (kind : SirKind) (x : SirArgsT F)
    (hx : x.nums.Typed .matlab) (No nt : Nat) (met : FocusMet) (level : ErrorLevel)
    (h : SirDoc .matlab kind x.nums No nt met level) (hN : 1 ≤ No)
    (h0 : x.ro.cls.bytes < 8) (h1 : x.geom.cls = .double) (h2 : x.sPar.cls = .double)
    (h3 : x.delay.cls = .double) (h4 : x.mPar.cls = .double) (h5 : x.focal.cls = .double) :
    ∃ c, frontSirT L .matlab kind x = .ok (.call c) ∧ c.No = No ∧
      ∀ fuel m, c.serialAt (No - 1) fuel m = .ub .oob := by
  have hc := C35_sir_call L .matlab kind x.nums hx No nt met level h
  have key : frontSirT L .matlab kind x =
      .ok (.call { x.nums.meant L .matlab kind No nt met level with Ro := x.ro.raw }) := by
    have hgen : ∀ (ro : TArg F), ro.arg = x.ro.arg → ∀ c,
        frontSirT L .matlab kind { x with ro := { ro with cls := .double } } = .ok (.call c) →
        frontSirT L .matlab kind { x with ro := ro } = .ok (.call { c with Ro := ro.raw }) := by
      intro ro hro c
      unfold frontSirT
      simp only [reduceCtorEq, false_and, if_false]
      have g1 : ∀ {σ : Type} (o : Outcome (PRes σ)) (k k' : σ → Outcome (Front (SirCall F))),
          (∀ s c, k s = .ok (.call c) → k' s = .ok (.call { c with Ro := ro.raw })) →
          ∀ c, (o.bind fun r => r.next .matlab k) = .ok (.call c) →
            (o.bind fun r => r.next .matlab k') = .ok (.call { c with Ro := ro.raw }) := by
        intro σ o k k' hk c ho
        cases o with
        | ub e => cases ho
        | fuel => cases ho
        | ok r =>
          simp only [Outcome.bind] at ho ⊢
          cases r with
          | raised => simp [PRes.next] at ho
          | ret ok said st =>
            simp only [PRes.next, or_true, if_true] at ho ⊢
            exact hk _ _ ho
      refine g1 _ _ _ (fun s c => ?_) c
      refine g1 _ _ _ (fun s c => ?_) c
      refine g1 _ _ _ (fun s c => ?_) c
      refine g1 _ _ _ (fun s c => ?_) c
      refine g1 _ _ _ (fun s c => ?_) c
      refine g1 _ _ _ (fun s c => ?_) c
      intro hk
      have hE : errSeen .matlab (SirArgsT.nums { x with ro := { ro with cls := .double } }) =
          errSeen .matlab (SirArgsT.nums { x with ro := ro }) := rfl
      rw [hE] at hk
      generalize parseError .matlab (errSeen .matlab (SirArgsT.nums { x with ro := ro })) = r at hk ⊢
      cases r with
      | raised => simp [PRes.next] at hk
      | ret ok said st =>
        simp only [PRes.next, or_true, if_true, allocOut] at hk ⊢
        split at hk
        · cases hk
        · next hnt =>
          rw [if_neg hnt]
          simp only [Outcome.ok.injEq, Front.call.injEq] at hk
          subst hk
          rfl
    have := hgen x.ro rfl (x.nums.meant L .matlab kind No nt met level)
    refine this ?_
    rw [← hc]
    exact C88_sir_double L .matlab kind _ hx (by simp [SirArgsT.doubles, h1, h2, h3, h4, h5]) nofun
  refine ⟨_, key, rfl, fun fuel m => ?_⟩
  have hb : (x.ro.raw).size ≤ 3 * No - 1 := by
    have hne : x.ro.cls ≠ .double := by intro e; rw [e] at h0; exact absurd h0 (by decide)
    have hs : x.ro.arg.size = No * 3 := Arg.size_eq h.ro
    simp only [TArg.raw, hne, if_false, hs]
    have : No * 3 * x.ro.cls.bytes ≤ No * 3 * 7 := Nat.mul_le_mul_left _ (by omega)
    omega
  have hin : SirCall.inputs { x.nums.meant L .matlab kind No nt met level with Ro := x.ro.raw } (No - 1)
      = .ub .oob := by
    have r0 : ∀ i : Nat, (∃ v, x.ro.raw.read (i : Int) = .ok v) ∨ x.ro.raw.read (i : Int) = .ub .oob := by
      intro i
      simp only [Buf.read]
      split
      · exact Or.inl ⟨_, rfl⟩
      · exact Or.inr rfl
    have r2 : x.ro.raw.read ((No - 1 + 2 * No : Nat) : Int) = .ub .oob := by
      simp only [Buf.read]; rw [if_neg (by omega)]
    simp only [SirCall.inputs, SirArgs.meant]
    rcases r0 (No - 1) with ⟨v, e⟩ | e
    · rw [e, Outcome.ok_bind]
      rcases r0 (No - 1 + 1 * No) with ⟨v, e⟩ | e
      · rw [e, Outcome.ok_bind, r2]; rfl
      · rw [e]; rfl
    · rw [e]; rfl
  simp only [SirCall.serialAt, hin, Outcome.bind]

/-! ### Arrays -/

/-- The classes for which the arguments of the array functions are read correctly. -/
def ArrArgsT.Fine (fe : FrontEnd) (kind : ArrKind) (x : ArrArgsT F) : Prop :=
  (fe = .julia → x.doubles = true) ∧
  DoubleIfKept fe x.ro ∧ (kind.docPars = 1 ∨ DoubleIfRead fe x.geom) ∧ DoubleIfKept fe x.grid ∧
  DoubleIfRead fe x.sPar ∧ DoubleIfKept fe x.delay ∧ DoubleIfRead fe x.mPar ∧
  VectorFine fe x.foc x.focal ∧ DoubleIfRead fe x.steerPar ∧ VectorFine fe x.apod x.apodVec

/-- C88 for the array functions. -/
theorem C88_arr_fine (L : FFTLib F) (fe : FrontEnd) (kind : ArrKind) (x : ArrArgsT F)
    (hx : x.nums.Typed fe) (h : x.Fine fe kind) :
    frontArrT L fe kind x = frontArr L fe kind x.nums := by
  obtain ⟨hj, h0, h1, hg, h2, h3, h4, h5, h6, h7⟩ := h
  unfold frontArrT frontArr
  rw [if_neg (by rintro ⟨rfl, e⟩; rw [hj rfl] at e; cases e)]
  rw [parseGeometryT_eq hx.geom _ (by rw [kind.numPars_doc]; exact h1), parseSamplingT_eq hx.sPar h2,
    parseMaterialT_eq hx.mPar h4, TArg.kept_fine h0, TArg.kept_fine h3, TArg.kept_fine hg,
    parseSteerT_eq _ hx.steerPar h6]
  simp only [parseFocusT_eq _ _ _ h5, parseApodT_eq _ _ _ _ h7]
  rfl

/-- C88, double arguments of the array functions; in Octave except for user defined delays or weights
of an array with one element. -/
theorem C88_arr_double (L : FFTLib F) (fe : FrontEnd) (kind : ArrKind) (x : ArrArgsT F)
    (hx : x.nums.Typed fe) (hd : x.doubles = true)
    (ho : fe = .octave → (x.foc = .text "ud" → x.focal.arg.size ≠ 1) ∧
      (x.apod = .text "ud" → x.apodVec.arg.size ≠ 1)) :
    frontArrT L fe kind x = frontArr L fe kind x.nums := by
  have hd' := hd
  simp only [ArrArgsT.doubles, List.all_cons, List.all_nil, Bool.and_true, Bool.and_eq_true,
    decide_eq_true_eq] at hd'
  obtain ⟨e0, e1, e2, e3, e4, e5, e6, e7, e8, e9⟩ := hd'
  exact C88_arr_fine L fe kind x hx ⟨fun _ => hd, fun _ => e0, Or.inr fun _ => e1, fun _ => e2,
    fun _ => e3, fun _ => e4, fun _ => e5, ⟨fun _ _ => e6, fun ho' hs => ⟨e6, (ho ho').1 hs⟩⟩,
    fun _ => e7, ⟨fun _ _ => e8, fun ho' hs => ⟨e8, (ho ho').2 hs⟩⟩⟩

/-- C88, Python. -/
theorem C88_arr_python (L : FFTLib F) (kind : ArrKind) (x : ArrArgsT F) (hx : x.nums.Typed .python) :
    frontArrT L .python kind x = frontArr L .python kind x.nums :=
  C88_arr_fine L .python kind x hx
    ⟨nofun, nofun, Or.inr (by rintro (h | h) <;> cases h), nofun, (by rintro (h | h) <;> cases h), nofun,
      (by rintro (h | h) <;> cases h), ⟨nofun, nofun⟩, (by rintro (h | h) <;> cases h), ⟨nofun, nofun⟩⟩

/-- C88, Julia. -/
theorem C88_arr_julia (L : FFTLib F) (kind : ArrKind) (x : ArrArgsT F) (hx : x.nums.Typed .julia) :
    frontArrT L .julia kind x =
      if x.doubles = true then frontArr L .julia kind x.nums else .ok (.rejected true) := by
  by_cases hd : x.doubles = true
  · rw [if_pos hd]; exact C88_arr_double L .julia kind x hx hd nofun
  · rw [if_neg hd]; simp [frontArrT, hd]

/-- C88, violated for arrays: sampling parameters of another class. -/
theorem C88_arr_class_violated (L : FFTLib F) (fe : FrontEnd) (hfe : fe = .matlab ∨ fe = .octave)
    (kind : ArrKind) (x : ArrArgsT F) (hx : x.nums.Typed fe) (No num nt : Nat) (met : FocusMet)
    (smet : SteerMet) (am : Option ApodMet) (level : ErrorLevel)
    (h : ArrDoc fe kind x.nums No num nt met smet am level)
    (hg : x.geom.cls = .double) (hs : Unreadable fe x.sPar) :
    frontArrT L fe kind x = .ub .oob := by
  have hj : fe ≠ .julia := by rcases hfe with rfl | rfl <;> decide
  unfold frontArrT
  rw [if_neg (fun e => hj e.1)]
  rw [show checkObs fe x.ro.arg = _ from checkObs_eq fe h.ro, if_pos rfl]
  simp only [Outcome.ok_bind, ret_next]
  rw [kind.numPars_doc, parseGeometryT_eq hx.geom _ (Or.inr fun _ => hg),
    parseGeometry_eq fe (a := x.geom.arg) hx.geom _ kind.docPars_pos,
    if_pos (show x.geom.arg.HasLen fe kind.docPars from h.geom)]
  simp only [Outcome.ok_bind, ret_next]
  rw [show checkArray fe x.grid.arg = _ from checkArray_eq fe h.grid, if_pos rfl]
  simp only [Outcome.ok_bind, ret_next]
  have slen : x.sPar.arg.HasLen fe 4 := h.sPar
  rw [parseSamplingT_short slen (by
    have := hs.short (by rw [slen.size]; omega); rw [slen.size] at this; omega)]
  rfl

/-- C88, violated in Octave for doubles too: an array with one element and a user defined delay.  The
delay is read from a matrix that has been freed. -/
theorem C88_octave_one_element_violated (L : FFTLib F) (kind : ArrKind) (x : ArrArgsT F)
    (hx : x.nums.Typed .octave) (No nt : Nat) (met : FocusMet)
    (smet : SteerMet) (am : Option ApodMet) (level : ErrorLevel)
    (h : ArrDoc .octave kind x.nums No 1 nt met smet am level)
    (hd : x.doubles = true) (hu : x.foc = .text "ud") :
    frontArrT L .octave kind x = .ub .oob := by
  have hd' := hd
  simp only [ArrArgsT.doubles, List.all_cons, List.all_nil, Bool.and_true, Bool.and_eq_true,
    decide_eq_true_eq] at hd'
  obtain ⟨e0, e1, e2, e3, e4, e5, e6, e7, e8, e9⟩ := hd'
  unfold frontArrT
  rw [if_neg (by rintro ⟨e, -⟩; cases e)]
  rw [show checkObs .octave x.ro.arg = _ from checkObs_eq .octave h.ro, if_pos rfl]
  simp only [Outcome.ok_bind, ret_next]
  rw [kind.numPars_doc, parseGeometryT_eq hx.geom _ (Or.inr fun _ => e1),
    parseGeometry_eq .octave (a := x.geom.arg) hx.geom _ kind.docPars_pos,
    if_pos (show x.geom.arg.HasLen .octave kind.docPars from h.geom)]
  simp only [Outcome.ok_bind, ret_next]
  rw [show checkArray .octave x.grid.arg = _ from checkArray_eq .octave h.grid, if_pos rfl]
  simp only [Outcome.ok_bind, ret_next]
  rw [parseSamplingT_eq hx.sPar (fun _ => e3), parseSampling_eq .octave (a := x.sPar.arg) hx.sPar,
    if_pos (show x.sPar.arg.HasLen .octave 4 from h.sPar), show trunc (x.sPar.arg.data 3) = _ from h.len]
  simp only [castIdx, h.fits, if_true, Outcome.ok_bind, ret_next]
  rw [show checkDelay .octave x.delay.arg No = _ from checkDelay_eq .octave hx.delay No, if_pos h.delay]
  simp only [Outcome.ok_bind, ret_next]
  rw [parseMaterialT_eq hx.mPar (fun _ => e5), parseMaterial_eq .octave (a := x.mPar.arg) hx.mPar,
    if_pos (show x.mPar.arg.HasLen .octave 3 from h.mPar)]
  simp only [Outcome.ok_bind, ret_next, hu]
  obtain ⟨⟨s, hs, hn⟩, hlen⟩ := h.foc
  have hs1 : x.focal.arg.size = 1 := by
    by_cases e : met = .ud
    · rw [if_pos e] at hlen; exact hlen
    · rw [if_neg e] at hlen; exact hlen.1
  rw [parseFocusT_short hx.focal 1 hs1 (by simp [TArg.param, hs1]) _ rfl]
  rfl

/-! ### The annular array -/

/-- C88 for the annular array, double arguments. -/
theorem C88_annu_double (L : FFTLib F) (fe : FrontEnd) (x : AnnuArgsT F)
    (hx : x.nums.Typed fe) (hd : x.doubles = true)
    (ho : fe = .octave → (x.foc = .text "ud" → x.focal.arg.size ≠ 1) ∧
      (x.apod = .text "ud" → x.apodVec.arg.size ≠ 1)) :
    frontAnnuT L fe x = frontAnnu L fe x.nums := by
  have hd' := hd
  simp only [AnnuArgsT.doubles, List.all_cons, List.all_nil, Bool.and_true, Bool.and_eq_true,
    decide_eq_true_eq] at hd'
  obtain ⟨e0, e1, e3, e4, e5, e6, e8, e9⟩ := hd'
  unfold frontAnnuT frontAnnu
  rw [if_neg (by rintro ⟨rfl, e⟩; rw [hd] at e; cases e)]
  rw [parseSamplingT_eq hx.sPar (fun _ => e3), parseMaterialT_eq hx.mPar (fun _ => e5),
    TArg.kept_fine (fun _ => e0), TArg.kept_fine (fun _ => e4), TArg.kept_fine (fun _ => e1)]
  simp only [parseFocusT_eq _ _ _ (show VectorFine fe x.foc x.focal from
      ⟨fun _ _ => e6, fun ho' hs => ⟨e6, (ho ho').1 hs⟩⟩),
    parseApodT_eq _ _ _ _ (show VectorFine fe x.apod x.apodVec from
      ⟨fun _ _ => e8, fun ho' hs => ⟨e8, (ho ho').2 hs⟩⟩)]
  rfl

/-- C88, Python. -/
theorem C88_annu_python (L : FFTLib F) (x : AnnuArgsT F) (hx : x.nums.Typed .python) :
    frontAnnuT L .python x = frontAnnu L .python x.nums := by
  unfold frontAnnuT frontAnnu
  rw [if_neg (by rintro ⟨e, -⟩; cases e)]
  rw [parseSamplingT_eq hx.sPar (by rintro (h | h) <;> cases h),
    parseMaterialT_eq hx.mPar (by rintro (h | h) <;> cases h)]
  simp only [parseFocusT_eq _ _ _ (show VectorFine .python x.foc x.focal from ⟨nofun, nofun⟩),
    parseApodT_eq _ _ _ _ (show VectorFine .python x.apod x.apodVec from ⟨nofun, nofun⟩)]
  rfl

/-- C88, Julia. -/
theorem C88_annu_julia (L : FFTLib F) (x : AnnuArgsT F) (hx : x.nums.Typed .julia) :
    frontAnnuT L .julia x =
      if x.doubles = true then frontAnnu L .julia x.nums else .ok (.rejected true) := by
  by_cases hd : x.doubles = true
  · rw [if_pos hd]; exact C88_annu_double L .julia x hx hd nofun
  · rw [if_neg hd]; simp [frontAnnuT, hd]

/-! ### Examples -/

section
attribute [local instance] toyArith

/-- An argument of a class, with some bits. -/
def ofClass (c : NumClass) (a : Arg Int) : TArg Int := ⟨a, c, fun _ => 9⟩

/-- The arguments of `toyArgs`, with the sampling parameters of class `c` and the points of class `r`. -/
def toyTyped (fe : FrontEnd) (c r : NumClass) : SirArgsT Int where
  ro := ofClass r (toyArgs fe 1).ro
  geom := ofClass .double (toyArgs fe 1).geom
  sPar := ofClass c (toyArgs fe 1).sPar
  delay := ofClass .double (toyArgs fe 1).delay
  mPar := ofClass .double (toyArgs fe 1).mPar
  foc := (toyArgs fe 1).foc
  focal := ofClass .double (toyArgs fe 1).focal
  err := (toyArgs fe 1).err
  gpu := false

theorem toyTyped_nums (fe : FrontEnd) (c r : NumClass) : (toyTyped fe c r).nums = toyArgs fe 1 := rfl

theorem toyTyped_typed (fe : FrontEnd) (c r : NumClass) : (toyTyped fe c r).nums.Typed fe :=
  toyArgs_typed fe 1

theorem toyTyped_doc (fe : FrontEnd) (c r : NumClass) :
    SirDoc fe .rectF (toyTyped fe c r).nums 2 12 .x_y .warn := toyArgs_doc fe 1 (by decide)

/-- Single precision sampling parameters: MATLAB and Octave read other memory. -/
example (L : FFTLib Int) : frontSirT L .octave .rectF (toyTyped .octave .single .double) = .ub .oob :=
  C88_sir_class_violated L .octave (Or.inr rfl) .rectF _ (toyTyped_typed _ _ _) 2 12 .x_y .warn
    (toyTyped_doc _ _ _) (Or.inl rfl) (Or.inr (.octave (by decide))) (Or.inl rfl)
    (Or.inr (Or.inl (by decide)))

example (L : FFTLib Int) : frontSirT L .matlab .rectF (toyTyped .matlab .int32 .double) = .ub .oob :=
  C88_sir_class_violated L .matlab (Or.inl rfl) .rectF _ (toyTyped_typed _ _ _) 2 12 .x_y .warn
    (toyTyped_doc _ _ _) (Or.inl rfl) (Or.inr (.matlab (by decide))) (Or.inl rfl)
    (Or.inr (Or.inl (by decide)))

/-- In Python the call is the documented one, in Julia it is refused. -/
example (L : FFTLib Int) : frontSirT L .python .rectF (toyTyped .python .single .int16) =
    .ok (.call ((toyArgs .python 1).meant L .python .rectF 2 12 .x_y .warn)) := by
  rw [C88_sir_python L .rectF _ (toyTyped_typed _ _ _)]
  exact C35_sir_call L .python .rectF _ (toyTyped_typed _ .single .int16) 2 12 .x_y .warn
    (toyTyped_doc _ .single .int16)

example (L : FFTLib Int) :
    frontSirT L .julia .rectF (toyTyped .julia .single .double) = .ok (.rejected true) := by
  rw [C88_sir_julia L .rectF _ (toyTyped_typed _ _ _), if_neg (by decide)]

/-- Octave accepts observation points of any class. -/
example (L : FFTLib Int) : frontSirT L .octave .rectF (toyTyped .octave .double .int8) =
    .ok (.call ((toyArgs .octave 1).meant L .octave .rectF 2 12 .x_y .warn)) := by
  rw [C88_sir_fine L .octave .rectF _ (toyTyped_typed _ _ _)
    ⟨nofun, nofun, Or.inr fun _ => rfl, fun _ => rfl, nofun, fun _ => rfl,
      fun _ => ⟨nofun, fun _ h => absurd (StrArg.text.inj h) (by decide)⟩⟩]
  exact C35_sir_call L .octave .rectF _ (toyTyped_typed _ .double .int8) 2 12 .x_y .warn
    (toyTyped_doc _ .double .int8)

/-- MATLAB accepts single precision observation points, and reads after them. -/
example (L : FFTLib Int) : ∃ c, frontSirT L .matlab .rectF (toyTyped .matlab .double .single) = .ok (.call c) ∧
    c.No = 2 ∧ ∀ fuel m, c.serialAt 1 fuel m = .ub .oob :=
  C88_matlab_points_violated L .rectF _ (toyTyped_typed _ _ _) 2 12 .x_y .warn (toyTyped_doc _ _ _)
    (by decide) (by decide) rfl rfl rfl rfl rfl

/-- 64 bit integers in MATLAB: other numbers are used. -/
example (L : FFTLib Int) : frontSirT L .matlab .rectF (toyTyped .matlab .int64 .double) =
    frontSir L .matlab .rectF (toyTyped .matlab .int64 .double).misread ∧
    (toyTyped .matlab .int64 .double).misread.sPar.data 0 ≠ (toyArgs .matlab 1).sPar.data 0 :=
  ⟨C88_matlab_int64 L .rectF _ (toyTyped_typed _ _ _) rfl rfl rfl rfl rfl rfl, by decide⟩

/-- An array with one element and a delay of its own, all doubles. -/
def toyOne (fe : FrontEnd) : ArrArgsT Int where
  ro := ofClass .double ⟨[2, 3], fun i => [0, 0, 0, 0, 5, 40].getD i 0⟩
  geom := ofClass .double ⟨toyShape fe 2, fun _ => 4⟩
  grid := ofClass .double ⟨[1, 3], fun _ => 0⟩
  sPar := ofClass .double ⟨toyShape fe 4, fun i => [2, 2, 1, 12].getD i 0⟩
  delay := ofClass .double ⟨toyShape fe 1, fun _ => 0⟩
  mPar := ofClass .double ⟨toyShape fe 3, fun i => [100, 1000, 0].getD i 0⟩
  foc := .text "ud"
  focal := ofClass .double ⟨toyShape fe 1, fun _ => 7⟩
  steer := .text "off"
  steerPar := ofClass .double ⟨toyShape fe 2, fun _ => 0⟩
  apod := .text "off"
  apodVec := ofClass .double ⟨toyShape fe 1, fun _ => 1⟩
  winPar := ofClass .double ⟨[1, 1], fun _ => 3⟩
  err := some (.text "stop")

theorem toyOne_typed (fe : FrontEnd) : (toyOne fe).nums.Typed fe := by
  cases fe <;> exact ⟨⟨_, _, rfl⟩, by first | exact ⟨_, rfl⟩ | exact ⟨_, _, rfl⟩,
    by first | exact ⟨_, rfl⟩ | exact ⟨_, _, rfl⟩, by first | exact ⟨_, rfl⟩ | exact ⟨_, _, rfl⟩,
    by first | exact ⟨_, rfl⟩ | exact ⟨_, _, rfl⟩, by first | exact ⟨_, rfl⟩ | exact ⟨_, _, rfl⟩,
    by first | exact ⟨_, rfl⟩ | exact ⟨_, _, rfl⟩, by first | exact ⟨_, rfl⟩ | exact ⟨_, _, rfl⟩,
    by first | exact ⟨_, rfl⟩ | exact ⟨_, _, rfl⟩, fun _ => ⟨1, 1, rfl⟩⟩

theorem toyOne_doc (fe : FrontEnd) : ArrDoc fe .rect (toyOne fe).nums 2 1 12 .ud .none none .stop where
  ro := rfl
  geom := by cases fe <;> first | rfl | exact Or.inr rfl
  grid := rfl
  sPar := by cases fe <;> first | rfl | exact Or.inr rfl
  len := rfl
  fits := by cases fe <;> decide
  delay := by cases fe <;> simp [toyOne, ofClass, ArrArgsT.nums, Arg.size, toyShape]
  mPar := by cases fe <;> first | rfl | exact Or.inr rfl
  foc := ⟨⟨_, rfl, .ud⟩, by cases fe <;> simp [toyOne, ofClass, ArrArgsT.nums, Arg.size, toyShape]⟩
  steer := ⟨⟨_, rfl, .off⟩, by cases fe <;> first | rfl | exact Or.inr rfl⟩
  apod := ⟨⟨_, rfl, .off⟩, fun h => by (cases h), fun _ => rfl⟩
  err := Or.inr ⟨_, rfl, .stop⟩

/-- Octave reads freed memory; the same call in MATLAB is the documented one. -/
example (L : FFTLib Int) : frontArrT L .octave .rect (toyOne .octave) = .ub .oob :=
  C88_octave_one_element_violated L .rect _ (toyOne_typed _) 2 12 .ud .none none .stop (toyOne_doc _)
    (by decide) rfl

example (L : FFTLib Int) : frontArrT L .matlab .rect (toyOne .matlab) =
    .ok (.call ((toyOne .matlab).nums.meant L .matlab .rect 2 1 12 .ud .none none .stop)) := by
  rw [C88_arr_double L .matlab .rect _ (toyOne_typed _) (by decide) nofun]
  exact C35_arr_call L .matlab .rect _ (toyOne_typed _) 2 1 12 .ud .none none .stop (toyOne_doc _)

end

end Dream
