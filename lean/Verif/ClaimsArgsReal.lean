import Verif.ClaimsArgsArr
import Verif.Superpos

/-
C36 for the array functions, C47 and C48: consequences of the argument checks for the response.
-/

namespace Dream
open Arith

variable {F : Type} [Arith F]

/-- C36, array functions: if the delay has one entry, or one for each point, and the array has
elements, the accepted call has arguments of the right sizes. -/
theorem C36_arr_nonempty_safe (L : FFTLib F) (fe : FrontEnd) (kind : ArrKind) (x : ArrArgs F)
    (hx : x.Typed fe) (c : ArrCall F) (hc : frontArr L fe kind x = .ok (.call c))
    (hd : x.delay.size = 1 ∨ x.delay.size = c.No) (hnum : 1 ≤ c.A.num) (out : Nat → F) :
    c.Sized ⟨c.No * c.nt, out⟩ ∧ c.A.Sized := by
  obtain ⟨No, num, nt, met, smet, am, level, hdoc, rfl⟩ := (C35_arr_accepted L fe kind x hx c).1 hc
  refine ⟨⟨?_, ?_, rfl⟩, ⟨hnum, ?_, ?_, ?_⟩⟩
  · have : x.ro.size = No * 3 := Arg.size_eq hdoc.ro
    show x.ro.size = 3 * No
    omega
  · change x.delay.size = 1 ∨ x.delay.size = No at hd
    show x.delay.size = match (if x.delay.size = 1 then DelayType.single else .multiple) with
      | .single => 1 | .multiple => No
    by_cases e : x.delay.size = 1
    · rw [if_pos e]; exact e
    · rw [if_neg e]; rcases hd with hd | hd
      · exact absurd hd e
      · exact hd
  · have : x.grid.size = num * 3 := Arg.size_eq hdoc.grid
    show x.grid.size = 3 * num
    omega
  · change 1 ≤ num at hnum
    show if met = .ud then (focalOf met num x.focal).size = num else 1 ≤ (focalOf met num x.focal).size
    unfold focalOf
    split
    · rfl
    · exact hnum
  · intro _ _
    show (if am = some .ud ∧ x.apodVec.size = num then vecOf num x.apodVec.data else zeroVec num).size = num
    split <;> rfl

/-- C36, array functions: an empty delay vector is accepted and then read outside. -/
theorem C36_arr_empty_unsafe (L : FFTLib F) (fe : FrontEnd) (kind : ArrKind) (x : ArrArgs F)
    (hx : x.Typed fe) (No num nt : Nat) (met : FocusMet) (smet : SteerMet) (am : Option ApodMet)
    (level : ErrorLevel) (h : ArrDoc fe kind x No num nt met smet am level) (hd : x.delay.size = 0) :
    ∃ c, frontArr L fe kind x = .ok (.call c) ∧ c.No = No ∧
      ∀ n, n < No → ∀ fuel m, c.serialAt n fuel m = .ub .oob := by
  refine ⟨_, C35_arr_call L fe kind x hx No num nt met smet am level h, rfl, fun n hn fuel m => ?_⟩
  have hro : x.ro.size = No * 3 := Arg.size_eq h.ro
  have r : ∀ i, i < No * 3 → x.ro.buf.read (i : Int) = .ok (x.ro.data i) :=
    fun i hi => Arg.read_eq hro hi
  have hdel : x.delay.buf.read (n : Int) = .ub .oob := by
    simp only [Buf.read, Arg.buf, hd]
    rw [if_neg (by omega)]
  have hin : (x.meant L fe kind No num nt met smet am level).inputs n = .ub .oob := by
    simp only [ArrCall.inputs, ArrArgs.meant, hd]
    rw [r n (by omega), r (n + 1 * No) (by omega), r (n + 2 * No) (by omega)]
    simp only [Outcome.bind, if_neg (show ¬ (0 = 1) by decide)]
    rw [hdel]
  simp only [ArrCall.serialAt, hin, Outcome.bind]

/-! ### C47: user defined weights of the wrong length -/

/-- C47: in Octave, Python and Julia user defined weights of the wrong length are rejected without a
message (`v` is a vector of weights with which the call would be accepted). -/
theorem C47_rejected_silently (L : FFTLib F) (fe : FrontEnd) (hfe : fe ≠ .matlab) (kind : ArrKind)
    (x : ArrArgs F) (hx : x.Typed fe) (No num nt : Nat) (met : FocusMet) (smet : SteerMet)
    (level : ErrorLevel)
    (v : Arg F) (h : ArrDoc fe kind { x with apodVec := v } No num nt met smet (some .ud) level)
    (ha : x.apod = .text "ud") (hl : x.apodVec.size ≠ num) :
    frontArr L fe kind x = .ok (.rejected false) := by
  -- the other arguments are fine
  obtain ⟨ro, geom, grid, sPar, len, fits, delay, mPar, foc, steer, win⟩ :
      x.ro.shape = [No, 3] ∧ x.geom.HasLen fe kind.docPars ∧ x.grid.shape = [num, 3] ∧
      x.sPar.HasLen fe 4 ∧ trunc (x.sPar.data 3) = some (nt : Int) ∧ fe.idx.fits nt = true ∧
      (x.delay.size = 0 ∨ x.delay.size = 1 ∨ x.delay.size = No) ∧ x.mPar.HasLen fe 3 ∧
      FocArg num x.foc x.focal met ∧ SteerArg fe x.steer x.steerPar smet ∧
      (fe.looksAtWindow = true → x.winPar.shape = [1, 1]) := by
    exact ⟨h.ro, h.geom, h.grid, h.sPar, h.len, h.fits, h.delay, h.mPar, h.foc, h.steer, h.apod.2.2⟩
  unfold frontArr
  rw [checkObs_eq fe ro, if_pos rfl]
  simp only [Outcome.ok_bind, ret_next]
  rw [kind.numPars_doc, parseGeometry_eq fe hx.geom _ kind.docPars_pos, if_pos geom]
  simp only [Outcome.ok_bind, ret_next]
  rw [checkArray_eq fe grid, if_pos rfl]
  simp only [Outcome.ok_bind, ret_next]
  rw [parseSampling_eq fe hx.sPar, if_pos sPar, len]
  simp only [castIdx, fits, if_true, Outcome.ok_bind, ret_next]
  rw [checkDelay_eq fe hx.delay, if_pos delay]
  simp only [Outcome.ok_bind, ret_next]
  rw [parseMaterial_eq fe hx.mPar, if_pos mPar]
  simp only [Outcome.ok_bind, ret_next]
  rw [parseFocus_eq fe x.foc hx.focal num met foc]
  simp only [Outcome.ok_bind, ret_next]
  rw [parseSteer_eq fe x.steer x.steerPar smet steer]
  simp only [Outcome.ok_bind, ret_next]
  have hg : getString fe "ud" = "ud" := by cases fe <;> rfl
  have ht : lookup apodTab "ud" = some (some .ud) := by simp [lookup, apodTab]
  rw [ha]
  simp only [parseApod, hg, ht, udWeights, if_true, Arg.count_eq hx.apodVec, Outcome.ok_bind, hl]
  cases fe with
  | matlab => exact absurd rfl hfe
  | python => simp [PRes.next, hl]
  | julia => simp [PRes.next, hl]
  | octave =>
    have hp := win rfl
    simp [PRes.next, hl, Arg.dim_zero hp, Arg.dim_one hp]

/-- C47: in MATLAB they are accepted, without a message: the driver runs with weight zero for every
element. -/
theorem C47_matlab_accepts (L : FFTLib F) (kind : ArrKind) (x : ArrArgs F) (hx : x.Typed .matlab)
    (c : ArrCall F) (hc : frontArr L .matlab kind x = .ok (.call c)) (ha : x.apod = .text "ud")
    (hl : x.apodVec.size ≠ c.A.num) :
    c.A.doApod = true ∧ c.A.apodMet = .ud ∧ ∀ n, n < c.A.num → c.A.apod.data n = lit 0 := by
  obtain ⟨No, num, nt, met, smet, am, level, hdoc, rfl⟩ := (C35_arr_accepted L .matlab kind x hx c).1 hc
  obtain ⟨⟨s, e1, e2⟩, -⟩ := hdoc.apod
  rw [ha] at e1
  cases e1
  have := (apodName_ud _ _ e2).2 rfl
  subst this
  refine ⟨rfl, rfl, fun n _ => ?_⟩
  change x.apodVec.size ≠ num at hl
  show (if some ApodMet.ud = some .ud ∧ x.apodVec.size = num then vecOf num x.apodVec.data
    else zeroVec num).data n = lit 0
  rw [if_neg (by rintro ⟨-, h⟩; exact hl h)]
  rfl

/-- C47: and then every response that is not out of bounds is zero: with exact arithmetic, on a
zero filled output matrix, the serial function leaves column `n` zero. -/
theorem C47_matlab_zero_response (L : FFTLib ℝ) (kind : ArrKind) (x : ArrArgs ℝ)
    (hx : x.Typed .matlab) (c : ArrCall ℝ) (hc : frontArr L .matlab kind x = .ok (.call c))
    (ha : x.apod = .text "ud") (hl : x.apodVec.size ≠ c.A.num) (hnum : 1 ≤ c.A.num)
    (n : ℕ) (hn : n < c.No) (xo yo zo dl : ℝ) (hin : c.inputs n = .ok (xo, yo, zo, dl))
    (d : Dims ℝ) (hd : maxDimArr c.A.G c.A.num = .ok d) (fuel : ℕ)
    (hdel : x.delay.size = 1 ∨ x.delay.size = c.No)
    (resp : ℕ → Buf ℝ) (code : ℕ → SIRError)
    (h : ∀ k < c.A.num, (c.K.kern 1).serial c.nt c.ty c.level c.att
        { c.p with delay := dl - (c.A.element d c.p.cp k).foc - (c.A.element d c.p.cp k).steer }
        (xo - (c.A.element d c.p.cp k).gx) (yo - (c.A.element d c.p.cp k).gy)
        (zo - (c.A.element d c.p.cp k).gz) fuel 0 (zeroBuf c.nt) = .ok (resp k, code k))
    (hok : ∀ k < c.A.num, code k ≠ .outOfBounds) :
    ∃ m' e, c.serialAt n fuel (zeroBuf (c.No * c.nt)) = .ok (m', e) ∧
      ∀ i, i < c.nt → m'.data (n * c.nt + i) = 0 := by
  obtain ⟨-, hA⟩ := C36_arr_nonempty_safe L .matlab kind x hx c hc hdel hnum (fun _ => 0)
  obtain ⟨h1, h2, h3⟩ := C47_matlab_accepts L kind x hx c hc ha hl
  have hb : n * c.nt + c.nt ≤ (zeroBuf (c.No * c.nt)).size := by
    have := Nat.mul_le_mul_right c.nt hn
    rw [Nat.succ_mul] at this
    exact this
  obtain ⟨m', e1, e2, -⟩ := C15_superposition c.A hA c.K c.nt c.ty c.level c.att
    { c.p with delay := dl } xo yo zo fuel (n * c.nt) (zeroBuf (c.No * c.nt)) hb d hd resp code h hok
  refine ⟨m', code (c.A.num - 1), ?_, fun i hi => ?_⟩
  · simp only [ArrCall.serialAt, hin, Outcome.bind]
    exact e1
  · rw [e2 i hi]
    have hw : ∀ k ∈ Finset.range c.A.num,
        (c.A.element d c.p.cp k).weight * (resp k).data i = 0 := by
      intro k hk
      have : (c.A.element d c.p.cp k).weight = 0 := by
        simp only [ArrPar.element, h1, h2, if_true, apodFormula]
        rw [h3 k (Finset.mem_range.1 hk)]
        simp
      rw [this, zero_mul]
    rw [Finset.sum_eq_zero hw]
    simp [zeroBuf]

/-! ### C48: the window parameter in Python and Julia -/

/-- C48: the Python and Julia interfaces do not use the window parameter: whatever it is, the call is
the same and has parameter zero. -/
theorem C48_window_ignored (L : FFTLib F) (fe : FrontEnd) (hfe : fe = .python ∨ fe = .julia)
    (kind : ArrKind) (x : ArrArgs F) (hx : x.Typed fe) (c : ArrCall F)
    (hc : frontArr L fe kind x = .ok (.call c)) :
    c.A.apodPar = lit 0 ∧ ∀ w, frontArr L fe kind { x with winPar := w } = .ok (.call c) := by
  obtain ⟨No, num, nt, met, smet, am, level, hdoc, rfl⟩ := (C35_arr_accepted L fe kind x hx c).1 hc
  have hlook : fe.looksAtWindow = false := by rcases hfe with rfl | rfl <;> rfl
  have hpar : ∀ w, (apodOf fe num x.apodVec w am) = apodOf fe num x.apodVec x.winPar am := by
    intro w; simp [apodOf, hlook]
  refine ⟨?_, fun w => ?_⟩
  · show (apodOf fe num x.apodVec x.winPar am).par = lit 0
    simp [apodOf, hlook]
  · have hdoc' : ArrDoc fe kind { x with winPar := w } No num nt met smet am level :=
      ⟨hdoc.ro, hdoc.geom, hdoc.grid, hdoc.sPar, hdoc.len, hdoc.fits, hdoc.delay, hdoc.mPar, hdoc.foc,
        hdoc.steer, ⟨hdoc.apod.1, hdoc.apod.2.1, fun h => by rw [hlook] at h; cases h⟩, hdoc.err⟩
    have hx' : ArrArgs.Typed fe { x with winPar := w } :=
      ⟨hx.ro, hx.geom, hx.grid, hx.sPar, hx.delay, hx.mPar, hx.focal, hx.steerPar, hx.apodVec,
        fun h => by rw [hlook] at h; cases h⟩
    rw [C35_arr_call L fe kind _ hx' No num nt met smet am level hdoc']
    simp only [ArrArgs.meant, hpar w]

/-- C48: so a Gaussian window has weight one for every element, and a raised cosine window has
weights between -1 and 1 (a cosine without offset), whatever the window parameter. -/
theorem C48_gauss_flat (L : FFTLib ℝ) (fe : FrontEnd) (hfe : fe = .python ∨ fe = .julia)
    (kind : ArrKind) (x : ArrArgs ℝ) (hx : x.Typed fe) (c : ArrCall ℝ)
    (hc : frontArr L fe kind x = .ok (.call c)) (d : Dims ℝ) (cp : ℝ) (n : ℕ) :
    (x.apod = .text "gauss" → (c.A.element d cp n).weight = 1) ∧
    (x.apod = .text "raised" → (c.A.element d cp n).weight =
      Real.cos (Real.sqrt (c.A.G.data n ^ 2 + c.A.G.data (c.A.num + n) ^ 2) * Real.pi / d.rmax)) := by
  have hpar := (C48_window_ignored L fe hfe kind x hx c hc).1
  obtain ⟨No, num, nt, met, smet, am, level, hdoc, rfl⟩ := (C35_arr_accepted L fe kind x hx c).1 hc
  obtain ⟨⟨s, e1, e2⟩, -⟩ := hdoc.apod
  have ht := (C35_apod_names _ _).2 e2
  constructor
  · intro ha
    rw [ha] at e1; cases e1
    have : am = some .gauss := by simpa [lookup, apodTab, eq_comm] using ht
    subst this
    simp only [ArrPar.element]
    rw [hpar]
    simp [ArrArgs.meant, apodFormula]
  · intro ha
    rw [ha] at e1; cases e1
    have : am = some .raisedCosine := by simpa [lookup, apodTab, eq_comm] using ht
    subst this
    simp only [ArrPar.element]
    rw [hpar]
    simp [ArrArgs.meant, apodFormula, sq]

/-! ### The hypotheses can be met -/

section
attribute [local instance] toyArith

/-- Two elements, user defined weights (`k` of them) and focusing delays. -/
def toyArrArgs (fe : FrontEnd) (apod : String) (k : Nat) : ArrArgs Int where
  ro := ⟨[2, 3], fun i => [0, 0, 0, 0, 5, 40].getD i 0⟩
  geom := ⟨toyShape fe 2, fun _ => 4⟩
  grid := ⟨[2, 3], fun i => [0, 5, 0, 0, 0, 0].getD i 0⟩
  sPar := ⟨toyShape fe 4, fun i => [2, 2, 1, 12].getD i 0⟩
  delay := ⟨toyShape fe 1, fun _ => 0⟩
  mPar := ⟨toyShape fe 3, fun i => [100, 1000, 0].getD i 0⟩
  foc := .text "ud"
  focal := ⟨toyShape fe 2, fun _ => 7⟩
  steer := .text "off"
  steerPar := ⟨toyShape fe 2, fun _ => 0⟩
  apod := .text apod
  apodVec := ⟨toyShape fe k, fun _ => 1⟩
  winPar := ⟨[1, 1], fun _ => 3⟩
  err := some (.text "stop")

theorem toyArrArgs_typed (fe : FrontEnd) (a : String) (k : Nat) : (toyArrArgs fe a k).Typed fe := by
  cases fe <;> exact ⟨⟨_, _, rfl⟩, by first | exact ⟨_, rfl⟩ | exact ⟨_, _, rfl⟩,
    by first | exact ⟨_, rfl⟩ | exact ⟨_, _, rfl⟩, by first | exact ⟨_, rfl⟩ | exact ⟨_, _, rfl⟩,
    by first | exact ⟨_, rfl⟩ | exact ⟨_, _, rfl⟩, by first | exact ⟨_, rfl⟩ | exact ⟨_, _, rfl⟩,
    by first | exact ⟨_, rfl⟩ | exact ⟨_, _, rfl⟩, by first | exact ⟨_, rfl⟩ | exact ⟨_, _, rfl⟩,
    by first | exact ⟨_, rfl⟩ | exact ⟨_, _, rfl⟩, fun _ => ⟨1, 1, rfl⟩⟩

theorem toyArrArgs_doc (fe : FrontEnd) (a : String) (am : Option ApodMet) (ha : ApodName a am) (k : Nat)
    (hk : am = some .ud → k = 2 ∨ fe = .matlab) :
    ArrDoc fe .rect (toyArrArgs fe a k) 2 2 12 .ud .none am .stop where
  ro := rfl
  geom := by cases fe <;> first | rfl | exact Or.inr rfl
  grid := rfl
  sPar := by cases fe <;> first | rfl | exact Or.inr rfl
  len := rfl
  fits := by cases fe <;> decide
  delay := by cases fe <;> simp [toyArrArgs, Arg.size, toyShape]
  mPar := by cases fe <;> first | rfl | exact Or.inr rfl
  foc := ⟨⟨_, rfl, .ud⟩, by cases fe <;> simp [toyArrArgs, Arg.size, toyShape]⟩
  steer := ⟨⟨_, rfl, .off⟩, by cases fe <;> first | rfl | exact Or.inr rfl⟩
  apod := ⟨⟨_, rfl, ha⟩, fun h => by
    rcases hk h with h | h
    · left; subst h; cases fe <;> simp [toyArrArgs, Arg.size, toyShape]
    · exact Or.inr h, fun _ => rfl⟩
  err := Or.inr ⟨_, rfl, .stop⟩

/-- MATLAB: three weights for two elements are accepted. -/
example (L : FFTLib Int) : ∃ c, frontArr L .matlab .rect (toyArrArgs .matlab "ud" 3) = .ok (.call c) ∧
    c.A.num = 2 ∧ ∀ n, n < 2 → c.A.apod.data n = 0 := by
  have hc := C35_arr_call L .matlab .rect _ (toyArrArgs_typed .matlab "ud" 3) 2 2 12 .ud .none (some .ud)
    .stop (toyArrArgs_doc .matlab "ud" _ .ud 3 (fun _ => Or.inr rfl))
  exact ⟨_, hc, rfl, (C47_matlab_accepts L .rect _ (toyArrArgs_typed .matlab "ud" 3) _ hc rfl
    (by simp [ArrArgs.meant, toyArrArgs, Arg.size, toyShape])).2.2⟩

/-- Octave: they are rejected silently. -/
example (L : FFTLib Int) :
    frontArr L .octave .rect (toyArrArgs .octave "ud" 3) = .ok (.rejected false) :=
  C47_rejected_silently L .octave (by decide) .rect _ (toyArrArgs_typed _ _ _) 2 2 12 .ud .none .stop
    ⟨[1, 2], fun _ => 1⟩ (toyArrArgs_doc .octave "ud" _ .ud 2 (fun _ => Or.inl rfl)) rfl
    (by simp [toyArrArgs, Arg.size, toyShape])

/-- Python: a Gaussian window with parameter 3 is used with parameter 0. -/
example (L : FFTLib Int) : ∃ c, frontArr L .python .rect (toyArrArgs .python "gauss" 2) = .ok (.call c) ∧
    c.A.apodMet = .gauss ∧ c.A.apodPar = 0 := by
  have hc := C35_arr_call L .python .rect _ (toyArrArgs_typed .python "gauss" 2) 2 2 12 .ud .none
    (some .gauss) .stop (toyArrArgs_doc .python "gauss" _ .gauss 2 (fun h => by cases h))
  exact ⟨_, hc, rfl, (C48_window_ignored L .python (Or.inl rfl) .rect _ (toyArrArgs_typed _ _ _) _ hc).1⟩

end

end Dream
