import Verif.ClaimsArgsReal
import Verif.ClaimsAnnu

/-
C37, C51: the user interface of the annular array function.
-/

namespace Dream
open Arith

variable {F : Type} [Arith F]

/-! ### C37: the check of the radii -/

/-- C37: the radii argument, a matrix, is rejected iff it is no vector and has an even number of
columns; in Julia iff it has an even number of entries. -/
theorem C37_check (fe : FrontEnd) (a : Arg F) (h : a.IsVecArg fe) :
    (fe ≠ .julia → ∀ m n, a.shape = [m, n] →
      ((∃ b, checkArrayAnnu fe a = .ok (.ret true b ())) ↔ (m = 1 ∨ n = 1 ∨ n % 2 = 1))) ∧
    (fe = .julia → ((∃ b, checkArrayAnnu fe a = .ok (.ret true b ())) ↔ a.size % 2 = 1)) := by
  have hsq : ∀ n : Nat, n * n % 2 = n % 2 := by
    intro n
    rw [Nat.mul_mod]
    rcases Nat.mod_two_eq_zero_or_one n with e | e <;> simp [e]
  have hmsg : ∀ (fe : FrontEnd) b, failMsg fe () ≠ .ret true b () := by
    intro fe b; cases fe <;> simp [failMsg]
  refine ⟨fun hj m n hs => ?_, fun hj => ?_⟩
  · have : checkArrayAnnu fe a =
        .ok (if m ≠ 1 ∧ n ≠ 1 ∧ n * n % 2 = 0 then failMsg fe () else .ret true false ()) := by
      cases fe <;> first
        | exact absurd rfl hj
        | simp [checkArrayAnnu, Arg.dim_zero hs, Arg.dim_one hs]
    rw [this, hsq]
    by_cases hc : m ≠ 1 ∧ n ≠ 1 ∧ n % 2 = 0
    · rw [if_pos hc]
      constructor
      · rintro ⟨b, e⟩; simp only [Outcome.ok.injEq] at e; exact absurd e (hmsg fe b)
      · omega
    · rw [if_neg hc]
      exact ⟨fun _ => by omega, fun _ => ⟨_, rfl⟩⟩
  · subst hj
    simp only [checkArrayAnnu]
    by_cases hc : a.size % 2 = 0
    · rw [if_pos hc]
      constructor
      · rintro ⟨b, e⟩; simp only [Outcome.ok.injEq] at e; exact absurd e (hmsg _ b)
      · omega
    · rw [if_neg hc]
      exact ⟨fun _ => by omega, fun _ => ⟨_, rfl⟩⟩

/-- C37: so in MATLAB, Octave and Python every row or column vector of radii is accepted, whatever its
length. -/
theorem C37_vector_accepted (fe : FrontEnd) (hj : fe ≠ .julia) (a : Arg F) (k : Nat)
    (h : a.HasLen fe k) : ∃ b, checkArrayAnnu fe a = .ok (.ret true b ()) := by
  have hv := h.vec
  cases fe with
  | julia => exact absurd rfl hj
  | _ =>
    rcases h with h | h
    · exact ((C37_check _ a hv).1 hj _ _ h).2 (Or.inr (Or.inl rfl))
    · exact ((C37_check _ a hv).1 hj _ _ h).2 (Or.inl rfl)

/-! ### The wrapper -/

/-- The arguments have the types of the interface. -/
structure AnnuArgs.Typed (fe : FrontEnd) (x : AnnuArgs F) : Prop where
  ro : x.ro.IsMatrix
  radii : x.radii.IsVecArg fe
  sPar : x.sPar.IsVecArg fe
  delay : x.delay.IsVecArg fe
  mPar : x.mPar.IsVecArg fe
  focal : x.focal.IsVecArg fe
  apodVec : x.apodVec.IsVecArg fe
  winPar : fe.looksAtWindow = true → x.winPar.IsMatrix

/-- Number of radii used by the driver for a vector of radii: all of them, except that the Python
interface counts the rows. -/
def radiiUsed (fe : FrontEnd) (a : Arg F) : Nat :=
  match fe with
  | .python => a.shape.headD 0
  | _ => a.size

/-- Number of entries required of user defined focusing delays and weights. -/
def entriesWanted (fe : FrontEnd) (a : Arg F) : Nat :=
  match fe with
  | .python => a.shape.headD 0
  | .julia => a.size
  | _ => (a.size + 1) / 2

theorem annuCounts_eq (fe : FrontEnd) (a : Arg F) (h : a.IsVecArg fe) :
    annuCounts fe a = .ok (radiiUsed fe a, entriesWanted fe a) := by
  cases fe with
  | julia => rfl
  | _ =>
    obtain ⟨m, n, h⟩ := h
    simp [annuCounts, radiiUsed, entriesWanted, Arg.dim_zero h, Arg.dim_one h, Arg.size_eq h, h]

/-- The arguments are as checked. -/
structure AnnuDoc (fe : FrontEnd) (x : AnnuArgs F) (No nt : Nat) (met : FocusMet)
    (am : Option ApodMet) (level : ErrorLevel) : Prop where
  ro : x.ro.shape = [No, 3]
  radii : ∃ b, checkArrayAnnu fe x.radii = .ok (.ret true b ())
  sPar : x.sPar.HasLen fe 4
  len : trunc (x.sPar.data 3) = some (nt : Int)
  fits : fe.idx.fits nt = true
  delay : x.delay.size = 0 ∨ x.delay.size = 1 ∨ x.delay.size = No
  mPar : x.mPar.HasLen fe 3
  foc : FocArg (entriesWanted fe x.radii) x.foc x.focal met
  apod : ApodArg fe (entriesWanted fe x.radii) x.apod x.apodVec x.winPar am
  err : ErrArg x.err level

/-- The driver call meant by the arguments. -/
def AnnuArgs.meant (L : FFTLib F) (fe : FrontEnd) (x : AnnuArgs F) (No nt : Nat)
    (met : FocusMet) (am : Option ApodMet) (level : ErrorLevel) : AnnuFront F :=
  { A := { numRadii := radiiUsed fe x.radii, Gr := x.radii.buf, focMet := met,
           focal := focalOf met (entriesWanted fe x.radii) x.focal,
           doApod := am.isSome,
           apod := (apodOf fe (entriesWanted fe x.radii) x.apodVec x.winPar am).vec,
           apodMet := am.getD .gauss,
           apodPar := (apodOf fe (entriesWanted fe x.radii) x.apodVec x.winPar am).par }
    p := { dx := x.sPar.data 0, dy := x.sPar.data 1, dt := x.sPar.data 2, delay := lit 0,
           v := x.mPar.data 0, cp := x.mPar.data 1 }
    att := if Arith.lt epsilon (x.mPar.data 2) = true then
      some (attResp L { len := nt, dt := x.sPar.data 2, alpha := x.mPar.data 2 }) else none
    nt := nt
    ty := fe.idx
    level := level
    No := No
    Ro := x.ro.buf
    delayType := if x.delay.size = 1 then .single else .multiple
    delay := x.delay.buf }

theorem C51_call (L : FFTLib F) (fe : FrontEnd) (x : AnnuArgs F)
    (hx : x.Typed fe) (No nt : Nat) (met : FocusMet) (am : Option ApodMet)
    (level : ErrorLevel) (h : AnnuDoc fe x No nt met am level) :
    frontAnnu L fe x = .ok (.call (x.meant L fe No nt met am level)) := by
  unfold frontAnnu
  rw [checkObs_eq fe h.ro, if_pos rfl]
  simp only [Outcome.ok_bind, ret_next]
  obtain ⟨b, hr⟩ := h.radii
  rw [hr]
  simp only [Outcome.ok_bind, ret_next]
  rw [annuCounts_eq fe _ hx.radii]
  simp only [Outcome.ok_bind]
  rw [parseSampling_eq fe hx.sPar, if_pos h.sPar, h.len]
  simp only [castIdx, h.fits, if_true, Outcome.ok_bind, ret_next]
  rw [checkDelay_eq fe hx.delay, if_pos h.delay]
  simp only [Outcome.ok_bind, ret_next]
  rw [parseMaterial_eq fe hx.mPar, if_pos h.mPar]
  simp only [Outcome.ok_bind, ret_next]
  rw [parseFocus_eq fe x.foc hx.focal _ met h.foc]
  simp only [Outcome.ok_bind, ret_next]
  rw [parseApod_next fe x.apod hx.apodVec _ am h.apod]
  have herr : (parseError fe x.err) = .ret true false level := by
    rw [parseError_eq, (levelOf_iff fe _ _).2 h.err]
  have hnt : ¬ ((nt : Int) < 0) := by omega
  simp only [ret_next, herr, allocOut, hnt, if_false]
  rfl

theorem checkArrayAnnu_cases (fe : FrontEnd) (a : Arg F) (h : a.IsVecArg fe) :
    (∃ b, checkArrayAnnu fe a = .ok (.ret true b ())) ∨ checkArrayAnnu fe a = .ok (failMsg fe ()) := by
  cases fe with
  | julia =>
    simp only [checkArrayAnnu]
    split
    · right; rfl
    · left; exact ⟨_, rfl⟩
  | _ =>
    obtain ⟨m, n, h⟩ := h
    simp only [checkArrayAnnu, Arg.dim_zero h, Arg.dim_one h, Outcome.ok_bind]
    split
    · right; rfl
    · left; exact ⟨_, rfl⟩

/-- What can happen with arguments of the right types. -/
theorem frontAnnu_cases (L : FFTLib F) (fe : FrontEnd) (x : AnnuArgs F) (hx : x.Typed fe) :
    (∃ No nt met am level, AnnuDoc fe x No nt met am level) ∨
    (∃ b, frontAnnu L fe x = .ok (.rejected b)) ∨
    (entriesWanted fe x.radii = 0 ∧ frontAnnu L fe x = .ub .oob) ∨
    ((∀ t, trunc (x.sPar.data 3) = some t → fe.idx.fits t = false) ∧
      frontAnnu L fe x = .ub .cast) := by
  obtain ⟨m, n, hro⟩ := hx.ro
  unfold frontAnnu
  rw [checkObs_eq fe hro]
  by_cases hn : n = 3
  swap
  · right; left; exact ⟨_, by rw [if_neg hn, Outcome.ok_bind, failMsg_next]⟩
  subst hn
  simp only [if_true, Outcome.ok_bind, ret_next]
  rcases checkArrayAnnu_cases fe x.radii hx.radii with ⟨b, hr⟩ | hr
  swap
  · right; left; exact ⟨_, by rw [hr, Outcome.ok_bind, failMsg_next]⟩
  have hradii : ∃ b, checkArrayAnnu fe x.radii = .ok (.ret true b ()) := ⟨b, hr⟩
  rw [hr]
  simp only [Outcome.ok_bind, ret_next]
  rw [annuCounts_eq fe _ hx.radii]
  simp only [Outcome.ok_bind]
  rw [parseSampling_eq fe hx.sPar]
  by_cases hs : x.sPar.HasLen fe 4
  swap
  · right; left; exact ⟨_, by rw [if_neg hs, Outcome.ok_bind, failMsg_next]⟩
  simp only [if_pos hs]
  cases ht : trunc (x.sPar.data 3) with
  | none => right; right; right; exact ⟨fun t h => by (cases h), by simp [castIdx]⟩
  | some t =>
  by_cases hfit : fe.idx.fits t = true
  swap
  · right; right; right
    refine ⟨fun t' h => ?_, by simp [castIdx, hfit]⟩
    cases h; simpa using hfit
  simp only [castIdx, if_pos hfit, Outcome.ok_bind, ret_next]
  rw [checkDelay_eq fe hx.delay]
  by_cases hd : x.delay.size = 0 ∨ x.delay.size = 1 ∨ x.delay.size = m
  swap
  · right; left; exact ⟨_, by rw [if_neg hd, Outcome.ok_bind, failMsg_next]⟩
  simp only [if_pos hd, Outcome.ok_bind, ret_next]
  rw [parseMaterial_eq fe hx.mPar]
  by_cases hm : x.mPar.HasLen fe 3
  swap
  · right; left; exact ⟨_, by rw [if_neg hm, Outcome.ok_bind, failMsg_next]⟩
  simp only [if_pos hm, Outcome.ok_bind, ret_next]
  by_cases hf : ∃ met, FocArg (entriesWanted fe x.radii) x.foc x.focal met
  swap
  · rcases parseFocus_no_call fe x.foc hx.focal _ hf _ with h | ⟨h0, h⟩
    · right; left; exact h
    · right; right; left; exact ⟨h0, h⟩
  obtain ⟨met, hf⟩ := hf
  rw [parseFocus_eq fe x.foc hx.focal _ met hf]
  simp only [Outcome.ok_bind, ret_next]
  by_cases hap : ∃ am, ApodArg fe (entriesWanted fe x.radii) x.apod x.apodVec x.winPar am
  swap
  · right; left; exact parseApod_no_call fe x.apod hx.apodVec hx.winPar _ hap _
  obtain ⟨am, hap⟩ := hap
  rw [parseApod_next fe x.apod hx.apodVec _ am hap]
  rw [parseError_eq]
  cases hl : levelOf fe x.err with
  | none => right; left; exact ⟨_, failMsg_next _ _ _⟩
  | some level =>
    simp only [ret_next, allocOut]
    by_cases hpos : t < 0
    · rw [if_pos hpos]; right; left; exact ⟨_, rfl⟩
    · left
      have hpos' : 0 ≤ t := by omega
      exact ⟨m, t.toNat, met, am, level, hro, hradii, hs,
        by rw [ht, Int.toNat_of_nonneg hpos'], by rw [Int.toNat_of_nonneg hpos']; exact hfit, hd, hm,
        hf, hap, (levelOf_iff fe _ _).1 hl⟩

/-- C51: the driver is called exactly for arguments as checked, with the meant parameters. -/
theorem C51_accepted (L : FFTLib F) (fe : FrontEnd) (x : AnnuArgs F) (hx : x.Typed fe)
    (c : AnnuFront F) :
    frontAnnu L fe x = .ok (.call c) ↔
      ∃ No nt met am level, AnnuDoc fe x No nt met am level ∧ c = x.meant L fe No nt met am level := by
  constructor
  · intro h
    rcases frontAnnu_cases L fe x hx with ⟨No, nt, met, am, level, hd⟩ | ⟨b, h'⟩ |
      ⟨-, h'⟩ | ⟨-, h'⟩
    · refine ⟨No, nt, met, am, level, hd, ?_⟩
      have := C51_call L fe x hx _ _ _ _ _ hd
      rw [h] at this
      cases this; rfl
    all_goals (rw [h] at h'; cases h')
  · rintro ⟨No, nt, met, am, level, h, rfl⟩
    exact C51_call L fe x hx No nt met am level h

/-- C51: in every language, if the vector of radii of an accepted call is not empty, its buffers are at
least as long as the loops of the driver need. -/
theorem C51_sized (L : FFTLib F) (fe : FrontEnd) (x : AnnuArgs F) (hx : x.Typed fe)
    (hr : x.radii.size ≠ 0) (c : AnnuFront F) (hc : frontAnnu L fe x = .ok (.call c)) : c.A.Sized := by
  obtain ⟨No, nt, met, am, level, hdoc, rfl⟩ := (C51_accepted L fe x hx c).1 hc
  have hu : 1 ≤ radiiUsed fe x.radii ∧ radiiUsed fe x.radii ≤ x.radii.size := by
    cases fe with
    | python =>
      obtain ⟨m, n, h⟩ := hx.radii
      have hs : x.radii.size = m * n := Arg.size_eq h
      rw [hs] at hr ⊢
      simp only [radiiUsed, h, List.headD_cons]
      have hm : m ≠ 0 := fun e => hr (by rw [e, Nat.zero_mul])
      have hn : n ≠ 0 := fun e => hr (by rw [e, Nat.mul_zero])
      exact ⟨by omega, Nat.le_mul_of_pos_right m (by omega)⟩
    | _ => exact ⟨by simp only [radiiUsed]; omega, by simp only [radiiUsed]; exact Nat.le_refl _⟩
  have hel : (x.meant L fe No nt met am level).A.numElements ≤ entriesWanted fe x.radii ∧
      1 ≤ entriesWanted fe x.radii := by
    show (radiiUsed fe x.radii + 1) / 2 ≤ entriesWanted fe x.radii ∧ _
    cases fe <;> simp only [radiiUsed, entriesWanted] at hu ⊢ <;> omega
  refine ⟨hu.1, hu.2, ?_, ?_⟩
  · show if met = .ud then _ ≤ (focalOf met (entriesWanted fe x.radii) x.focal).size
      else 1 ≤ (focalOf met (entriesWanted fe x.radii) x.focal).size
    unfold focalOf
    split
    · exact hel.1
    · exact hel.2
  · intro _ _
    show _ ≤ (if am = some .ud ∧ x.apodVec.size = entriesWanted fe x.radii then
      vecOf (entriesWanted fe x.radii) x.apodVec.data else zeroVec (entriesWanted fe x.radii)).size
    split
    · exact hel.1
    · exact hel.1

/-- C51: with a vector of `k ≥ 1` radii, MATLAB and Octave give the driver `k` radii and vectors of exactly
the right lengths for `(k+1)/2` elements. -/
theorem C51_matlab_octave_sized (L : FFTLib F) (fe : FrontEnd) (hfe : fe = .matlab ∨ fe = .octave)
    (x : AnnuArgs F) (hx : x.Typed fe) (k : Nat) (hk : 1 ≤ k) (hr : x.radii.HasLen fe k)
    (c : AnnuFront F) (hc : frontAnnu L fe x = .ok (.call c)) :
    c.A.numRadii = k ∧ c.A.Gr.size = k ∧ c.A.numElements = (k + 1) / 2 ∧
      c.A.focal.size = (k + 1) / 2 ∧ c.A.apod.size = (k + 1) / 2 ∧ c.A.Sized := by
  have hs := C51_sized L fe x hx (by rw [hr.size]; omega) c hc
  obtain ⟨No, nt, met, am, level, hdoc, rfl⟩ := (C51_accepted L fe x hx c).1 hc
  have hn : radiiUsed fe x.radii = k := by rcases hfe with rfl | rfl <;> exact hr.size
  have he : entriesWanted fe x.radii = (k + 1) / 2 := by
    rcases hfe with rfl | rfl <;> simp [entriesWanted, hr.size]
  have hel : (x.meant L fe No nt met am level).A.numElements = (k + 1) / 2 := by
    show (radiiUsed fe x.radii + 1) / 2 = _
    rw [hn]
  refine ⟨hn, hr.size, hel, ?_, ?_, hs⟩
  · show (focalOf met (entriesWanted fe x.radii) x.focal).size = _
    rw [he]
    unfold focalOf
    split <;> rfl
  · show (if am = some .ud ∧ x.apodVec.size = entriesWanted fe x.radii then
      vecOf (entriesWanted fe x.radii) x.apodVec.data else zeroVec (entriesWanted fe x.radii)).size = _
    rw [he]
    split <;> rfl

/-- C51: in Python a row vector of radii is accepted, but only its first entry is used: the driver sees
an array with a single radius. -/
theorem C51_python_row (L : FFTLib F) (x : AnnuArgs F) (hx : x.Typed .python) (k : Nat)
    (hr : x.radii.shape = [1, k]) (c : AnnuFront F) (hc : frontAnnu L .python x = .ok (.call c)) :
    c.A.numRadii = 1 ∧ c.A.numElements = 1 := by
  obtain ⟨No, nt, met, am, level, hdoc, rfl⟩ := (C51_accepted L .python x hx c).1 hc
  have : radiiUsed .python x.radii = 1 := by simp [radiiUsed, hr]
  exact ⟨this, by show (radiiUsed .python x.radii + 1) / 2 = 1; rw [this]⟩

/-- C51: in Python (column vector) and Julia user defined focusing delays are accepted only if there is
one for each radius, although the array has only `(k+1)/2` elements; one for each element is
rejected. -/
theorem C51_user_delays (L : FFTLib F) (fe : FrontEnd) (x : AnnuArgs F) (hx : x.Typed fe) (k : Nat)
    (hk : 2 ≤ k)
    (hr : (fe = .python ∧ x.radii.shape = [k, 1]) ∨ (fe = .julia ∧ x.radii.shape = [k]))
    (hf : x.foc = .text "ud") (c : AnnuFront F) (hc : frontAnnu L fe x = .ok (.call c)) :
    x.focal.size = k ∧ c.A.numElements = (k + 1) / 2 ∧ x.focal.size ≠ c.A.numElements := by
  obtain ⟨No, nt, met, am, level, hdoc, rfl⟩ := (C51_accepted L fe x hx c).1 hc
  have he : entriesWanted fe x.radii = k := by
    rcases hr with ⟨rfl, hr⟩ | ⟨rfl, hr⟩ <;> simp [entriesWanted, hr, Arg.size]
  have hn : radiiUsed fe x.radii = k := by
    rcases hr with ⟨rfl, hr⟩ | ⟨rfl, hr⟩ <;> simp [radiiUsed, hr, Arg.size]
  obtain ⟨⟨s, e1, e2⟩, e3⟩ := hdoc.foc
  rw [hf] at e1; cases e1
  have hu : met = .ud := (focName_ud _ _ e2).2 rfl
  rw [if_pos hu, he] at e3
  have hel : (x.meant L fe No nt met am level).A.numElements = (k + 1) / 2 := by
    show (radiiUsed fe x.radii + 1) / 2 = _
    rw [hn]
  exact ⟨e3, hel, by rw [hel, e3]; omega⟩

/-! ### The hypotheses can be met -/

section
attribute [local instance] toyArith

/-- Three radii as a vector of shape `s`. -/
def toyAnnuArgs (fe : FrontEnd) (s : List Nat) (f : Nat) : AnnuArgs Int where
  ro := ⟨[2, 3], fun i => [0, 0, 0, 0, 5, 40].getD i 0⟩
  radii := ⟨s, fun i => [1, 2, 3].getD i 0⟩
  sPar := ⟨toyShape fe 4, fun i => [2, 2, 1, 12].getD i 0⟩
  delay := ⟨toyShape fe 1, fun _ => 0⟩
  mPar := ⟨toyShape fe 3, fun i => [100, 1000, 0].getD i 0⟩
  foc := .text "ud"
  focal := ⟨toyShape fe f, fun _ => 7⟩
  apod := .text "off"
  apodVec := ⟨toyShape fe 1, fun _ => 1⟩
  winPar := ⟨[1, 1], fun _ => 3⟩
  err := some (.text "stop")

/-- MATLAB: two delays for three radii. -/
example (L : FFTLib Int) : ∃ c, frontAnnu L .matlab (toyAnnuArgs .matlab [3, 1] 2) = .ok (.call c) :=
  ⟨_, C51_call L .matlab _ ⟨⟨_, _, rfl⟩, ⟨_, _, rfl⟩, ⟨_, _, rfl⟩, ⟨_, _, rfl⟩, ⟨_, _, rfl⟩, ⟨_, _, rfl⟩,
    ⟨_, _, rfl⟩, fun _ => ⟨_, _, rfl⟩⟩ 2 12 .ud none .stop
    ⟨rfl, ⟨false, rfl⟩, Or.inr rfl, rfl, by decide, Or.inr (Or.inl rfl), Or.inr rfl,
      ⟨⟨_, rfl, .ud⟩, by simp [toyAnnuArgs, Arg.size, toyShape, entriesWanted]⟩,
      ⟨⟨_, rfl, .off⟩, fun h => by (cases h), fun _ => rfl⟩, Or.inr ⟨_, rfl, .stop⟩⟩⟩

/-- Python: one delay for a row of three radii. -/
example (L : FFTLib Int) : ∃ c, frontAnnu L .python (toyAnnuArgs .python [1, 3] 1) = .ok (.call c) ∧
    c.A.numRadii = 1 :=
  ⟨_, C51_call L .python _ ⟨⟨_, _, rfl⟩, ⟨_, _, rfl⟩, ⟨_, _, rfl⟩, ⟨_, _, rfl⟩, ⟨_, _, rfl⟩, ⟨_, _, rfl⟩,
    ⟨_, _, rfl⟩, fun _ => ⟨_, _, rfl⟩⟩ 2 12 .ud none .stop
    ⟨rfl, ⟨false, rfl⟩, Or.inr rfl, rfl, by decide, Or.inr (Or.inl rfl), Or.inr rfl,
      ⟨⟨_, rfl, .ud⟩, by simp [toyAnnuArgs, Arg.size, toyShape, entriesWanted]⟩,
      ⟨⟨_, rfl, .off⟩, fun h => by (cases h), fun _ => rfl⟩, Or.inr ⟨_, rfl, .stop⟩⟩, rfl⟩

/-- Julia: three delays for three radii. -/
example (L : FFTLib Int) : ∃ c, frontAnnu L .julia (toyAnnuArgs .julia [3] 3) = .ok (.call c) :=
  ⟨_, C51_call L .julia _ ⟨⟨_, _, rfl⟩, ⟨_, rfl⟩, ⟨_, rfl⟩, ⟨_, rfl⟩, ⟨_, rfl⟩, ⟨_, rfl⟩,
    ⟨_, rfl⟩, fun _ => ⟨_, _, rfl⟩⟩ 2 12 .ud none .stop
    ⟨rfl, ⟨false, rfl⟩, rfl, rfl, by decide, Or.inr (Or.inl rfl), rfl,
      ⟨⟨_, rfl, .ud⟩, by simp [toyAnnuArgs, Arg.size, toyShape, entriesWanted]⟩,
      ⟨⟨_, rfl, .off⟩, fun h => by (cases h), fun _ => rfl⟩, Or.inr ⟨_, rfl, .stop⟩⟩⟩

end

end Dream
