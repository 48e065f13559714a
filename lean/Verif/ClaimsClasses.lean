import Verif.Classes
import Verif.ClaimsArgs
import Verif.ClaimsArgsArr
import Verif.ClaimsArgsReal
import Verif.ClaimsArgsAnnu

/-
C88: numeric classes of the arguments of the impulse response functions.  The numbers a user writes are the
parameters used, whatever their class, or the call is refused: true in Python and Julia, and for double
arguments in MATLAB and (with an exception) Octave; false for other classes in MATLAB and Octave.
-/

namespace Dream
open Arith

variable {F : Type} [Arith F]

/-! ### Which arguments are read correctly -/

namespace TArg

theorem raw_double {a : TArg F} (h : a.cls = .double) : a.raw = a.arg.buf := by simp [raw, h]

theorem param_fine {fe : FrontEnd} {a : TArg F} (hm : fe = .matlab → a.cls = .double)
    (ho : fe = .octave → a.cls = .double ∧ a.arg.size ≠ 1) : a.param fe = a.arg.buf := by
  cases fe with
  | matlab => exact raw_double (hm rfl)
  | octave => simp only [param, ho rfl, ne_eq, not_false_eq_true, and_self, if_true]
  | _ => rfl

theorem kept_fine {fe : FrontEnd} {a : TArg F} (hm : fe = .matlab → a.cls = .double) :
    a.kept fe = a.arg.buf := by
  cases fe with
  | matlab => exact raw_double (hm rfl)
  | _ => rfl

end TArg

/-- A parameter vector of class double, unless the language converts. -/
def DoubleIfRead (fe : FrontEnd) (a : TArg F) : Prop :=
  fe = .matlab ∨ fe = .octave → a.cls = .double

/-- An array whose address the wrapper keeps: of class double in MATLAB. -/
def DoubleIfKept (fe : FrontEnd) (a : TArg F) : Prop := fe = .matlab → a.cls = .double

/-- A vector of user defined delays or weights (when `used`): of class double in MATLAB and Octave, and in Octave
not with one entry only. -/
def VectorFine (fe : FrontEnd) (str : StrArg) (a : TArg F) : Prop :=
  (fe = .matlab → str = .text "ud" → a.cls = .double) ∧
  (fe = .octave → str = .text "ud" → a.cls = .double ∧ a.arg.size ≠ 1)

section parse

variable {fe : FrontEnd} {a : TArg F}

theorem param_of_len {k : Nat} (hk : k ≠ 1) (hd : DoubleIfRead fe a) (hl : a.arg.HasLen fe k) :
    a.param fe = a.arg.buf :=
  TArg.param_fine (fun h => hd (Or.inl h)) fun h => ⟨hd (Or.inr h), by rw [hl.size]; exact hk⟩

theorem parseGeometryT_eq (hx : a.arg.IsVecArg fe) (k : Nat) (hd : k = 1 ∨ DoubleIfRead fe a) :
    parseGeometryT fe k a = parseGeometry fe k a.arg := by
  unfold parseGeometryT parseGeometry
  rw [Arg.isVec_eq hx]
  by_cases hl : a.arg.HasLen fe k
  · rcases hd with rfl | hd
    · simp [hl, TArg.scal]
    · by_cases h1 : k = 1
      · subst h1; simp [hl, TArg.scal]
      · rw [param_of_len h1 hd hl]
        simp [hl, h1]
  · simp [hl]

theorem parseSamplingT_eq (hx : a.arg.IsVecArg fe) (hd : DoubleIfRead fe a) :
    parseSamplingT fe a = parseSampling fe a.arg := by
  unfold parseSamplingT parseSampling
  rw [Arg.isVec_eq hx]
  by_cases hl : a.arg.HasLen fe 4
  · rw [param_of_len (by decide) hd hl]
  · simp [hl]

theorem parseMaterialT_eq (hx : a.arg.IsVecArg fe) (hd : DoubleIfRead fe a) :
    parseMaterialT fe a = parseMaterial fe a.arg := by
  unfold parseMaterialT parseMaterial
  rw [Arg.isVec_eq hx]
  by_cases hl : a.arg.HasLen fe 3
  · rw [param_of_len (by decide) hd hl]
  · simp [hl]

/-- The MATLAB string is the string, or empty. -/
theorem getString_ud (fe : FrontEnd) (s : String) (h : getString fe s = "ud") : s = "ud" := by
  cases fe with
  | matlab =>
    simp only [getString] at h
    split at h
    · exact h
    · exact absurd h (by decide)
  | _ => exact h

theorem param_of_ud {s : String} (hv : VectorFine fe (.text s) a) (hs : getString fe s = "ud") :
    a.param fe = a.arg.buf := by
  have := getString_ud fe s hs
  subst this
  exact TArg.param_fine (fun h => hv.1 h rfl) fun h => hv.2 h rfl

theorem parseFocusT_eq (str : StrArg) (num : Nat) (focal : Buf F) (hv : VectorFine fe str a) :
    parseFocusT fe str a num focal = parseFocus fe str a.arg num focal := by
  cases str with
  | other => rfl
  | text s =>
    simp only [parseFocusT, parseFocus]
    by_cases hs : getString fe s = "ud"
    · rw [param_of_ud hv hs]; rfl
    · simp only [hs, if_false, TArg.scal]

theorem parseSteerT_eq (str : StrArg) (hx : a.arg.IsVecArg fe) (hd : DoubleIfRead fe a) :
    parseSteerT fe str a = parseSteer fe str a.arg := by
  cases str with
  | other => rfl
  | text s =>
    simp only [parseSteerT, parseSteer]
    rw [Arg.isVec_eq hx]
    by_cases hl : a.arg.HasLen fe 2
    · rw [param_of_len (by decide) hd hl]
    · simp [hl]

theorem parseApodT_eq (str : StrArg) (par : TArg F) (num : Nat) (A : Apod F) (hv : VectorFine fe str a) :
    parseApodT fe str a par num A = parseApod fe str a.arg par.arg num A := by
  cases str with
  | other => rfl
  | text s =>
    have : ∀ B, udWeightsT fe (getString fe s) a num B = udWeights fe (getString fe s) a.arg num B := by
      intro B
      unfold udWeightsT udWeights
      by_cases hs : getString fe s = "ud"
      · rw [param_of_ud hv hs]
      · simp only [hs, if_false]
    simp only [parseApodT, parseApod, this]
    rfl

end parse

/-! ### Single transducer functions -/

/-- The classes for which the arguments are read correctly: Python converts, Julia wants doubles,
MATLAB wants doubles except for scalars, Octave wants doubles for the vectors of parameters. -/
def SirArgsT.Fine (fe : FrontEnd) (kind : SirKind) (x : SirArgsT F) : Prop :=
  (fe = .julia → x.doubles = true) ∧
  DoubleIfKept fe x.ro ∧ (kind.docPars = 1 ∨ DoubleIfRead fe x.geom) ∧ DoubleIfRead fe x.sPar ∧
  DoubleIfKept fe x.delay ∧ DoubleIfRead fe x.mPar ∧
  (kind.focused = true → VectorFine fe x.foc x.focal)

/-- C88: arguments of these classes are used with the numbers the user wrote. -/
theorem C88_sir_fine (L : FFTLib F) (fe : FrontEnd) (kind : SirKind) (x : SirArgsT F)
    (hx : x.nums.Typed fe) (h : x.Fine fe kind) :
    frontSirT L fe kind x = frontSir L fe kind x.nums := by
  obtain ⟨hj, h0, h1, h2, h3, h4, h5⟩ := h
  unfold frontSirT frontSir
  rw [if_neg (by rintro ⟨rfl, e⟩; rw [hj rfl] at e; cases e)]
  rw [parseGeometryT_eq hx.geom _ (by rw [kind.numPars_doc]; exact h1), parseSamplingT_eq hx.sPar h2,
    parseMaterialT_eq hx.mPar h4, TArg.kept_fine h0, TArg.kept_fine h3]
  cases hk : kind.focused with
  | true =>
    simp only [parseFocusT_eq _ _ _ (h5 hk)]
    rfl
  | false => rfl

/-- C88, double arguments: the calls described by the other properties; in Octave except for the
focusing method "ud" (with its one delay) of the focused transducers. -/
theorem C88_sir_double (L : FFTLib F) (fe : FrontEnd) (kind : SirKind) (x : SirArgsT F)
    (hx : x.nums.Typed fe) (hd : x.doubles = true)
    (ho : fe = .octave → kind.focused = true → x.foc = .text "ud" → x.focal.arg.size ≠ 1) :
    frontSirT L fe kind x = frontSir L fe kind x.nums := by
  have hd' := hd
  simp only [SirArgsT.doubles, List.all_cons, List.all_nil, Bool.and_true, Bool.and_eq_true,
    decide_eq_true_eq] at hd'
  obtain ⟨e0, e1, e2, e3, e4, e5⟩ := hd'
  exact C88_sir_fine L fe kind x hx ⟨fun _ => hd, fun _ => e0, Or.inr fun _ => e1, fun _ => e2,
    fun _ => e3, fun _ => e4, fun hk => ⟨fun _ _ => e5, fun ho' hs => ⟨e5, ho ho' hk hs⟩⟩⟩

/-- C88: in Python arguments of any class give the same as the doubles they are converted to. -/
theorem C88_sir_python (L : FFTLib F) (kind : SirKind) (x : SirArgsT F) (hx : x.nums.Typed .python) :
    frontSirT L .python kind x = frontSir L .python kind x.nums :=
  C88_sir_fine L .python kind x hx
    ⟨nofun, nofun, Or.inr (by rintro (h | h) <;> cases h), (by rintro (h | h) <;> cases h), nofun,
      (by rintro (h | h) <;> cases h), fun _ => ⟨nofun, nofun⟩⟩

/-- C88: in Julia arguments of another class are refused. -/
theorem C88_sir_julia (L : FFTLib F) (kind : SirKind) (x : SirArgsT F) (hx : x.nums.Typed .julia) :
    frontSirT L .julia kind x =
      if x.doubles = true then frontSir L .julia kind x.nums else .ok (.rejected true) := by
  by_cases hd : x.doubles = true
  · rw [if_pos hd]; exact C88_sir_double L .julia kind x hx hd nofun
  · rw [if_neg hd]; simp [frontSirT, hd]

/-- No double can be read from an Octave parameter vector of another class. -/
theorem TArg.octave_other {a : TArg F} (h : a.cls ≠ .double) : (a.param .octave).size = 0 := by
  simp [TArg.param, h]

/-- The last parameter of a MATLAB vector of a narrower class is outside its memory. -/
theorem TArg.matlab_narrow {a : TArg F} (h : a.cls.bytes < 8) :
    (a.param .matlab).size = a.arg.size * a.cls.bytes / 8 := by
  have : a.cls ≠ .double := by intro e; rw [e] at h; exact absurd h (by decide)
  simp [TArg.param, TArg.raw, this]

/-- Reading three parameters of which the last one is not there. -/
theorem read_short {α : Type} (b : Buf F) (k : Nat) (hk : b.size ≤ k) : ∀ (i : Nat), i ≤ k →
    ∀ (f : F → Outcome α), (∀ x, i < k → f x = .ub .oob) → (b.read (i : Int)).bind f = .ub .oob := by
  intro i hi f hf
  simp only [Buf.read]
  split
  · next h => exact hf _ (by omega)
  · rfl

theorem parseSamplingT_short {fe : FrontEnd} {a : TArg F} (hl : a.arg.HasLen fe 4)
    (hs : (a.param fe).size ≤ 3) : parseSamplingT fe a = .ub .oob := by
  unfold parseSamplingT
  rw [Arg.isVec_eq hl.vec]
  simp only [hl, decide_true, Outcome.ok_bind, if_true]
  exact read_short _ 3 hs 0 (by omega) _ fun _ _ => read_short _ 3 hs 1 (by omega) _ fun _ _ =>
    read_short _ 3 hs 2 (by omega) _ fun _ _ => read_short _ 3 hs 3 (by omega) _ fun _ h => absurd h (by omega)

theorem parseMaterialT_short {fe : FrontEnd} {a : TArg F} (hl : a.arg.HasLen fe 3)
    (hs : (a.param fe).size ≤ 2) : parseMaterialT fe a = .ub .oob := by
  unfold parseMaterialT
  rw [Arg.isVec_eq hl.vec]
  simp only [hl, decide_true, Outcome.ok_bind, if_true]
  exact read_short _ 2 hs 0 (by omega) _ fun _ _ => read_short _ 2 hs 1 (by omega) _ fun _ _ =>
    read_short _ 2 hs 2 (by omega) _ fun _ h => absurd h (by omega)

theorem parseGeometryT_short {fe : FrontEnd} {a : TArg F} {k : Nat} (hl : a.arg.HasLen fe k)
    (hk : k = 2 ∨ k = 3) (hs : (a.param fe).size < k) : parseGeometryT fe k a = .ub .oob := by
  unfold parseGeometryT
  rw [Arg.isVec_eq hl.vec]
  simp only [hl, decide_true, Outcome.ok_bind, if_true]
  rcases hk with rfl | rfl
  · simp only [show ¬ (2 = 1) by decide, show 1 < 2 by decide, show ¬ (2 < 2) by decide, if_true,
      if_false]
    have h := read_short (α := F × F × F) (a.param fe) 1 (by omega) 0 (by omega)
      (fun x => ((a.param fe).read 1).bind fun y => .ok (x, y, lit 0)) fun x _ =>
      read_short _ 1 (by omega) 1 (by omega) _ fun _ h => absurd h (by omega)
    rw [show ((0 : Nat) : Int) = 0 from rfl] at h
    rw [h]; rfl
  · simp only [show ¬ (3 = 1) by decide, show 1 < 3 by decide, show 2 < 3 by decide, if_true,
      if_false]
    have h := read_short (α := F × F × F) (a.param fe) 2 (by omega) 0 (by omega)
      (fun x => ((a.param fe).read 1).bind fun y => ((a.param fe).read 2).bind fun z =>
        .ok (x, y, z)) fun x _ =>
      read_short _ 2 (by omega) 1 (by omega) _ fun _ _ =>
      read_short _ 2 (by omega) 2 (by omega) _ fun _ h => absurd h (by omega)
    rw [show ((0 : Nat) : Int) = 0 from rfl] at h
    rw [h]; rfl

/-- Copying more numbers than there are. -/
theorem copyN_short (src : Buf F) (num : Nat) (hn : src.size < num) (dst : Buf F)
    (hd : dst.size = num) : copyN src num dst = .ub .oob := by
  unfold copyN
  have key : ∀ (m i : Nat) (d : Buf F), d.size = num → i + m = num → i ≤ src.size →
      forO (fun i (d : Buf F) => (src.read (i : Int)).bind fun x => d.write (i : Int) x) m i d
        = .ub .oob := by
    intro m
    induction m with
    | zero => intro i d _ h1 h2; omega
    | succ m ih =>
      intro i d hd h1 h2
      simp only [forO]
      by_cases e : i < src.size
      · have hr : src.read (i : Int) = .ok (src.data i) := by
          simp [Buf.read, e]
        have hw : d.write (i : Int) (src.data i) =
            .ok { d with data := fun j => if j = i then src.data i else d.data j } := by
          simp only [Buf.write, Int.toNat_natCast]
          rw [if_pos (by omega)]
        rw [hr, Outcome.ok_bind, hw, Outcome.ok_bind]
        exact ih _ _ hd (by omega) (by omega)
      · have hr : src.read (i : Int) = .ub .oob := by
          simp only [Buf.read]; rw [if_neg (by omega)]
        rw [hr]; rfl
  exact key num 0 dst hd (by omega) (by omega)

theorem getString_fix (fe : FrontEnd) : getString fe "ud" = "ud" := by
  cases fe <;> rfl

theorem parseFocusT_short {fe : FrontEnd} {a : TArg F} (hx : a.arg.IsVecArg fe) (num : Nat)
    (hn : a.arg.size = num) (hs : (a.param fe).size < num) (focal : Buf F) (hf : focal.size = num) :
    parseFocusT fe (.text "ud") a num focal = .ub .oob := by
  simp only [parseFocusT, getString_fix, if_true, Arg.count_eq hx, hn, Outcome.ok_bind, ne_eq,
    not_true_eq_false, if_false, copyN_short _ _ hs _ hf]
  rfl

/-- What the Octave and MATLAB interfaces cannot read. -/
inductive Unreadable : FrontEnd → TArg F → Prop
  | octave {a : TArg F} : a.cls ≠ .double → Unreadable .octave a
  | matlab {a : TArg F} : a.cls.bytes < 8 → Unreadable .matlab a

theorem Unreadable.short {fe : FrontEnd} {a : TArg F} (h : Unreadable fe a) (h0 : 1 ≤ a.arg.size) :
    (a.param fe).size < a.arg.size := by
  cases h with
  | octave h => rw [TArg.octave_other h]; omega
  | matlab h =>
    rw [TArg.matlab_narrow h]
    have : a.arg.size * a.cls.bytes ≤ a.arg.size * 7 := Nat.mul_le_mul_left _ (by omega)
    omega

/-- Every parameter vector is of class double or cannot be read. -/
def Plain (fe : FrontEnd) (a : TArg F) : Prop := a.cls = .double ∨ Unreadable fe a

/-- C88, violated: documented arguments (observation points, parameters) in MATLAB and Octave, with one
of the vectors of parameters (geometry with two or more numbers, sampling, material) of class
single - or any class other than double in Octave, any narrower class in MATLAB: memory that is not
part of the argument is read. -/
theorem C88_sir_class_violated (L : FFTLib F) (fe : FrontEnd) (hfe : fe = .matlab ∨ fe = .octave)
    (kind : SirKind) (x : SirArgsT F)
    (hx : x.nums.Typed fe) (No nt : Nat) (met : FocusMet) (level : ErrorLevel)
    (h : SirDoc fe kind x.nums No nt met level)
    (hg : Plain fe x.geom) (hs : Plain fe x.sPar) (hm : Plain fe x.mPar)
    (hbad : (2 ≤ kind.docPars ∧ x.geom.cls ≠ .double) ∨ x.sPar.cls ≠ .double ∨ x.mPar.cls ≠ .double) :
    frontSirT L fe kind x = .ub .oob := by
  have hj : fe ≠ .julia := by rcases hfe with rfl | rfl <;> decide
  unfold frontSirT
  rw [if_neg (fun e => hj e.1)]
  rw [show checkObs fe x.ro.arg = _ from checkObs_eq fe h.ro, if_pos rfl]
  simp only [Outcome.ok_bind, ret_next]
  rw [kind.numPars_doc]
  have glen : x.geom.arg.HasLen fe kind.docPars := h.geom
  by_cases gb : 2 ≤ kind.docPars ∧ x.geom.cls ≠ .double
  · have hu : Unreadable fe x.geom := hg.resolve_left gb.2
    rw [parseGeometryT_short glen (by cases kind <;> simp_all [SirKind.docPars])
      (by have := hu.short (by rw [glen.size]; omega); rw [glen.size] at this; exact this)]
    rfl
  · have hgd : kind.docPars = 1 ∨ DoubleIfRead fe x.geom := by
      by_cases e : 2 ≤ kind.docPars
      · exact Or.inr fun _ => by_contra fun e' => gb ⟨e, e'⟩
      · exact Or.inl (by have := kind.docPars_pos; omega)
    rw [parseGeometryT_eq hx.geom _ hgd, show parseGeometry fe kind.docPars x.geom.arg = _ from
      parseGeometry_eq fe hx.geom _ kind.docPars_pos, if_pos h.geom]
    simp only [Outcome.ok_bind, ret_next]
    have slen : x.sPar.arg.HasLen fe 4 := h.sPar
    by_cases sb : x.sPar.cls = .double
    · have hmb : x.mPar.cls ≠ .double := (hbad.resolve_left gb).resolve_left (not_not.2 sb)
      rw [parseSamplingT_eq hx.sPar (fun _ => sb), parseSampling_eq fe (a := x.sPar.arg) hx.sPar,
        if_pos slen, show trunc (x.sPar.arg.data 3) = _ from h.len]
      simp only [castIdx, h.fits, if_true, Outcome.ok_bind, ret_next]
      rw [show checkDelay fe x.delay.arg No = _ from checkDelay_eq fe hx.delay No, if_pos h.delay]
      simp only [Outcome.ok_bind, ret_next]
      have mlen : x.mPar.arg.HasLen fe 3 := h.mPar
      rw [parseMaterialT_short mlen (by
        have := (hm.resolve_left hmb).short (by rw [mlen.size]; omega); rw [mlen.size] at this; omega)]
      rfl
    · rw [parseSamplingT_short slen (by
        have := (hs.resolve_left sb).short (by rw [slen.size]; omega); rw [slen.size] at this; omega)]
      rfl

/-- C88, violated in Octave for doubles too: the focused transducers with the focusing method "ud". -/
theorem C88_octave_ud_violated (L : FFTLib F) (kind : SirKind) (x : SirArgsT F)
    (hx : x.nums.Typed .octave) (No nt : Nat) (met : FocusMet) (level : ErrorLevel)
    (h : SirDoc .octave kind x.nums No nt met level)
    (hd : x.doubles = true) (hk : kind.focused = true) (hu : x.foc = .text "ud") :
    frontSirT L .octave kind x = .ub .oob := by
  have hd' := hd
  simp only [SirArgsT.doubles, List.all_cons, List.all_nil, Bool.and_true, Bool.and_eq_true,
    decide_eq_true_eq] at hd'
  obtain ⟨e0, e1, e2, e3, e4, e5⟩ := hd'
  unfold frontSirT
  rw [if_neg (by rintro ⟨e, -⟩; cases e)]
  rw [show checkObs .octave x.ro.arg = _ from checkObs_eq .octave h.ro, if_pos rfl]
  simp only [Outcome.ok_bind, ret_next]
  rw [kind.numPars_doc, parseGeometryT_eq hx.geom _ (Or.inr fun _ => e1),
    show parseGeometry .octave kind.docPars x.geom.arg = _ from
      parseGeometry_eq .octave hx.geom _ kind.docPars_pos, if_pos h.geom]
  simp only [Outcome.ok_bind, ret_next]
  rw [parseSamplingT_eq hx.sPar (fun _ => e2), parseSampling_eq .octave (a := x.sPar.arg) hx.sPar,
    if_pos (show x.sPar.arg.HasLen .octave 4 from h.sPar), show trunc (x.sPar.arg.data 3) = _ from h.len]
  simp only [castIdx, h.fits, if_true, Outcome.ok_bind, ret_next]
  rw [show checkDelay .octave x.delay.arg No = _ from checkDelay_eq .octave hx.delay No, if_pos h.delay]
  simp only [Outcome.ok_bind, ret_next]
  rw [parseMaterialT_eq hx.mPar (fun _ => e4), parseMaterial_eq .octave (a := x.mPar.arg) hx.mPar,
    if_pos (show x.mPar.arg.HasLen .octave 3 from h.mPar)]
  simp only [Outcome.ok_bind, ret_next, hk, if_true, hu]
  have hf := h.foc
  rw [hk, if_pos rfl] at hf
  have hs : x.focal.arg.size = 1 := hf.2
  rw [parseFocusT_short hx.focal 1 hs (by simp [TArg.param, hs]) _ rfl]
  rfl

/-- The arguments with the sampling parameters found in the memory of the given ones. -/
def SirArgsT.misread (x : SirArgsT F) : SirArgs F :=
  { x.nums with sPar := ⟨x.sPar.arg.shape, x.sPar.bits⟩ }

/-- C88, violated: in MATLAB the sampling parameters given as 64 bit integers are used with the doubles that
have the same bits, without any message. -/
theorem C88_matlab_int64 (L : FFTLib F) (kind : SirKind) (x : SirArgsT F)
    (hx : x.nums.Typed .matlab) (h64 : x.sPar.cls = .int64) (h0 : x.ro.cls = .double)
    (h1 : x.geom.cls = .double) (h2 : x.delay.cls = .double) (h3 : x.mPar.cls = .double)
    (h4 : x.focal.cls = .double) :
    frontSirT L .matlab kind x = frontSir L .matlab kind x.misread := by
  unfold frontSirT frontSir
  rw [if_neg (by rintro ⟨e, -⟩; cases e)]
  rw [parseGeometryT_eq hx.geom _ (Or.inr fun _ => h1), parseMaterialT_eq hx.mPar (fun _ => h3),
    TArg.kept_fine (fun _ => h0), TArg.kept_fine (fun _ => h2)]
  have hs : parseSamplingT .matlab x.sPar = parseSampling .matlab x.misread.sPar := by
    have hp : x.sPar.param .matlab = x.misread.sPar.buf := by
      simp [TArg.param, TArg.raw, h64, NumClass.bytes, SirArgsT.misread, Arg.buf, Arg.size]
    unfold parseSamplingT parseSampling
    rw [hp]; rfl
  rw [hs]
  cases hk : kind.focused with
  | true =>
    simp only [parseFocusT_eq _ _ _ (show VectorFine .matlab x.foc x.focal from ⟨fun _ _ => h4, nofun⟩)]
    rfl
  | false => rfl

end Dream
