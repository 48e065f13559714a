import Verif.ArgParser
import Verif.Driver
import Verif.FftConv
import Verif.Toy
import Mathlib.Data.Nat.Init
import Mathlib.Tactic.Common

/-
C35, C36, C49: what the user interfaces of the single transducer functions accept, and with which
parameters they then call the driver.
-/

namespace Dream
open Arith

variable {F : Type} [Arith F]

/-! ### Specification -/

namespace Arg

/-- A matrix: two dimensions. -/
def IsMatrix (a : Arg F) : Prop := ∃ m n, a.shape = [m, n]

/-- The type of a vector argument: MATLAB, Octave and two-dimensional numpy arrays are matrices, Julia
vectors have one dimension. -/
def IsVecArg (fe : FrontEnd) (a : Arg F) : Prop :=
  match fe with
  | .julia => ∃ n, a.shape = [n]
  | _ => a.IsMatrix

/-- A row or column vector with `k` entries. -/
def HasLen (fe : FrontEnd) (k : Nat) (a : Arg F) : Prop :=
  match fe with
  | .julia => a.shape = [k]
  | _ => a.shape = [k, 1] ∨ a.shape = [1, k]

end Arg

/-- Documented names of the error levels. -/
inductive ErrName : String → ErrorLevel → Prop
  | ignore : ErrName "ignore" .ignore
  | warn : ErrName "warn" .warn
  | stop : ErrName "stop" .stop

/-- Documented names of the focusing methods. -/
inductive FocName : String → FocusMet → Prop
  | off : FocName "off" .none
  | x : FocName "x" .x
  | y : FocName "y" .y
  | xy : FocName "xy" .xy
  | on : FocName "on" .xy
  | x_y : FocName "x+y" .x_y
  | ud : FocName "ud" .ud

/-- Documented names of the steering methods. -/
inductive SteerName : String → SteerMet → Prop
  | off : SteerName "off" .none
  | x : SteerName "x" .x
  | y : SteerName "y" .y
  | xy : SteerName "xy" .xy

/-- Documented names of the apodization methods; `none`: no apodization. -/
inductive ApodName : String → Option ApodMet → Prop
  | off : ApodName "off" none
  | triangle : ApodName "triangle" (some .triangle)
  | gauss : ApodName "gauss" (some .gauss)
  | raised : ApodName "raised" (some .raisedCosine)
  | hann : ApodName "hann" (some .hann)
  | hamming : ApodName "hamming" (some .hamming)
  | simply : ApodName "simply" (some .simplySupported)
  | clamped : ApodName "clamped" (some .clamped)
  | ud : ApodName "ud" (some .ud)

/-- Documented names of the delay-and-sum methods. -/
inductive DasName : String → DASType → Prop
  | saft : DasName "saft" .saft
  | tfm : DasName "tfm" .tfm
  | rca : DasName "rca" .rcaColtx
  | coltx : DasName "rca_coltx" .rcaColtx
  | rowtx : DasName "rca_rowtx" .rcaRowtx

/-! ### C35: strings -/

/-- C35: the error level strings map one to one to levels, and every other string is unknown. -/
theorem C35_error_names (s : String) (l : ErrorLevel) : lookup errTab s = some l ↔ ErrName s l := by
  constructor
  · intro h
    simp only [lookup, errTab, List.foldl] at h
    split at h
    · next e => subst e; cases h; exact .stop
    split at h
    · next e => subst e; cases h; exact .warn
    split at h
    · next e => subst e; cases h; exact .ignore
    · cases h
  · intro h; cases h <;> simp [lookup, errTab]

theorem C35_focus_names (s : String) (l : FocusMet) : lookup focTab s = some l ↔ FocName s l := by
  constructor
  · intro h
    simp only [lookup, focTab, List.foldl] at h
    repeat' split at h
    all_goals first
      | (cases h; done)
      | (subst_vars; cases h; constructor)
  · intro h; cases h <;> simp [lookup, focTab]

theorem C35_steer_names (s : String) (l : SteerMet) : lookup steerTab s = some l ↔ SteerName s l := by
  constructor
  · intro h
    simp only [lookup, steerTab, List.foldl] at h
    repeat' split at h
    all_goals first
      | (cases h; done)
      | (subst_vars; cases h; constructor)
  · intro h; cases h <;> simp [lookup, steerTab]

theorem C35_apod_names (s : String) (l : Option ApodMet) :
    lookup apodTab s = some l ↔ ApodName s l := by
  constructor
  · intro h
    simp only [lookup, apodTab, List.foldl] at h
    repeat' split at h
    all_goals first
      | (cases h; done)
      | (subst_vars; cases h; constructor)
  · intro h; cases h <;> simp [lookup, apodTab]

theorem C35_das_names (s : String) (l : DASType) : lookup dasTab s = some l ↔ DasName s l := by
  constructor
  · intro h
    simp only [lookup, dasTab, List.foldl] at h
    repeat' split at h
    all_goals first
      | (cases h; done)
      | (subst_vars; cases h; constructor)
  · intro h; cases h <;> simp [lookup, dasTab]

/-! ### Shapes -/

namespace Arg

theorem dim_zero {a : Arg F} {m n : Nat} (h : a.shape = [m, n]) : a.dim 0 = .ok m := by
  simp [dim, h]

theorem dim_one {a : Arg F} {m n : Nat} (h : a.shape = [m, n]) : a.dim 1 = .ok n := by
  simp [dim, h]

theorem size_eq {a : Arg F} {m n : Nat} (h : a.shape = [m, n]) : a.size = m * n := by
  simp [size, h]

theorem count_eq {fe : FrontEnd} {a : Arg F} (h : a.IsVecArg fe) : a.count fe = .ok a.size := by
  cases fe with
  | julia => rfl
  | _ =>
    obtain ⟨m, n, h⟩ := h
    simp [count, dim_zero h, dim_one h, size_eq h]

open Classical in
theorem isVec_eq {fe : FrontEnd} {a : Arg F} (h : a.IsVecArg fe) (k : Nat) :
    a.isVec fe k = .ok (decide (a.HasLen fe k)) := by
  cases fe with
  | julia =>
    obtain ⟨n, h⟩ := h
    simp only [isVec, size, HasLen, h, List.prod_cons, List.prod_nil, Nat.mul_one]
    by_cases e : n = k <;> simp [e]
  | _ =>
    obtain ⟨m, n, h⟩ := h
    simp only [isVec, dim_zero h, dim_one h, HasLen, h, Outcome.bind]
    congr 1
    rw [Bool.eq_iff_iff]
    simp

theorem HasLen.size {fe : FrontEnd} {a : Arg F} {k : Nat} (h : a.HasLen fe k) : a.size = k := by
  cases fe with
  | julia => simp only [HasLen] at h; simp [Arg.size, h]
  | _ => rcases h with h | h <;> simp [Arg.size, h]

theorem HasLen.vec {fe : FrontEnd} {a : Arg F} {k : Nat} (h : a.HasLen fe k) : a.IsVecArg fe := by
  cases fe with
  | julia => exact ⟨_, h⟩
  | _ => rcases h with h | h <;> exact ⟨_, _, h⟩

theorem read_eq {a : Arg F} {k i : Nat} (h : a.size = k) (hi : i < k) :
    a.buf.read (i : Int) = .ok (a.data i) := by
  subst h
  simp [buf, Buf.read, hi]

end Arg

/-! ### The parse functions on arguments of the right type -/

theorem checkObs_eq (fe : FrontEnd) {a : Arg F} {m n : Nat} (h : a.shape = [m, n]) :
    checkObs fe a = .ok (if n = 3 then .ret true false m else failMsg fe m) := by
  simp only [checkObs, Arg.dim_zero h, Arg.dim_one h, Outcome.bind]
  by_cases e : n = 3 <;> simp [e]

/-- The geometry parameters: absent ones are zero. -/
def geomOf (k : Nat) (a : Arg F) : F × F × F :=
  (if 0 < k then a.data 0 else lit 0, if 1 < k then a.data 1 else lit 0,
   if 2 < k then a.data 2 else lit 0)

open Classical in
theorem parseGeometry_eq (fe : FrontEnd) {a : Arg F} (h : a.IsVecArg fe) (k : Nat) (hk : 1 ≤ k) :
    parseGeometry fe k a =
      .ok (if a.HasLen fe k then .ret true false (geomOf k a)
           else failMsg fe (lit 0, lit 0, lit 0)) := by
  unfold parseGeometry
  rw [Arg.isVec_eq h]
  by_cases hl : a.HasLen fe k
  · have hs := hl.size
    simp only [hl, decide_true, Outcome.bind, if_true]
    have r := fun i (hi : i < k) => Arg.read_eq hs hi
    rcases Nat.lt_or_ge k 2 with h2 | h2
    · have : k = 1 := by omega
      subst this
      have r0 : a.buf.read 0 = .ok (a.data 0) := r 0 (by omega)
      simp [r0, geomOf]
    · have r0 : a.buf.read 0 = .ok (a.data 0) := r 0 (by omega)
      have r1 : a.buf.read 1 = .ok (a.data 1) := r 1 (by omega)
      by_cases h3 : 2 < k
      · have r2 : a.buf.read 2 = .ok (a.data 2) := r 2 (by omega)
        simp [r0, r1, r2, geomOf, show k ≠ 1 by omega, show 1 < k by omega, h3,
          show 0 < k by omega]
      · simp [r0, r1, geomOf, show k ≠ 1 by omega, show 1 < k by omega, h3,
          show 0 < k by omega]
  · simp [hl]

open Classical in
theorem parseSampling_eq (fe : FrontEnd) {a : Arg F} (h : a.IsVecArg fe) :
    parseSampling fe a =
      if a.HasLen fe 4 then
        (castIdx fe.idx (trunc (a.data 3))).bind fun nt =>
          .ok (.ret true false (a.data 0, a.data 1, a.data 2, nt))
      else .ok (failMsg fe (lit 0, lit 0, lit 0, 0)) := by
  unfold parseSampling
  rw [Arg.isVec_eq h]
  by_cases hl : a.HasLen fe 4
  · have hs := hl.size
    have r0 : a.buf.read 0 = .ok (a.data 0) := Arg.read_eq hs (i := 0) (by omega)
    have r1 : a.buf.read 1 = .ok (a.data 1) := Arg.read_eq hs (i := 1) (by omega)
    have r2 : a.buf.read 2 = .ok (a.data 2) := Arg.read_eq hs (i := 2) (by omega)
    have r3 : a.buf.read 3 = .ok (a.data 3) := Arg.read_eq hs (i := 3) (by omega)
    simp [hl, r0, r1, r2, r3]
  · simp [hl]

open Classical in
theorem parseMaterial_eq (fe : FrontEnd) {a : Arg F} (h : a.IsVecArg fe) :
    parseMaterial fe a =
      .ok (if a.HasLen fe 3 then .ret true false (a.data 0, a.data 1, a.data 2)
        else failMsg fe (lit 1, lit 1000, lit 0)) := by
  unfold parseMaterial
  rw [Arg.isVec_eq h]
  by_cases hl : a.HasLen fe 3
  · have hs := hl.size
    have r0 : a.buf.read 0 = .ok (a.data 0) := Arg.read_eq hs (i := 0) (by omega)
    have r1 : a.buf.read 1 = .ok (a.data 1) := Arg.read_eq hs (i := 1) (by omega)
    have r2 : a.buf.read 2 = .ok (a.data 2) := Arg.read_eq hs (i := 2) (by omega)
    simp [hl, r0, r1, r2]
  · simp [hl]

/-- The delay type: a single delay iff there is one entry. -/
def delayTypeOf (a : Arg F) : DelayType := if a.size = 1 then .single else .multiple

theorem checkDelay_eq (fe : FrontEnd) {a : Arg F} (h : a.IsVecArg fe) (No : Nat) :
    checkDelay fe a No =
      .ok (if a.size = 0 ∨ a.size = 1 ∨ a.size = No then .ret true false (delayTypeOf a)
        else failMsg fe (delayTypeOf a)) := by
  unfold checkDelay
  rw [Arg.count_eq h]
  simp only [Outcome.bind, delayTypeOf, ne_eq, ite_not]
  generalize (if a.size = 1 then DelayType.single else DelayType.multiple) = ty
  by_cases e : 1 < a.size ∧ ¬ a.size = No
  · rw [if_pos e, if_neg (by omega)]
  · rw [if_neg e, if_pos (by omega)]

/-- The level meant by the error argument. -/
def levelOf (fe : FrontEnd) (a : Option StrArg) : Option ErrorLevel :=
  match a with
  | none => some .stop
  | some .other => none
  | some (.text s) => lookup errTab (getString fe s)

theorem parseError_eq (fe : FrontEnd) (a : Option StrArg) :
    parseError fe a = match levelOf fe a with
      | some l => .ret true false l
      | none => failMsg fe .stop := by
  unfold parseError levelOf
  rcases a with _ | (s | _)
  · rfl
  · dsimp only; cases lookup errTab (getString fe s) <;> rfl
  · rfl

/-- `failMsg` ends the wrapper. -/
theorem failMsg_next {σ α : Type} (fe : FrontEnd) (st : σ) (k : σ → Outcome (Front α)) :
    (failMsg fe st).next fe k = .ok (.rejected true) := by
  cases fe <;> simp [failMsg, PRes.next]

theorem ret_next {σ α : Type} (fe : FrontEnd) (b : Bool) (st : σ) (k : σ → Outcome (Front α)) :
    (PRes.ret true b st).next fe k = k st := by
  simp [PRes.next]

/-- A short string is passed through, and the empty string is no name. -/
theorem getString_short (fe : FrontEnd) (P : String → Prop) (h0 : ¬ P "")
    (hs : ∀ s, P s → s.length < 49) (s : String) : P (getString fe s) ↔ P s := by
  cases fe with
  | matlab =>
    simp only [getString]
    split
    · rfl
    · next h =>
      refine ⟨fun h' => absurd h' h0, fun h' => ?_⟩
      have := hs s h'
      omega
  | _ => rfl

theorem errName_get (fe : FrontEnd) (s : String) (l : ErrorLevel) :
    ErrName (getString fe s) l ↔ ErrName s l :=
  getString_short fe (fun s => ErrName s l) (fun h => by
      have := (C35_error_names _ _).2 h; revert this; cases l <;> simp [lookup, errTab]) (fun s h => by cases h <;> decide) s

theorem focName_get (fe : FrontEnd) (s : String) (l : FocusMet) :
    FocName (getString fe s) l ↔ FocName s l :=
  getString_short fe (fun s => FocName s l) (fun h => by
      have := (C35_focus_names _ _).2 h; revert this; cases l <;> simp [lookup, focTab]) (fun s h => by cases h <;> decide) s

theorem steerName_get (fe : FrontEnd) (s : String) (l : SteerMet) :
    SteerName (getString fe s) l ↔ SteerName s l :=
  getString_short fe (fun s => SteerName s l) (fun h => by
      have := (C35_steer_names _ _).2 h; revert this; cases l <;> simp [lookup, steerTab])
    (fun s h => by cases h <;> decide) s

theorem apodName_get (fe : FrontEnd) (s : String) (l : Option ApodMet) :
    ApodName (getString fe s) l ↔ ApodName s l :=
  getString_short fe (fun s => ApodName s l) (fun h => by
      have := (C35_apod_names _ _).2 h; revert this; cases l <;> simp [lookup, apodTab])
    (fun s h => by cases h <;> decide) s

theorem focName_ud (s : String) (met : FocusMet) (h : FocName s met) : met = .ud ↔ s = "ud" := by
  constructor
  · rintro rfl; cases h; rfl
  · rintro rfl
    have := (C35_focus_names _ _).2 h
    simp [lookup, focTab] at this
    exact this.symm

/-- The error argument, when given, is one of the documented names. -/
def ErrArg (a : Option StrArg) (level : ErrorLevel) : Prop :=
  (a = none ∧ level = .stop) ∨ ∃ s, a = some (.text s) ∧ ErrName s level

theorem levelOf_iff (fe : FrontEnd) (a : Option StrArg) (l : ErrorLevel) :
    levelOf fe a = some l ↔ ErrArg a l := by
  unfold levelOf ErrArg
  rcases a with _ | (s | _)
  · simp only [Option.some.injEq, true_and, reduceCtorEq, false_and, exists_const, or_false]
    exact eq_comm
  · simp [C35_error_names, errName_get]
  · simp

/-! ### Focusing arguments -/

theorem copyN_ok (a : Arg F) (num : Nat) (dst : Buf F) (h : a.size = num) (hd : dst.size = num) :
    ∃ d', copyN a.buf num dst = .ok d' ∧ d'.size = num ∧ ∀ i, i < num → d'.data i = a.data i := by
  obtain ⟨b, e1, e2, e3⟩ := forO_map
    (fun i (d : Buf F) => (a.buf.read (i : Int)).bind fun x => d.write (i : Int) x)
    (fun i _ => a.data i) num num 0 (by omega) dst hd (by
      intro i _ hi b _
      simp only [Arg.read_eq h (show i < num by omega), Outcome.bind])
  refine ⟨b, e1, e2, fun i hi => ?_⟩
  rw [e3, if_pos (by omega)]

/-- The outcome of `parse_focus_args` for a documented name. -/
theorem parseFocus_ok (fe : FrontEnd) (s : String) (met : FocusMet) (hs : FocName s met)
    {val : Arg F} (hv : val.IsVecArg fe) (num : Nat) (focal : Buf F) (hf : focal.size = num)
    (hn : met ≠ .ud → 1 ≤ num) (hl : val.size = if met = .ud then num else 1) :
    ∃ b, parseFocus fe (.text s) val num focal = .ok (.ret true false (met, b)) ∧ b.size = num ∧
      (met = .ud → ∀ i, i < num → b.data i = val.data i) ∧ (met ≠ .ud → b.data 0 = val.data 0) := by
  have hg := (C35_focus_names _ _).2 ((focName_get fe s met).2 hs)
  have hs' := (focName_get fe s met).2 hs
  simp only [parseFocus, Arg.count_eq hv, Outcome.bind, hg, Option.getD_some]
  by_cases hu : met = .ud
  · subst hu
    have : getString fe s = "ud" := (focName_ud _ _ hs').1 rfl
    rw [if_pos rfl] at hl
    obtain ⟨b, e1, e2, e3⟩ := copyN_ok val num focal hl hf
    rw [if_pos this, if_neg (by simpa using hl), e1]
    exact ⟨b, rfl, e2, fun _ => e3, fun h => absurd rfl h⟩
  · have : getString fe s ≠ "ud" := by
      intro h; exact hu ((focName_ud _ _ hs').2 h)
    rw [if_neg hu] at hl
    rw [if_neg this, if_neg (by simpa using hl)]
    have h1 : val.buf.read 0 = .ok (val.data 0) := Arg.read_eq hl (i := 0) (by omega)
    have hn := hn hu
    rw [h1]
    simp only [Buf.write, hf, Option.isNone_some]
    rw [if_pos (by omega)]
    refine ⟨_, rfl, rfl, fun h => absurd h hu, fun _ => ?_⟩
    simp

/-- Everything else is rejected (with a message, except that the numpy and Julia versions print
nothing for user defined delays of the wrong length). -/
theorem parseFocus_bad (fe : FrontEnd) (str : StrArg) {val : Arg F} (hv : val.IsVecArg fe) (num : Nat)
    (focal : Buf F) (hf : focal.size = num) (hn : 1 ≤ num)
    (h : ¬ ∃ s met, str = .text s ∧ FocName s met ∧ val.size = if met = .ud then num else 1)
    {α : Type} (k : FocusMet × Buf F → Outcome (Front α)) :
    ∃ b, ((parseFocus fe str val num focal).bind fun r => r.next fe k) = .ok (.rejected b) := by
  rcases str with s | _
  · simp only [parseFocus, Arg.count_eq hv, Outcome.bind]
    by_cases hu : getString fe s = "ud"
    · have hs : FocName s .ud := (focName_get fe s _).1 (hu ▸ .ud)
      have hl : val.size ≠ num := fun e => h ⟨s, .ud, rfl, hs, by rw [if_pos rfl]; exact e⟩
      rw [if_pos hu, if_pos hl]
      cases fe <;> exact ⟨_, rfl⟩
    · rw [if_neg hu]
      by_cases hl : val.size = 1
      · rw [if_neg (by simpa using hl)]
        have h1 : val.buf.read 0 = .ok (val.data 0) := Arg.read_eq hl (i := 0) (by omega)
        rw [h1]
        simp only [Buf.write, hf]
        rw [if_pos (by omega)]
        have : lookup focTab (getString fe s) = none := by
          cases hg : lookup focTab (getString fe s) with
          | none => rfl
          | some met =>
            have hm := (C35_focus_names _ _).1 hg
            refine absurd ⟨s, met, rfl, (focName_get fe s met).1 hm, ?_⟩ h
            rw [if_neg (fun e => hu ((focName_ud _ _ hm).1 e))]; exact hl
        rw [this]
        simp only [Option.isNone_none, if_true]
        exact ⟨_, failMsg_next _ _ _⟩
      · rw [if_pos (by simpa using hl)]
        exact ⟨_, failMsg_next _ _ _⟩
  · simp only [parseFocus, Outcome.bind]
    exact ⟨_, failMsg_next _ _ _⟩

/-! ### Single transducer functions -/

/-- The arguments have the types of the interface. -/
structure SirArgs.Typed (fe : FrontEnd) (x : SirArgs F) : Prop where
  ro : x.ro.IsMatrix
  geom : x.geom.IsVecArg fe
  sPar : x.sPar.IsVecArg fe
  delay : x.delay.IsVecArg fe
  mPar : x.mPar.IsVecArg fe
  focal : x.focal.IsVecArg fe

/-- How many geometry parameters the transducer has: sides, radius, length, radii. -/
def SirKind.docPars : SirKind → Nat
  | .rect | .rectF => 2
  | .circ | .circF | .line => 1
  | .sphere => 2
  | .cylind => 3

theorem SirKind.numPars_doc (kind : SirKind) : kind.numPars = kind.docPars := by cases kind <;> rfl

/-- The arguments are as documented: `No` observation points, response length `nt`, focusing method
`met` and error level `level`.  `delay` is as checked, not as documented: an empty delay should not
be allowed. -/
structure SirDoc (fe : FrontEnd) (kind : SirKind) (x : SirArgs F) (No nt : Nat) (met : FocusMet)
    (level : ErrorLevel) : Prop where
  ro : x.ro.shape = [No, 3]
  geom : x.geom.HasLen fe kind.docPars
  sPar : x.sPar.HasLen fe 4
  len : trunc (x.sPar.data 3) = some (nt : Int)
  fits : fe.idx.fits nt = true
  delay : x.delay.size = 0 ∨ x.delay.size = 1 ∨ x.delay.size = No
  mPar : x.mPar.HasLen fe 3
  foc : if kind.focused then (∃ s, x.foc = .text s ∧ FocName s met) ∧ x.focal.size = 1
        else met = .none
  err : ErrArg (errSeen fe x) level

/-- The driver call meant by the arguments. -/
def SirArgs.meant (L : FFTLib F) (fe : FrontEnd) (kind : SirKind) (x : SirArgs F) (No nt : Nat)
    (met : FocusMet) (level : ErrorLevel) : SirCall F :=
  { k := match kind with
      | .rect => .rect (lit 1) (x.geom.data 0) (x.geom.data 1)
      | .circ => .circ (lit 1) (x.geom.data 0)
      | .line => .line (x.geom.data 0)
      | .sphere => .sphere (x.geom.data 0) (x.geom.data 1)
      | .cylind => .cylind (lit 1) (x.geom.data 0) (x.geom.data 1) (x.geom.data 2)
      | .rectF => .rectF met (x.focal.data 0) (x.geom.data 0) (x.geom.data 1)
      | .circF => .circF met (x.focal.data 0) (x.geom.data 0)
    p := { dx := x.sPar.data 0, dy := x.sPar.data 1, dt := x.sPar.data 2, delay := lit 0,
           v := x.mPar.data 0, cp := x.mPar.data 1 }
    att := if Arith.lt epsilon (x.mPar.data 2) = true then
      some (attResp L { len := nt, dt := x.sPar.data 2, alpha := x.mPar.data 2 }) else none
    nt := nt
    ty := fe.idx
    level := level
    No := No
    Ro := x.ro.buf
    delayType := if x.delay.size = 1 then .single else .multiple
    delay := x.delay.buf }

theorem SirKind.docPars_pos (kind : SirKind) : 1 ≤ kind.docPars := by cases kind <;> decide

theorem SirKind.kern_unfocused (kind : SirKind) (h : kind.focused = false) (g : F × F × F)
    (met : FocusMet) (f f' : F) : kind.kern g met f = kind.kern g met f' := by
  cases kind <;> first | rfl | (exact absurd h (by decide))

theorem meant_kern (kind : SirKind) (a : Arg F) (met : FocusMet) (f : F) :
    kind.kern (geomOf kind.docPars a) met f = match kind with
      | .rect => .rect (lit 1) (a.data 0) (a.data 1)
      | .circ => .circ (lit 1) (a.data 0)
      | .line => .line (a.data 0)
      | .sphere => .sphere (a.data 0) (a.data 1)
      | .cylind => .cylind (lit 1) (a.data 0) (a.data 1) (a.data 2)
      | .rectF => .rectF met f (a.data 0) (a.data 1)
      | .circF => .circF met f (a.data 0) := by
  cases kind <;> simp [SirKind.kern, geomOf, SirKind.docPars]

/-- C35: documented arguments lead to the driver call they mean. -/
theorem C35_sir_call (L : FFTLib F) (fe : FrontEnd) (kind : SirKind) (x : SirArgs F)
    (hx : x.Typed fe) (No nt : Nat) (met : FocusMet) (level : ErrorLevel)
    (h : SirDoc fe kind x No nt met level) :
    frontSir L fe kind x = .ok (.call (x.meant L fe kind No nt met level)) := by
  unfold frontSir
  rw [checkObs_eq fe h.ro, if_pos rfl]
  simp only [Outcome.ok_bind, ret_next]
  rw [kind.numPars_doc, parseGeometry_eq fe hx.geom _ kind.docPars_pos, if_pos h.geom]
  simp only [Outcome.ok_bind, ret_next]
  rw [parseSampling_eq fe hx.sPar, if_pos h.sPar, h.len]
  simp only [castIdx, h.fits, if_true, Outcome.ok_bind, ret_next]
  rw [checkDelay_eq fe hx.delay, if_pos h.delay]
  simp only [Outcome.ok_bind, ret_next]
  rw [parseMaterial_eq fe hx.mPar, if_pos h.mPar]
  simp only [Outcome.ok_bind, ret_next]
  have herr : (parseError fe (errSeen fe x)) = .ret true false level := by
    rw [parseError_eq, (levelOf_iff fe _ _).2 h.err]
  have hnt : ¬ ((nt : Int) < 0) := by omega
  have hf := h.foc
  cases hk : kind.focused with
  | true =>
    rw [hk, if_pos rfl] at hf
    obtain ⟨⟨s, e1, e2⟩, e3⟩ := hf
    obtain ⟨b, p1, p2, p3, p4⟩ := parseFocus_ok fe s met e2 hx.focal 1 ⟨1, fun _ => lit 0⟩ rfl
      (fun _ => Nat.le_refl _) (by rw [e3]; split <;> rfl)
    rw [if_pos rfl, e1, p1]
    simp only [Outcome.ok_bind, ret_next, herr, allocOut, hnt, if_false]
    have hb : b.data 0 = x.focal.data 0 := by
      by_cases hu : met = .ud
      · exact p3 hu 0 (by omega)
      · exact p4 hu
    rw [hb, meant_kern]
    cases kind <;> rfl
  | false =>
    rw [hk, if_neg (by decide)] at hf
    subst hf
    rw [if_neg (by decide)]
    simp only [Outcome.ok_bind, ret_next, herr, allocOut, hnt, if_false]
    rw [kind.kern_unfocused hk _ _ _ (x.focal.data 0), meant_kern]
    cases kind <;> rfl

/-- C35: a driver call happens only for documented arguments, and then with the meant parameters. -/
theorem C35_sir_accepted (L : FFTLib F) (fe : FrontEnd) (kind : SirKind) (x : SirArgs F)
    (hx : x.Typed fe) (c : SirCall F) :
    frontSir L fe kind x = .ok (.call c) ↔
      ∃ No nt met level, SirDoc fe kind x No nt met level ∧ c = x.meant L fe kind No nt met level := by
  constructor
  swap
  · rintro ⟨No, nt, met, level, h, rfl⟩
    exact C35_sir_call L fe kind x hx No nt met level h
  intro h
  obtain ⟨m, n, hro⟩ := hx.ro
  have h0 := h
  unfold frontSir at h
  rw [checkObs_eq fe hro] at h
  by_cases hn : n = 3
  swap
  · simp [hn, failMsg_next] at h
  subst hn
  simp only [if_true, Outcome.ok_bind, ret_next] at h
  rw [kind.numPars_doc, parseGeometry_eq fe hx.geom _ kind.docPars_pos] at h
  by_cases hg : x.geom.HasLen fe kind.docPars
  swap
  · simp [hg, failMsg_next] at h
  simp only [if_pos hg, Outcome.ok_bind, ret_next] at h
  rw [parseSampling_eq fe hx.sPar] at h
  by_cases hs : x.sPar.HasLen fe 4
  swap
  · simp [hs, failMsg_next] at h
  simp only [if_pos hs] at h
  cases ht : trunc (x.sPar.data 3) with
  | none => rw [ht] at h; simp [castIdx] at h
  | some t =>
  rw [ht] at h
  by_cases hfit : fe.idx.fits t = true
  swap
  · simp [castIdx, hfit] at h
  simp only [castIdx, if_pos hfit, Outcome.ok_bind, ret_next] at h
  rw [checkDelay_eq fe hx.delay] at h
  by_cases hd : x.delay.size = 0 ∨ x.delay.size = 1 ∨ x.delay.size = m
  swap
  · simp only [if_neg hd, Outcome.ok_bind, failMsg_next] at h; cases h
  simp only [if_pos hd, Outcome.ok_bind, ret_next] at h
  rw [parseMaterial_eq fe hx.mPar] at h
  by_cases hm : x.mPar.HasLen fe 3
  swap
  · simp [hm, failMsg_next] at h
  simp only [if_pos hm, Outcome.ok_bind, ret_next] at h
  have hfoc : ∃ met, (if kind.focused then (∃ s, x.foc = .text s ∧ FocName s met) ∧ x.focal.size = 1
        else met = .none) := by
    cases hk : kind.focused with
    | false => exact ⟨.none, by simp⟩
    | true =>
      by_contra hne
      obtain ⟨b, hb⟩ := parseFocus_bad fe x.foc hx.focal 1 ⟨1, fun _ => lit 0⟩ rfl (Nat.le_refl _) (by
        rintro ⟨s, met, e1, e2, e3⟩
        exact hne ⟨met, by rw [if_pos rfl]; exact ⟨⟨s, e1, e2⟩, by rw [e3]; split <;> rfl⟩⟩)
        (fun (p : FocusMet × Buf F) => (parseError fe (errSeen fe x)).next (α := SirCall F) fe fun level =>
          allocOut t fun nt => .ok (.call ({
            k := kind.kern (geomOf kind.docPars x.geom) p.1 (p.2.data 0)
            p := { dx := x.sPar.data 0, dy := x.sPar.data 1, dt := x.sPar.data 2, delay := lit 0,
                   v := x.mPar.data 0, cp := x.mPar.data 1 }
            att := attOf L nt (x.sPar.data 2) (x.mPar.data 2)
            nt := nt
            ty := fe.idx
            level := level
            No := m
            Ro := x.ro.buf
            delayType := delayTypeOf x.delay
            delay := x.delay.buf } : SirCall F)))
      rw [hk, if_pos rfl] at h
      rw [hb] at h
      cases h
  obtain ⟨met, hmet⟩ := hfoc
  have herr : ∃ level, ErrArg (errSeen fe x) level := by
    cases hl : levelOf fe (errSeen fe x) with
    | some l => exact ⟨l, (levelOf_iff fe _ _).1 hl⟩
    | none =>
      exfalso
      cases hk : kind.focused with
      | false =>
        rw [hk] at h
        simp [parseError_eq, hl, ret_next, failMsg_next] at h
      | true =>
        rw [hk, if_pos rfl] at hmet
        obtain ⟨⟨s, e1, e2⟩, e3⟩ := hmet
        obtain ⟨b, p1, -⟩ := parseFocus_ok fe s met e2 hx.focal 1 ⟨1, fun _ => lit 0⟩ rfl
          (fun _ => Nat.le_refl _) (by rw [e3]; split <;> rfl)
        rw [hk, if_pos rfl, e1, p1] at h
        simp [parseError_eq, hl, ret_next, failMsg_next] at h
  obtain ⟨level, hlev⟩ := herr
  have hpos : 0 ≤ t := by
    by_contra hneg
    have herr : (parseError fe (errSeen fe x)) = .ret true false level := by
      rw [parseError_eq, (levelOf_iff fe _ _).2 hlev]
    have ht0 : t < 0 := by omega
    cases hk : kind.focused with
    | false =>
      rw [hk] at h
      simp [herr, ret_next, allocOut, ht0] at h
    | true =>
      rw [hk, if_pos rfl] at hmet
      obtain ⟨⟨s, e1, e2⟩, e3⟩ := hmet
      obtain ⟨b, p1, -⟩ := parseFocus_ok fe s met e2 hx.focal 1 ⟨1, fun _ => lit 0⟩ rfl
        (fun _ => Nat.le_refl _) (by rw [e3]; split <;> rfl)
      rw [hk, if_pos rfl, e1, p1] at h
      simp [herr, ret_next, allocOut, ht0] at h
  have hdoc : SirDoc fe kind x m t.toNat met level :=
    ⟨hro, hg, hs, by rw [ht, Int.toNat_of_nonneg hpos],
      by rw [Int.toNat_of_nonneg hpos]; exact hfit, hd, hm, hmet, hlev⟩
  refine ⟨m, t.toNat, met, level, hdoc, ?_⟩
  have := C35_sir_call L fe kind x hx _ _ _ _ hdoc
  rw [h0] at this
  cases this
  rfl

/-- C35: arguments of the right types that are not as documented are rejected, unless the wanted
response length is no number of the index type. -/
theorem C35_sir_rejected (L : FFTLib F) (fe : FrontEnd) (kind : SirKind) (x : SirArgs F)
    (hx : x.Typed fe) (h : ¬ ∃ No nt met level, SirDoc fe kind x No nt met level)
    (hc : ∃ t, trunc (x.sPar.data 3) = some t ∧ fe.idx.fits t = true) :
    ∃ b, frontSir L fe kind x = .ok (.rejected b) := by
  obtain ⟨t, ht, hfit⟩ := hc
  obtain ⟨m, n, hro⟩ := hx.ro
  have key : ∃ r, frontSir L fe kind x = .ok r := by
    unfold frontSir
    rw [checkObs_eq fe hro]
    by_cases hn : n = 3
    swap
    · exact ⟨_, by rw [if_neg hn, Outcome.ok_bind, failMsg_next]⟩
    simp only [if_pos hn, Outcome.ok_bind, ret_next]
    rw [kind.numPars_doc, parseGeometry_eq fe hx.geom _ kind.docPars_pos]
    by_cases hg : x.geom.HasLen fe kind.docPars
    swap
    · exact ⟨_, by rw [if_neg hg, Outcome.ok_bind, failMsg_next]⟩
    simp only [if_pos hg, Outcome.ok_bind, ret_next]
    rw [parseSampling_eq fe hx.sPar]
    by_cases hs : x.sPar.HasLen fe 4
    swap
    · exact ⟨_, by rw [if_neg hs, Outcome.ok_bind, failMsg_next]⟩
    simp only [if_pos hs, ht, castIdx, if_pos hfit, Outcome.ok_bind, ret_next]
    rw [checkDelay_eq fe hx.delay]
    by_cases hd : x.delay.size = 0 ∨ x.delay.size = 1 ∨ x.delay.size = m
    swap
    · exact ⟨_, by rw [if_neg hd, Outcome.ok_bind, failMsg_next]⟩
    simp only [if_pos hd, Outcome.ok_bind, ret_next]
    rw [parseMaterial_eq fe hx.mPar]
    by_cases hm : x.mPar.HasLen fe 3
    swap
    · exact ⟨_, by rw [if_neg hm, Outcome.ok_bind, failMsg_next]⟩
    simp only [if_pos hm, Outcome.ok_bind, ret_next]
    have tail : ∀ (p : FocusMet × Buf F), ∃ r,
        ((parseError fe (errSeen fe x)).next (α := SirCall F) fe fun level =>
          allocOut t fun nt => .ok (.call ({
            k := kind.kern (geomOf kind.docPars x.geom) p.1 (p.2.data 0)
            p := { dx := x.sPar.data 0, dy := x.sPar.data 1, dt := x.sPar.data 2, delay := lit 0,
                   v := x.mPar.data 0, cp := x.mPar.data 1 }
            att := attOf L nt (x.sPar.data 2) (x.mPar.data 2)
            nt := nt
            ty := fe.idx
            level := level
            No := m
            Ro := x.ro.buf
            delayType := delayTypeOf x.delay
            delay := x.delay.buf } : SirCall F))) = .ok r := by
      intro p
      rw [parseError_eq]
      cases levelOf fe (errSeen fe x) with
      | none => exact ⟨_, failMsg_next _ _ _⟩
      | some l =>
        simp only [ret_next, allocOut]
        split <;> exact ⟨_, rfl⟩
    cases hk : kind.focused with
    | false =>
      simp only [Bool.false_eq_true, if_false, Outcome.ok_bind, ret_next]
      exact tail (.none, ⟨1, fun _ => lit 0⟩)
    | true =>
      simp only [if_true]
      by_cases hf : ∃ s met, x.foc = .text s ∧ FocName s met ∧
          x.focal.size = if met = .ud then 1 else 1
      · obtain ⟨s, met, e1, e2, e3⟩ := hf
        obtain ⟨b, p1, -⟩ := parseFocus_ok fe s met e2 hx.focal 1 ⟨1, fun _ => lit 0⟩ rfl
          (fun _ => Nat.le_refl _) e3
        rw [e1, p1]
        simp only [Outcome.ok_bind, ret_next]
        exact tail (met, b)
      · obtain ⟨b, hb⟩ := parseFocus_bad fe x.foc hx.focal 1 ⟨1, fun _ => lit 0⟩ rfl
          (Nat.le_refl _) hf (fun (p : FocusMet × Buf F) =>
          (parseError fe (errSeen fe x)).next (α := SirCall F) fe fun level =>
          allocOut t fun nt => .ok (.call ({
            k := kind.kern (geomOf kind.docPars x.geom) p.1 (p.2.data 0)
            p := { dx := x.sPar.data 0, dy := x.sPar.data 1, dt := x.sPar.data 2, delay := lit 0,
                   v := x.mPar.data 0, cp := x.mPar.data 1 }
            att := attOf L nt (x.sPar.data 2) (x.mPar.data 2)
            nt := nt
            ty := fe.idx
            level := level
            No := m
            Ro := x.ro.buf
            delayType := delayTypeOf x.delay
            delay := x.delay.buf } : SirCall F)))
        exact ⟨_, hb⟩
  obtain ⟨r, hr⟩ := key
  cases r with
  | rejected b => exact ⟨b, hr⟩
  | call c =>
    obtain ⟨No, nt, met, level, hdoc, -⟩ := (C35_sir_accepted L fe kind x hx c).1 hr
    exact absurd ⟨No, nt, met, level, hdoc⟩ h

/-- C35: a negative response length is rejected in Octave and Python (with any other arguments of the
right types); in MATLAB and Julia, whose index types are unsigned, its conversion is undefined when
the points and the geometry have passed their checks. -/
theorem C35_negative_length (L : FFTLib F) (fe : FrontEnd) (kind : SirKind) (x : SirArgs F)
    (hx : x.Typed fe) (t : Int) (ht : trunc (x.sPar.data 3) = some t) (h0 : t < 0) :
    ((fe = .octave ∨ fe = .python) → -2 ^ 63 ≤ t → ∃ b, frontSir L fe kind x = .ok (.rejected b)) ∧
    ((fe = .matlab ∨ fe = .julia) → (∃ No, x.ro.shape = [No, 3]) → x.geom.HasLen fe kind.docPars →
      x.sPar.HasLen fe 4 → frontSir L fe kind x = .ub .cast) := by
  constructor
  · intro hfe hb
    refine C35_sir_rejected L fe kind x hx ?_ ⟨t, ht, ?_⟩
    · rintro ⟨No, nt, met, level, hdoc⟩
      have := hdoc.len
      rw [ht] at this
      simp only [Option.some.injEq] at this
      omega
    · have : fe.idx = .signed := by rcases hfe with rfl | rfl <;> rfl
      rw [this]
      simp only [IdxTy.fits, decide_eq_true_eq]
      constructor
      · exact hb
      · have e2 : (2 : Int) ^ 63 = 9223372036854775808 := by decide
        rw [e2]
        omega
  · rintro hfe ⟨No, hro⟩ hg hs
    have : fe.idx = .unsigned := by rcases hfe with rfl | rfl <;> rfl
    unfold frontSir
    rw [checkObs_eq fe hro, if_pos rfl]
    simp only [Outcome.ok_bind, ret_next]
    rw [kind.numPars_doc, parseGeometry_eq _ hg.vec _ kind.docPars_pos, if_pos hg]
    simp only [Outcome.ok_bind, ret_next]
    rw [parseSampling_eq _ hs.vec, if_pos hs, ht, this]
    have hf : castIdx .unsigned (some t) = .ub .cast := by
      have : IdxTy.unsigned.fits t = false := by
        simp only [IdxTy.fits, decide_eq_false_iff_not]
        omega
      simp [castIdx, this]
    rw [hf]
    rfl

/-! ### C36: delays -/

/-- C36: the delay argument is accepted iff it has no entry, one entry or one for each point. -/
theorem C36_delay_check (fe : FrontEnd) (a : Arg F) (h : a.IsVecArg fe) (No : Nat) :
    (∃ b ty, checkDelay fe a No = .ok (.ret true b ty)) ↔ a.size = 0 ∨ a.size = 1 ∨ a.size = No := by
  rw [checkDelay_eq fe h]
  by_cases hd : a.size = 0 ∨ a.size = 1 ∨ a.size = No
  · simp [hd]
  · simp only [if_neg hd, hd, iff_false]
    rintro ⟨b, ty, e⟩
    cases fe <;> simp [failMsg] at e

/-- C36: if the delay has one entry, or one for each point, then the accepted call has arguments of
the right sizes, for which no run of the driver accesses memory outside its buffers. -/
theorem C36_nonempty_safe (L : FFTLib F) (fe : FrontEnd) (kind : SirKind) (x : SirArgs F)
    (hx : x.Typed fe) (c : SirCall F) (hc : frontSir L fe kind x = .ok (.call c))
    (hd : x.delay.size = 1 ∨ x.delay.size = c.No) (out : Nat → F) :
    c.Sized ⟨c.No * c.nt, out⟩ := by
  obtain ⟨No, nt, met, level, hdoc, rfl⟩ := (C35_sir_accepted L fe kind x hx c).1 hc
  refine ⟨?_, ?_, rfl⟩
  · have : x.ro.size = No * 3 := Arg.size_eq hdoc.ro
    show x.ro.size = 3 * No
    omega
  · change x.delay.size = 1 ∨ x.delay.size = No at hd
    show x.delay.size = match (if x.delay.size = 1 then DelayType.single else .multiple) with
      | .single => 1 | .multiple => No
    by_cases e : x.delay.size = 1
    · rw [if_pos e]; exact e
    · rw [if_neg e]; rcases hd with hd | hd
      · exact absurd hd e
      · exact hd

/-- A worker whose first step is undefined has not moved. -/
theorem exec_stuck {L : Type} (t : Task F L) (w : Nat) (e : UB) :
    ∀ (as : List Act) (s s' : Sys F L), (s.ws w).pc = .fetch → (s.ws w).n < (s.ws w).stop →
      t.begin (s.ws w).n = .ub e → exec t as s = .ok s' → (s'.ws w).pc = .fetch := by
  intro as
  induction as with
  | nil => intro s s' h1 _ _ h; simp only [exec, Outcome.ok.injEq] at h; rw [← h]; exact h1
  | cons a as ih =>
    intro s s' h1 h2 h3 h
    simp only [exec] at h
    cases hs : stepSys t a s with
    | ub e => rw [hs] at h; cases h
    | fuel => rw [hs] at h; cases h
    | ok s1 =>
      rw [hs] at h
      have hw : s1.ws w = s.ws w := by
        cases a with
        | abort => simp only [stepSys, Outcome.ok.injEq] at hs; rw [← hs]
        | step v =>
          simp only [stepSys] at hs
          by_cases hv : v = w
          · subst hv
            simp [stepWorker, h1, h2, h3] at hs
          · have hset : ∀ (q : Sys F L) (y : Worker L), (q.setW v y).ws w = q.ws w := by
              intro q y; simp [Sys.setW, Ne.symm hv]
            unfold stepWorker at hs
            simp only at hs
            split at hs
            · cases hs; rfl
            · split at hs
              · cases hb : t.begin (s.ws v).n with
                | ub e => rw [hb] at hs; cases hs
                | fuel => rw [hb] at hs; cases hs
                | ok l => rw [hb] at hs; cases hs; exact hset _ _
              · cases hs; exact hset _ _
            · next l _ =>
              cases hb : t.micro (s.ws v).n l s.mem with
              | ub e => rw [hb] at hs; cases hs
              | fuel => rw [hb] at hs; cases hs
              | ok r =>
                rw [hb] at hs
                rcases r with ⟨m, l' | e'⟩ <;> (cases hs; exact hset _ _)
            · cases hs; exact hset _ _
            · split at hs <;> (cases hs; exact hset _ _)
      refine ih s1 s' ?_ ?_ ?_ h
      · rw [hw]; exact h1
      · rw [hw]; exact h2
      · rw [hw]; exact h3

/-- C36: an empty delay vector is accepted, and then memory outside it is read: every observation
point's computation is an out-of-bounds access, and no run of the driver, whatever the number of
workers and the schedule, completes. -/
theorem C36_empty_unsafe (L : FFTLib F) (fe : FrontEnd) (kind : SirKind) (x : SirArgs F)
    (hx : x.Typed fe) (No nt : Nat) (met : FocusMet) (level : ErrorLevel)
    (h : SirDoc fe kind x No nt met level) (hd : x.delay.size = 0) (hN : 1 ≤ No) :
    ∃ c, frontSir L fe kind x = .ok (.call c) ∧ c.No = No ∧
      (∀ n, n < No → ∀ fuel m, c.serialAt n fuel m = .ub .oob) ∧
      ∀ nth, 1 ≤ nth → ∀ m as s', ¬ c.Run nth m as s' := by
  refine ⟨_, C35_sir_call L fe kind x hx No nt met level h, rfl, ?_⟩
  have hin : ∀ n, n < No → (x.meant L fe kind No nt met level).inputs n = .ub .oob := by
    intro n hn
    have hro : x.ro.size = No * 3 := Arg.size_eq h.ro
    simp only [SirCall.inputs, SirArgs.meant, hd]
    have r : ∀ i, i < No * 3 → x.ro.buf.read (i : Int) = .ok (x.ro.data i) :=
      fun i hi => Arg.read_eq hro hi
    rw [r n (by omega), r (n + 1 * No) (by omega), r (n + 2 * No) (by omega)]
    simp only [Outcome.bind, if_neg (show ¬ (0 = 1) by decide)]
    have : x.delay.buf.read (n : Int) = .ub .oob := by
      simp only [Buf.read, Arg.buf, hd]
      rw [if_neg (by omega)]
    rw [this]
  refine ⟨fun n hn fuel m => ?_, ?_⟩
  · simp only [SirCall.serialAt, hin n hn, Outcome.bind]
  · rintro nth h1 m as s' ⟨hrun, hdone⟩
    obtain ⟨w, hw, h2, h3⟩ := owner_exists No nth 0 h1 (by omega)
    set c := x.meant L fe kind No nt met level with hc
    have hcN : c.No = No := rfl
    have hws : (initSys (F := F) (L := KLoc F) c.No nth m).ws w =
        { n := rangeStart No nth w, stop := rangeStop No nth w, pc := .fetch, err := .none } := by
      simp [initSys, hw, hcN]
    have hlt : rangeStart No nth w < No := by omega
    have := exec_stuck c.task w .oob as _ s' (by rw [hws]) (by rw [hws]; dsimp only; omega)
      (by rw [hws]; simp only [SirCall.task, effTask, hin _ hlt, Outcome.map]) hrun
    have hd' := hdone w hw
    simp [Sys.isDone, this] at hd'

/-! ### C49: one-dimensional numpy arrays -/

/-- C49: all argument checks of the Python interface read a shape entry that a one-dimensional array
does not have. -/
theorem C49_one_dim (a : Arg F) (n : Nat) (h : a.shape = [n]) (No k : Nat) :
    checkObs .python a = .ub .oob ∧ parseGeometry .python k a = .ub .oob ∧
    parseSampling .python a = .ub .oob ∧ parseMaterial .python a = .ub .oob ∧
    checkDelay .python a No = .ub .oob ∧ checkArrayAnnu .python a = .ub .oob ∧
    (∀ s focal, parseFocus .python (.text s) a k focal = .ub .oob) ∧
    (∀ s, parseSteer .python (.text s) a = .ub .oob) := by
  have h0 : a.dim 0 = .ok n := by simp [Arg.dim, h]
  have h1 : a.dim 1 = .ub .oob := by simp [Arg.dim, h]
  refine ⟨?_, ?_, ?_, ?_, ?_, ?_, ?_, ?_⟩
  · simp [checkObs, h1]
  · simp [parseGeometry, Arg.isVec, h0, h1]
  · simp [parseSampling, Arg.isVec, h0, h1]
  · simp [parseMaterial, Arg.isVec, h0, h1]
  · simp [checkDelay, Arg.count, h0, h1]
  · simp [checkArrayAnnu, h0, h1]
  · intro s focal; simp [parseFocus, Arg.count, h0, h1]
  · intro s; simp [parseSteer, Arg.isVec, h0, h1]

/-- C49: so a call of a single transducer function from Python whose observation points are a matrix
with three columns, but whose geometry (or sampling, delay or material) is given as a one-dimensional
array, is undefined, when the arguments before it are fine. -/
theorem C49_python_call (L : FFTLib F) (kind : SirKind) (x : SirArgs F) (No n : Nat)
    (hro : x.ro.shape = [No, 3])
    (h : x.geom.shape = [n] ∨
      (x.geom.HasLen .python kind.docPars ∧
        (x.sPar.shape = [n] ∨
        (x.sPar.HasLen .python 4 ∧ (∃ t, castIdx .signed (trunc (x.sPar.data 3)) = .ok t) ∧
          (x.delay.shape = [n] ∨
          ((x.delay.HasLen .python 1 ∨ x.delay.HasLen .python No) ∧ x.mPar.shape = [n])))))) :
    frontSir L .python kind x = .ub .oob := by
  unfold frontSir
  rw [checkObs_eq _ hro, if_pos rfl]
  simp only [Outcome.ok_bind, ret_next]
  rcases h with h | ⟨hg, h⟩
  · rw [(C49_one_dim x.geom n h 0 kind.numPars).2.1]; rfl
  rw [kind.numPars_doc, parseGeometry_eq _ hg.vec _ kind.docPars_pos, if_pos hg]
  simp only [Outcome.ok_bind, ret_next]
  rcases h with h | ⟨hs, ⟨t, ht⟩, h⟩
  · rw [(C49_one_dim x.sPar n h 0 0).2.2.1]; rfl
  rw [parseSampling_eq _ hs.vec, if_pos hs, show FrontEnd.idx .python = .signed from rfl, ht]
  simp only [Outcome.ok_bind, ret_next]
  rcases h with h | ⟨hd, h⟩
  · rw [(C49_one_dim x.delay n h No 0).2.2.2.2.1]; rfl
  have hd' : x.delay.IsVecArg .python := by rcases hd with hd | hd <;> exact hd.vec
  have hd2 : x.delay.size = 0 ∨ x.delay.size = 1 ∨ x.delay.size = No := by
    rcases hd with hd | hd <;> simp [hd.size]
  rw [checkDelay_eq _ hd', if_pos hd2]
  simp only [Outcome.ok_bind, ret_next]
  rw [(C49_one_dim x.mPar n h 0 0).2.2.2.1]
  rfl

/-! ### C50: MATLAB's seventh argument -/

/-- C50: when a compute device is given in MATLAB, the error level argument is not looked at: any text
is accepted and the driver runs with error level stop. -/
theorem C50_matlab_level_ignored (L : FFTLib F) (kind : SirKind) (x : SirArgs F)
    (hx : x.Typed .matlab) (hg : x.gpu = true) (c : SirCall F)
    (hc : frontSir L .matlab kind x = .ok (.call c)) :
    c.level = .stop ∧
    ∀ e, frontSir L .matlab kind { x with err := e } = .ok (.call c) := by
  obtain ⟨No, nt, met, level, hdoc, rfl⟩ := (C35_sir_accepted L .matlab kind x hx c).1 hc
  have hl : level = .stop := by
    have := hdoc.err
    simp only [ErrArg, errSeen, hg, and_self, if_true] at this
    simpa using this
  refine ⟨hl, fun e => ?_⟩
  have hdoc' : SirDoc .matlab kind { x with err := e } No nt met level :=
    ⟨hdoc.ro, hdoc.geom, hdoc.sPar, hdoc.len, hdoc.fits, hdoc.delay, hdoc.mPar, hdoc.foc,
      Or.inl ⟨by simp [errSeen, hg], hl⟩⟩
  have hx' : SirArgs.Typed .matlab { x with err := e } := ⟨hx.ro, hx.geom, hx.sPar, hx.delay, hx.mPar, hx.focal⟩
  exact C35_sir_call L .matlab kind _ hx' No nt met level hdoc'

/-! ### The hypotheses can be met -/

section
attribute [local instance] toyArith

/-- Shape of a vector with `k` entries. -/
def toyShape (fe : FrontEnd) (k : Nat) : List Nat :=
  match fe with | .julia => [k] | _ => [1, k]

/-- Two observation points, a focused rectangle, `d` delays. -/
def toyArgs (fe : FrontEnd) (d : Nat) : SirArgs Int where
  ro := ⟨[2, 3], fun i => [0, 0, 0, 0, 5, 40].getD i 0⟩
  geom := ⟨toyShape fe 2, fun _ => 4⟩
  sPar := ⟨toyShape fe 4, fun i => [2, 2, 1, 12].getD i 0⟩
  delay := ⟨toyShape fe d, fun _ => 0⟩
  mPar := ⟨toyShape fe 3, fun i => [100, 1000, 0].getD i 0⟩
  foc := .text "x+y"
  focal := ⟨toyShape fe 1, fun _ => 7⟩
  err := some (.text "warn")
  gpu := false

theorem toyArgs_typed (fe : FrontEnd) (d : Nat) : (toyArgs fe d).Typed fe := by
  cases fe <;> exact ⟨⟨_, _, rfl⟩, by first | exact ⟨_, rfl⟩ | exact ⟨_, _, rfl⟩,
    by first | exact ⟨_, rfl⟩ | exact ⟨_, _, rfl⟩, by first | exact ⟨_, rfl⟩ | exact ⟨_, _, rfl⟩,
    by first | exact ⟨_, rfl⟩ | exact ⟨_, _, rfl⟩, by first | exact ⟨_, rfl⟩ | exact ⟨_, _, rfl⟩⟩

theorem toyArgs_doc (fe : FrontEnd) (d : Nat) (hd : d ≤ 2) :
    SirDoc fe .rectF (toyArgs fe d) 2 12 .x_y .warn where
  ro := rfl
  geom := by cases fe <;> first | rfl | exact Or.inr rfl
  sPar := by cases fe <;> first | rfl | exact Or.inr rfl
  len := rfl
  fits := by cases fe <;> decide
  delay := by
    have : (toyArgs fe d).delay.size = d := by cases fe <;> simp [toyArgs, Arg.size, toyShape]
    omega
  mPar := by cases fe <;> first | rfl | exact Or.inr rfl
  foc := by
    rw [if_pos (by decide)]
    exact ⟨⟨_, rfl, .x_y⟩, by cases fe <;> simp [toyArgs, Arg.size, toyShape]⟩
  err := by
    refine Or.inr ⟨"warn", ?_, .warn⟩
    simp [errSeen, toyArgs]

/-- Delays with no, one and two entries are accepted in each language. -/
example (L : FFTLib Int) (fe : FrontEnd) (d : Nat) (hd : d ≤ 2) :
    ∃ c, frontSir L fe .rectF (toyArgs fe d) = .ok (.call c) ∧ c.No = 2 ∧ c.nt = 12 :=
  ⟨_, C35_sir_call L fe .rectF (toyArgs fe d) (toyArgs_typed fe d) 2 12 .x_y .warn (toyArgs_doc fe d hd),
    rfl, rfl⟩

/-- Three are rejected. -/
example (L : FFTLib Int) (fe : FrontEnd) :
    ∃ b, frontSir L fe .rectF (toyArgs fe 3) = .ok (.rejected b) := by
  refine C35_sir_rejected L fe .rectF _ (toyArgs_typed fe 3) ?_ ⟨12, rfl, by cases fe <;> decide⟩
  rintro ⟨No, nt, met, level, h⟩
  have h1 := h.ro
  have h2 := h.delay
  have h3 : (toyArgs fe 3).delay.size = 3 := by cases fe <;> simp [toyArgs, Arg.size, toyShape]
  have h4 : (toyArgs fe 3).ro.shape = [2, 3] := rfl
  rw [h4] at h1
  simp only [List.cons.injEq, and_true] at h1
  omega

/-- A response length of -3: undefined in Julia, rejected in Octave. -/
example (L : FFTLib Int) : frontSir L .julia .rect { toyArgs .julia 1 with
      sPar := ⟨[4], fun i => [2, 2, 1, -3].getD i 0⟩ } = .ub .cast ∧
    ∃ b, frontSir L .octave .rect { toyArgs .octave 1 with
      sPar := ⟨[1, 4], fun i => [2, 2, 1, -3].getD i 0⟩ } = .ok (.rejected b) := by
  constructor
  · exact (C35_negative_length L .julia .rect _ ⟨⟨_, _, rfl⟩, ⟨_, rfl⟩, ⟨_, rfl⟩, ⟨_, rfl⟩, ⟨_, rfl⟩, ⟨_, rfl⟩⟩
      (-3) rfl (by decide)).2 (.inr rfl) ⟨2, rfl⟩ rfl rfl
  · exact (C35_negative_length L .octave .rect _ ⟨⟨_, _, rfl⟩, ⟨_, _, rfl⟩, ⟨_, _, rfl⟩, ⟨_, _, rfl⟩,
      ⟨_, _, rfl⟩, ⟨_, _, rfl⟩⟩ (-3) rfl (by decide)).1 (.inl rfl) (by decide)

/-- A call from Python with one-dimensional arrays. -/
example (L : FFTLib Int) :
    frontSir L .python .rect { toyArgs .python 1 with geom := ⟨[2], fun _ => 4⟩ } = .ub .oob :=
  C49_python_call L .rect _ 2 2 rfl (Or.inl rfl)

end

end Dream
