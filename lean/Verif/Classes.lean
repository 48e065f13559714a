import Verif.ArgParser

/-
Numeric classes of the arguments.  `ArgParser.lean` takes the arguments as arrays of doubles; here an
argument also has the class in which the language stores it (double, single, integers, logical), and
the parse functions and wrappers are given the memory they really read:

* MATLAB: `mxGetPr` gives the address of the stored numbers whatever their class (include/arg_parser.h
  635-637, mex/mex_dreamrect.cc 54 and 76); `mxGetScalar` converts (639-641).  No class is checked.
* Octave: `get_data` (arg_parser.h 606-609) returns the address of the data of a local `Matrix`.
  A double matrix shares its data with the argument; for every other class, and for a double with one
  entry (stored as a scalar), `matrix_value()` makes a new matrix which is freed when `get_data`
  returns.  The wrappers keep the matrices of the observation points, the grid, the radii and the
  delays alive themselves (oct/oct_dreamrect.cc 141-142, 174-175); `double_value()` converts.
* Python: `py::array_t<double,py::array::f_style>` converts the array when the function is called.
* Julia: the wrapper is only called for arrays of `Float64` (`jl::ArrayRef<double>`); other arrays
  give an exception.
-/

namespace Dream
open Arith

variable {F : Type} [Arith F]

/-- Numeric classes. -/
inductive NumClass
  | double | single | int8 | int16 | int32 | int64 | logical
  deriving DecidableEq, Repr

/-- Bytes per number. -/
def NumClass.bytes : NumClass → Nat
  | .double => 8 | .single => 4 | .int8 => 1 | .int16 => 2 | .int32 => 4 | .int64 => 8 | .logical => 1

/-- A numeric argument with its class; `bits` are the doubles found when the stored bytes are taken
for doubles. -/
structure TArg (F : Type) where
  arg : Arg F
  cls : NumClass
  bits : Nat → F

namespace TArg

/-- `mxGetPr` used as `double*`: only whole doubles inside the stored bytes can be read. -/
def raw (a : TArg F) : Buf F :=
  if a.cls = .double then a.arg.buf else ⟨a.arg.size * a.cls.bytes / 8, a.bits⟩

/-- Memory read through `get_data` in the parse functions. -/
def param (fe : FrontEnd) (a : TArg F) : Buf F :=
  match fe with
  | .matlab => a.raw
  | .octave => if a.cls = .double ∧ a.arg.size ≠ 1 then a.arg.buf else ⟨0, a.bits⟩
  | _ => a.arg.buf

/-- Memory to which the wrapper keeps a pointer (observation points, grid, radii, delays). -/
def kept (fe : FrontEnd) (a : TArg F) : Buf F :=
  match fe with
  | .matlab => a.raw
  | _ => a.arg.buf

/-- `get_scalar`: converted. -/
def scal (a : TArg F) : Buf F := a.arg.buf

end TArg

/-- `parse_geometry`, arg_parser.h 136-169. -/
def parseGeometryT (fe : FrontEnd) (k : Nat) (a : TArg F) : Outcome (PRes (F × F × F)) :=
  (a.arg.isVec fe k).bind fun good =>
  if good then
    (if k = 1 then (a.scal.read 0).bind fun x => .ok (x, lit 0, lit 0)
     else if 1 < k then
       ((a.param fe).read 0).bind fun x => ((a.param fe).read 1).bind fun y =>
         if 2 < k then ((a.param fe).read 2).bind fun z => .ok (x, y, z) else .ok (x, y, lit 0)
     else .ok (lit 0, lit 0, lit 0)).bind fun g => .ok (.ret true false g)
  else .ok (failMsg fe (lit 0, lit 0, lit 0))

/-- `parse_sampling`, arg_parser.h 183-201. -/
def parseSamplingT (fe : FrontEnd) (a : TArg F) : Outcome (PRes (F × F × F × Int)) :=
  (a.arg.isVec fe 4).bind fun good =>
  if good then
    ((a.param fe).read 0).bind fun dx => ((a.param fe).read 1).bind fun dy =>
    ((a.param fe).read 2).bind fun dt =>
    ((a.param fe).read 3).bind fun x => (castIdx fe.idx (trunc x)).bind fun nt =>
    .ok (.ret true false (dx, dy, dt, nt))
  else .ok (failMsg fe (lit 0, lit 0, lit 0, 0))

/-- `parse_material`, arg_parser.h 216-233. -/
def parseMaterialT (fe : FrontEnd) (a : TArg F) : Outcome (PRes (F × F × F)) :=
  (a.arg.isVec fe 3).bind fun good =>
  if good then
    ((a.param fe).read 0).bind fun v => ((a.param fe).read 1).bind fun cp =>
    ((a.param fe).read 2).bind fun alpha =>
    .ok (.ret true false (v, cp, alpha))
  else .ok (failMsg fe (lit 1, lit 1000, lit 0))

/-- `parse_focus_args`, arg_parser.h 301-386: user defined delays are copied from `get_data` (351), a
scalar comes from `get_scalar` (368). -/
def parseFocusT (fe : FrontEnd) (str : StrArg) (val : TArg F) (num : Nat) (focal : Buf F) :
    Outcome (PRes (FocusMet × Buf F)) :=
  match str with
  | .other => .ok (failMsg fe (.none, focal))
  | .text s =>
    let s := getString fe s
    let met := (lookup focTab s).getD .none
    (val.arg.count fe).bind fun n =>
    if s = "ud" then
      if n ≠ num then
        .ok (match fe with
          | .matlab => .raised
          | .octave => .ret false true (met, focal)
          | _ => .ret false false (met, focal))
      else (copyN (val.param fe) num focal).bind fun focal' => .ok (.ret true false (met, focal'))
    else if n ≠ 1 then .ok (failMsg fe (met, focal))
    else (val.scal.read 0).bind fun x => (focal.write 0 x).bind fun focal' =>
      .ok (if (lookup focTab s).isNone then failMsg fe (met, focal') else .ret true false (met, focal'))

/-- `parse_steer_args`, arg_parser.h 389-443. -/
def parseSteerT (fe : FrontEnd) (str : StrArg) (val : TArg F) : Outcome (PRes (SteerMet × F × F)) :=
  match str with
  | .other => .ok (failMsg fe (.none, lit 0, lit 0))
  | .text s =>
    let r := lookup steerTab (getString fe s)
    if r.isNone ∧ fe = .matlab then .ok .raised
    else
    (val.arg.isVec fe 2).bind fun good =>
    if good = false ∨ r.isNone then .ok (failMsg fe (r.getD .none, lit 0, lit 0))
    else ((val.param fe).read 0).bind fun t => ((val.param fe).read 1).bind fun p =>
      .ok (.ret true false (r.getD .none, t, p))

/-- The user defined weights in `parse_apod_args`, arg_parser.h 511-523. -/
def udWeightsT (fe : FrontEnd) (s : String) (val : TArg F) (num : Nat) (A : Apod F) :
    Outcome (Bool × Apod F) :=
  if s = "ud" then
    (val.arg.count fe).bind fun n =>
      if n ≠ num then .ok (false, A)
      else (copyN (val.param fe) num A.vec).bind fun v => .ok (true, { A with vec := v })
  else .ok (true, A)

/-- `parse_apod_args`, arg_parser.h 446-547. -/
def parseApodT (fe : FrontEnd) (str : StrArg) (val par : TArg F) (num : Nat) (A : Apod F) :
    Outcome (PRes (Apod F)) :=
  match str with
  | .other => .ok (failMsg fe A)
  | .text s =>
    let r := lookup apodTab (getString fe s)
    (udWeightsT fe (getString fe s) val num (setApod r A)).bind fun (good, A2) =>
    match fe with
    | .python => .ok (if r.isNone then .ret false true A2 else .ret good false A2)
    | .julia => .ok (if r.isNone then .ret false true A2 else .ret good false A2)
    | _ =>
      if r.isNone ∧ fe = .matlab then .ok .raised
      else
      (par.arg.dim 0).bind fun m => (par.arg.dim 1).bind fun n =>
      if ¬ (m = 1 ∧ n = 1) then .ok (failMsg fe A2)
      else if r.isNone then .ok (failMsg fe A2)
      else if good then (par.scal.read 0).bind fun x => .ok (.ret true false { A2 with par := x })
      else .ok (.ret false false A2)

/-- Arguments of the single transducer functions with their classes. -/
structure SirArgsT (F : Type) where
  ro : TArg F
  geom : TArg F
  sPar : TArg F
  delay : TArg F
  mPar : TArg F
  foc : StrArg
  focal : TArg F
  err : Option StrArg
  gpu : Bool

namespace SirArgsT

/-- The numbers the user wrote. -/
def nums (x : SirArgsT F) : SirArgs F :=
  { ro := x.ro.arg, geom := x.geom.arg, sPar := x.sPar.arg, delay := x.delay.arg,
    mPar := x.mPar.arg, foc := x.foc, focal := x.focal.arg, err := x.err, gpu := x.gpu }

/-- Are all the arrays of class double? -/
def doubles (x : SirArgsT F) : Bool :=
  [x.ro, x.geom, x.sPar, x.delay, x.mPar, x.focal].all fun a => a.cls = .double

end SirArgsT

/-- The wrapper of a single transducer function up to the call of the driver (see `frontSir`), with
the classes of the arguments. -/
def frontSirT (L : FFTLib F) (fe : FrontEnd) (kind : SirKind) (x : SirArgsT F) :
    Outcome (Front (SirCall F)) :=
  if fe = .julia ∧ x.doubles = false then .ok (.rejected true) else
  (checkObs fe x.ro.arg).bind fun r => r.next fe fun No =>
  (parseGeometryT fe kind.numPars x.geom).bind fun r => r.next fe fun g =>
  (parseSamplingT fe x.sPar).bind fun r => r.next fe fun (dx, dy, dt, nt) =>
  (checkDelay fe x.delay.arg No).bind fun r => r.next fe fun delayType =>
  (parseMaterialT fe x.mPar).bind fun r => r.next fe fun (v, cp, alpha) =>
  (if kind.focused then parseFocusT fe x.foc x.focal 1 ⟨1, fun _ => lit 0⟩
   else .ok (.ret true false (.none, ⟨1, fun _ => lit 0⟩))).bind fun r =>
    r.next fe fun (met, focal) =>
  (parseError fe (errSeen fe x.nums)).next fe fun level =>
  allocOut nt fun nt =>
  .ok (.call {
    k := kind.kern g met (focal.data 0)
    p := { dx := dx, dy := dy, dt := dt, delay := lit 0, v := v, cp := cp }
    att := attOf L nt dt alpha
    nt := nt
    ty := fe.idx
    level := level
    No := No
    Ro := x.ro.kept fe
    delayType := delayType
    delay := x.delay.kept fe })

/-- Arguments of the array functions with their classes. -/
structure ArrArgsT (F : Type) where
  ro : TArg F
  geom : TArg F
  grid : TArg F
  sPar : TArg F
  delay : TArg F
  mPar : TArg F
  foc : StrArg
  focal : TArg F
  steer : StrArg
  steerPar : TArg F
  apod : StrArg
  apodVec : TArg F
  winPar : TArg F
  err : Option StrArg

namespace ArrArgsT

/-- The numbers the user wrote. -/
def nums (x : ArrArgsT F) : ArrArgs F :=
  { ro := x.ro.arg, geom := x.geom.arg, grid := x.grid.arg, sPar := x.sPar.arg,
    delay := x.delay.arg, mPar := x.mPar.arg, foc := x.foc, focal := x.focal.arg, steer := x.steer,
    steerPar := x.steerPar.arg, apod := x.apod, apodVec := x.apodVec.arg, winPar := x.winPar.arg,
    err := x.err }

/-- Are all the arrays of class double? -/
def doubles (x : ArrArgsT F) : Bool :=
  [x.ro, x.geom, x.grid, x.sPar, x.delay, x.mPar, x.focal, x.steerPar, x.apodVec, x.winPar].all
    fun a => a.cls = .double

end ArrArgsT

/-- The wrapper of an array function up to the call of the driver (see `frontArr`), with the classes
of the arguments. -/
def frontArrT (L : FFTLib F) (fe : FrontEnd) (kind : ArrKind) (x : ArrArgsT F) :
    Outcome (Front (ArrCall F)) :=
  if fe = .julia ∧ x.doubles = false then .ok (.rejected true) else
  (checkObs fe x.ro.arg).bind fun r => r.next fe fun No =>
  (parseGeometryT fe kind.numPars x.geom).bind fun r => r.next fe fun g =>
  (checkArray fe x.grid.arg).bind fun r => r.next fe fun num =>
  (parseSamplingT fe x.sPar).bind fun r => r.next fe fun (dx, dy, dt, nt) =>
  (checkDelay fe x.delay.arg No).bind fun r => r.next fe fun delayType =>
  (parseMaterialT fe x.mPar).bind fun r => r.next fe fun (v, cp, alpha) =>
  (parseFocusT fe x.foc x.focal num (zeroVec num)).bind fun r => r.next fe fun (met, focal) =>
  (parseSteerT fe x.steer x.steerPar).bind fun r => r.next fe fun (smet, theta, phi) =>
  (parseApodT fe x.apod x.apodVec x.winPar num ⟨false, .gauss, zeroVec num, lit 0⟩).bind fun r =>
    r.next fe fun A =>
  (parseError fe x.err).next fe fun level =>
  allocOut nt fun nt =>
  .ok (.call {
    A := { num := num, G := x.grid.kept fe, focMet := met, focal := focal, steerMet := smet,
           theta := theta, phi := phi, doApod := A.on, apod := A.vec, apodMet := A.met,
           apodPar := A.par }
    K := kind.kern g
    p := { dx := dx, dy := dy, dt := dt, delay := lit 0, v := v, cp := cp }
    att := attOf L nt dt alpha
    nt := nt
    ty := fe.idx
    level := level
    No := No
    Ro := x.ro.kept fe
    delayType := delayType
    delay := x.delay.kept fe })

/-- Arguments of the annular array function with their classes. -/
structure AnnuArgsT (F : Type) where
  ro : TArg F
  radii : TArg F
  sPar : TArg F
  delay : TArg F
  mPar : TArg F
  foc : StrArg
  focal : TArg F
  apod : StrArg
  apodVec : TArg F
  winPar : TArg F
  err : Option StrArg

namespace AnnuArgsT

/-- The numbers the user wrote. -/
def nums (x : AnnuArgsT F) : AnnuArgs F :=
  { ro := x.ro.arg, radii := x.radii.arg, sPar := x.sPar.arg, delay := x.delay.arg,
    mPar := x.mPar.arg, foc := x.foc, focal := x.focal.arg, apod := x.apod,
    apodVec := x.apodVec.arg, winPar := x.winPar.arg, err := x.err }

/-- Are all the arrays of class double? -/
def doubles (x : AnnuArgsT F) : Bool :=
  [x.ro, x.radii, x.sPar, x.delay, x.mPar, x.focal, x.apodVec, x.winPar].all fun a => a.cls = .double

end AnnuArgsT

/-- The wrapper of the annular array function up to the call of the driver (see `frontAnnu`), with the
classes of the arguments. -/
def frontAnnuT (L : FFTLib F) (fe : FrontEnd) (x : AnnuArgsT F) : Outcome (Front (AnnuFront F)) :=
  if fe = .julia ∧ x.doubles = false then .ok (.rejected true) else
  (checkObs fe x.ro.arg).bind fun r => r.next fe fun No =>
  (checkArrayAnnu fe x.radii.arg).bind fun r => r.next fe fun _ =>
  (annuCounts fe x.radii.arg).bind fun (numRadii, num) =>
  (parseSamplingT fe x.sPar).bind fun r => r.next fe fun (dx, dy, dt, nt) =>
  (checkDelay fe x.delay.arg No).bind fun r => r.next fe fun delayType =>
  (parseMaterialT fe x.mPar).bind fun r => r.next fe fun (v, cp, alpha) =>
  (parseFocusT fe x.foc x.focal num (zeroVec num)).bind fun r => r.next fe fun (met, focal) =>
  (parseApodT fe x.apod x.apodVec x.winPar num ⟨false, .gauss, zeroVec num, lit 0⟩).bind fun r =>
    r.next fe fun A =>
  (parseError fe x.err).next fe fun level =>
  allocOut nt fun nt =>
  .ok (.call {
    A := { numRadii := numRadii, Gr := x.radii.kept fe, focMet := met, focal := focal, doApod := A.on,
           apod := A.vec, apodMet := A.met, apodPar := A.par }
    p := { dx := dx, dy := dy, dt := dt, delay := lit 0, v := v, cp := cp }
    att := attOf L nt dt alpha
    nt := nt
    ty := fe.idx
    level := level
    No := No
    Ro := x.ro.kept fe
    delayType := delayType
    delay := x.delay.kept fe })

end Dream
