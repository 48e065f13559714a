import Verif.Arr
import Verif.Att
import Verif.Annu

/-
Argument checks and the user interfaces on top of the drivers: include/arg_parser.h (MATLAB and
Octave), include/arg_parser_python.h, include/arg_parser_julia.h and the wrapper functions in mex/,
oct/, python/src/ and julia/src/ up to the call of the driver.

Numeric arguments are modelled by their shape and their entries in column-major order; MATLAB and
Octave arguments are two-dimensional, numpy arrays have any number of dimensions, the Julia wrappers
take matrices for observation points and grids and vectors otherwise.  Of the printed messages only
whether there was one is modelled.  Allocation failures are not modelled, except that a negative
response length is not a valid size.
-/

namespace Dream
open Arith

variable {F : Type} [Arith F]

/-- The four language interfaces. -/
inductive FrontEnd
  | matlab | octave | python | julia
  deriving DecidableEq, Repr

/-- `dream_idx_type`, include/dream.h 104-136. -/
def FrontEnd.idx : FrontEnd → IdxTy
  | .matlab => .unsigned
  | .octave => .signed
  | .python => .signed
  | .julia => .unsigned

/-- A numeric argument. -/
structure Arg (F : Type) where
  shape : List Nat
  data : Nat → F

namespace Arg

/-- Number of entries in memory. -/
def size (a : Arg F) : Nat := a.shape.prod

/-- The memory of the argument (`get_data`). -/
def buf (a : Arg F) : Buf F := ⟨a.size, a.data⟩

/-- `shape[i]` as read by the numpy interface (arg_parser_python.h 578-590: `shape[1]` of the
buffer's shape vector, whatever the number of dimensions). -/
def dim (a : Arg F) (i : Nat) : Outcome Nat :=
  match a.shape[i]? with
  | some d => .ok d
  | none => .ub .oob

/-- `get_m * get_n` (arg_parser.h 594-603, 630-637; arg_parser_python.h 578-600) or, for Julia,
`get_len` (arg_parser_julia.h 588-592). -/
def count (fe : FrontEnd) (a : Arg F) : Outcome Nat :=
  match fe with
  | .julia => .ok a.size
  | _ => (a.dim 0).bind fun m => (a.dim 1).bind fun n => .ok (m * n)

/-- The test for a row or column vector with `k` entries, e.g. arg_parser.h 125; Julia:
`get_len == k`, arg_parser_julia.h 153. -/
def isVec (fe : FrontEnd) (k : Nat) (a : Arg F) : Outcome Bool :=
  match fe with
  | .julia => .ok (a.size == k)
  | _ => (a.dim 0).bind fun m => (a.dim 1).bind fun n =>
      .ok ((m == k && n == 1) || (m == 1 && n == k))

end Arg

/-- A string argument; MATLAB and Octave values need not be strings. -/
inductive StrArg
  | text (s : String)
  | other

/-- `get_string_arg`: the MATLAB version gives the empty string for a text of 50 characters or more
(arg_parser.h 647-658: `buflen = length * sizeof(mxChar) + 1 < 100`); arg_parser.h 618-620. -/
def getString (fe : FrontEnd) (s : String) : String :=
  match fe with
  | .matlab => if s.length * 2 + 1 < 100 then s else ""
  | _ => s

/-- What a parse function leaves behind: an error raised inside `dream_err_msg` (MATLAB:
`mexErrMsgTxt` does not return, src/dream_error.cc 78-90), or a return value, whether a message was
printed, and the variables. -/
inductive PRes (σ : Type)
  | raised
  | ret (ok said : Bool) (st : σ)

/-- `dream_err_msg(...)` followed by `retval=false`. -/
def failMsg {σ : Type} (fe : FrontEnd) (st : σ) : PRes σ :=
  match fe with
  | .matlab => .raised
  | _ => .ret false true st

/-- `if (s == "a") {..} if (s == "b") {..}`: the last match counts. -/
def lookup {α : Type} (tab : List (String × α)) (s : String) : Option α :=
  tab.foldl (fun acc e => if s = e.1 then some e.2 else acc) none

/-- arg_parser.h 266-279, arg_parser_python.h 283-296. -/
def errTab : List (String × ErrorLevel) := [("ignore", .ignore), ("warn", .warn), ("stop", .stop)]

/-- arg_parser.h 315-339. -/
def focTab : List (String × FocusMet) :=
  [("off", .none), ("x", .x), ("y", .y), ("xy", .xy), ("on", .xy), ("x+y", .x_y), ("ud", .ud)]

/-- arg_parser.h 402-420. -/
def steerTab : List (String × SteerMet) := [("off", .none), ("x", .x), ("y", .y), ("xy", .xy)]

/-- arg_parser.h 462-509; `none` is "off". -/
def apodTab : List (String × Option ApodMet) :=
  [("off", none), ("triangle", some .triangle), ("gauss", some .gauss),
   ("raised", some .raisedCosine), ("hann", some .hann), ("hamming", some .hamming),
   ("simply", some .simplySupported), ("clamped", some .clamped), ("ud", some .ud)]

/-- arg_parser.h 566-584. -/
def dasTab : List (String × DASType) :=
  [("saft", .saft), ("tfm", .tfm), ("rca", .rcaColtx), ("rca_coltx", .rcaColtx),
   ("rca_rowtx", .rcaRowtx)]

/-- `check_obs_points`, arg_parser.h 85-95, arg_parser_python.h 83-98, arg_parser_julia.h 84-96;
the number of points is `get_m`. -/
def checkObs (fe : FrontEnd) (a : Arg F) : Outcome (PRes Nat) :=
  (a.dim 1).bind fun n => (a.dim 0).bind fun m =>
    .ok (if n ≠ 3 then failMsg fe m else .ret true false m)

/-- `check_array`, arg_parser.h 97-107. -/
def checkArray (fe : FrontEnd) (a : Arg F) : Outcome (PRes Nat) := checkObs fe a

/-- `check_array_annu`, arg_parser.h 109-119, arg_parser_python.h 117-130; Julia:
arg_parser_julia.h 115-129. -/
def checkArrayAnnu (fe : FrontEnd) (a : Arg F) : Outcome (PRes Unit) :=
  match fe with
  | .julia => .ok (if a.size % 2 = 0 then failMsg fe () else .ret true false ())
  | _ => (a.dim 0).bind fun m => (a.dim 1).bind fun n =>
      .ok (if m ≠ 1 ∧ n ≠ 1 ∧ n * n % 2 = 0 then failMsg fe () else .ret true false ())

/-- `parse_geometry`, arg_parser.h 136-169. -/
def parseGeometry (fe : FrontEnd) (k : Nat) (a : Arg F) : Outcome (PRes (F × F × F)) :=
  (a.isVec fe k).bind fun good =>
  if good then
    (if k = 1 then (a.buf.read 0).bind fun x => .ok (x, lit 0, lit 0)
     else if 1 < k then
       (a.buf.read 0).bind fun x => (a.buf.read 1).bind fun y =>
         if 2 < k then (a.buf.read 2).bind fun z => .ok (x, y, z) else .ok (x, y, lit 0)
     else .ok (lit 0, lit 0, lit 0)).bind fun g => .ok (.ret true false g)
  else .ok (failMsg fe (lit 0, lit 0, lit 0))

/-- `parse_sampling`, arg_parser.h 183-201. -/
def parseSampling (fe : FrontEnd) (a : Arg F) : Outcome (PRes (F × F × F × Int)) :=
  (a.isVec fe 4).bind fun good =>
  if good then
    (a.buf.read 0).bind fun dx => (a.buf.read 1).bind fun dy => (a.buf.read 2).bind fun dt =>
    (a.buf.read 3).bind fun x => (castIdx fe.idx (trunc x)).bind fun nt =>
    .ok (.ret true false (dx, dy, dt, nt))
  else .ok (failMsg fe (lit 0, lit 0, lit 0, 0))

/-- `parse_material`, arg_parser.h 216-233. -/
def parseMaterial (fe : FrontEnd) (a : Arg F) : Outcome (PRes (F × F × F)) :=
  (a.isVec fe 3).bind fun good =>
  if good then
    (a.buf.read 0).bind fun v => (a.buf.read 1).bind fun cp => (a.buf.read 2).bind fun alpha =>
    .ok (.ret true false (v, cp, alpha))
  else .ok (failMsg fe (lit 1, lit 1000, lit 0))

/-- `check_delay`, arg_parser.h 236-252, and the choice of the delay type in the wrapper, e.g.
mex/mex_dreamrect.cc 78-81. -/
def checkDelay (fe : FrontEnd) (a : Arg F) (No : Nat) : Outcome (PRes DelayType) :=
  (a.count fe).bind fun n =>
  let ty := if n ≠ 1 then DelayType.multiple else .single
  .ok (if 1 < n ∧ n ≠ No then failMsg fe ty else .ret true false ty)

/-- `parse_error_arg`, arg_parser.h 255-290; `none`: the argument was not given (default stop). -/
def parseError (fe : FrontEnd) (a : Option StrArg) : PRes ErrorLevel :=
  match a with
  | none => .ret true false .stop
  | some .other => failMsg fe .stop
  | some (.text s) =>
    match lookup errTab (getString fe s) with
    | some l => .ret true false l
    | none => failMsg fe .stop

/-- `std::memcpy(dst, src, num*sizeof(double))`. -/
def copyN (src : Buf F) (num : Nat) (dst : Buf F) : Outcome (Buf F) :=
  forO (fun i (d : Buf F) => (src.read (i : Int)).bind fun x => d.write (i : Int) x) num 0 dst

/-- `parse_focus_args`, arg_parser.h 301-386, arg_parser_python.h 311-391, arg_parser_julia.h
311-396.  `focal` is the vector of the wrapper (never null); the numpy and Julia versions print no
message for user defined delays of the wrong length. -/
def parseFocus (fe : FrontEnd) (str : StrArg) (val : Arg F) (num : Nat) (focal : Buf F) :
    Outcome (PRes (FocusMet × Buf F)) :=
  match str with
  | .other => .ok (failMsg fe (.none, focal))
  | .text s =>
    let s := getString fe s
    let met := (lookup focTab s).getD .none
    (val.count fe).bind fun n =>
    if s = "ud" then
      if n ≠ num then
        .ok (match fe with
          | .matlab => .raised
          | .octave => .ret false true (met, focal)
          | _ => .ret false false (met, focal))
      else (copyN val.buf num focal).bind fun focal' => .ok (.ret true false (met, focal'))
    else if n ≠ 1 then .ok (failMsg fe (met, focal))
    else (val.buf.read 0).bind fun x => (focal.write 0 x).bind fun focal' =>
      .ok (if (lookup focTab s).isNone then failMsg fe (met, focal') else .ret true false (met, focal'))

/-- `parse_steer_args`, arg_parser.h 389-443. -/
def parseSteer (fe : FrontEnd) (str : StrArg) (val : Arg F) : Outcome (PRes (SteerMet × F × F)) :=
  match str with
  | .other => .ok (failMsg fe (.none, lit 0, lit 0))
  | .text s =>
    let r := lookup steerTab (getString fe s)
    if r.isNone ∧ fe = .matlab then .ok .raised
    else
    (val.isVec fe 2).bind fun good =>
    if good = false ∨ r.isNone then .ok (failMsg fe (r.getD .none, lit 0, lit 0))
    else (val.buf.read 0).bind fun t => (val.buf.read 1).bind fun p =>
      .ok (.ret true false (r.getD .none, t, p))

/-- Apodization settings of the wrapper: `do_apod`, `apod_met`, `apod`, `apod_par`. -/
structure Apod (F : Type) where
  on : Bool
  met : ApodMet
  vec : Buf F
  par : F

/-- The method strings of `parse_apod_args`, arg_parser.h 462-509; an unknown string leaves
`do_apod = false`. -/
def setApod (r : Option (Option ApodMet)) (A : Apod F) : Apod F :=
  match r with
  | some (some m) => { A with on := true, met := m }
  | _ => { A with on := false }

/-- The user defined weights in `parse_apod_args`, arg_parser.h 511-523; the flag is `retval`.
Nothing is printed when they have the wrong length. -/
def udWeights (fe : FrontEnd) (s : String) (val : Arg F) (num : Nat) (A : Apod F) :
    Outcome (Bool × Apod F) :=
  if s = "ud" then
    (val.count fe).bind fun n =>
      if n ≠ num then .ok (false, A)
      else (copyN val.buf num A.vec).bind fun v => .ok (true, { A with vec := v })
  else .ok (true, A)

/-- `parse_apod_args`, arg_parser.h 446-547.  The numpy and Julia versions (arg_parser_python.h
449-545, arg_parser_julia.h 450-547) do not look at the window parameter at all. -/
def parseApod (fe : FrontEnd) (str : StrArg) (val par : Arg F) (num : Nat) (A : Apod F) :
    Outcome (PRes (Apod F)) :=
  match str with
  | .other => .ok (failMsg fe A)
  | .text s =>
    let r := lookup apodTab (getString fe s)
    (udWeights fe (getString fe s) val num (setApod r A)).bind fun (good, A2) =>
    match fe with
    | .python => .ok (if r.isNone then .ret false true A2 else .ret good false A2)
    | .julia => .ok (if r.isNone then .ret false true A2 else .ret good false A2)
    | _ =>
      if r.isNone ∧ fe = .matlab then .ok .raised
      else
      (par.dim 0).bind fun m => (par.dim 1).bind fun n =>
      if ¬ (m = 1 ∧ n = 1) then .ok (failMsg fe A2)
      else if r.isNone then .ok (failMsg fe A2)
      else if good then (par.buf.read 0).bind fun x => .ok (.ret true false { A2 with par := x })
      else .ok (.ret false false A2)

/-- What the user gets from the argument handling: a rejection (with a message or without one; in
MATLAB an error, in Octave an empty result, in Python and Julia an exception) or the call of the
driver. -/
inductive Front (α : Type)
  | rejected (said : Bool)
  | call (a : α)

/-- Sequencing in the wrappers: the MATLAB ones ignore the return value of the parse functions
(mex/mex_dreamrect.cc 52-98) and rely on the error being raised; the others return or throw. -/
def PRes.next {σ α : Type} (fe : FrontEnd) (r : PRes σ) (k : σ → Outcome (Front α)) :
    Outcome (Front α) :=
  match r with
  | .raised => .ok (.rejected true)
  | .ret ok said st => if ok = true ∨ fe = .matlab then k st else .ok (.rejected said)

/-- The output matrix `Matrix h_mat(nt, No)`: a negative size is not accepted. -/
def allocOut {α : Type} (nt : Int) (k : Nat → Outcome (Front α)) : Outcome (Front α) :=
  if nt < 0 then .ok (.rejected true) else k nt.toNat

/-- Choice of the attenuation, e.g. src/dreamrect.cc 207-212. -/
def attOf (L : FFTLib F) (nt : Nat) (dt alpha : F) : Option (AttResp F) :=
  if Arith.lt epsilon alpha = true then some (attResp L { len := nt, dt := dt, alpha := alpha }) else none

/-- Single transducer functions. -/
inductive SirKind
  | rect | circ | line | sphere | cylind | rectF | circF
  deriving DecidableEq, Repr

/-- Number of geometry parameters, mex/mex_dream*.cc line 61. -/
def SirKind.numPars : SirKind → Nat
  | .rect => 2 | .circ => 1 | .line => 1 | .sphere => 2 | .cylind => 3 | .rectF => 2 | .circF => 1

def SirKind.focused : SirKind → Bool
  | .rectF => true | .circF => true | _ => false

/-- The transducer passed to the driver. -/
def SirKind.kern (k : SirKind) (g : F × F × F) (met : FocusMet) (focal : F) : Kern F :=
  match k with
  | .rect => .rect (lit 1) g.1 g.2.1
  | .circ => .circ (lit 1) g.1
  | .line => .line g.1
  | .sphere => .sphere g.1 g.2.1
  | .cylind => .cylind (lit 1) g.1 g.2.1 g.2.2
  | .rectF => .rectF met focal g.1 g.2.1
  | .circF => .circF met focal g.1

/-- Arguments of the single transducer functions; `err` is `none` when it is not given (always given
in Python and Julia).  `gpu`: a seventh argument (compute device) is present. -/
structure SirArgs (F : Type) where
  ro : Arg F
  geom : Arg F
  sPar : Arg F
  delay : Arg F
  mPar : Arg F
  foc : StrArg
  focal : Arg F
  err : Option StrArg
  gpu : Bool

/-- Does the wrapper look at the error level argument?  The MATLAB wrappers of dreamrect and
dreamcirc accept seven arguments (mex/mex_dreamrect.cc 45) but read the error level only
if there are exactly six (96); Octave reads it from six on (oct/oct_dreamrect.cc 195). -/
def errSeen (fe : FrontEnd) (x : SirArgs F) : Option StrArg :=
  if fe = .matlab ∧ x.gpu = true then none else x.err

/-- The wrapper of a single transducer function up to the call of the driver:
mex/mex_dreamrect.cc 39-117, oct/oct_dreamrect.cc 116-230, python/src/py_dreamrect.cc 36-130,
julia/src/jl_dreamrect.cc 38-130, and the corresponding files of the other transducers.  In Octave
without OpenCL support the compute device is ignored. -/
def frontSir (L : FFTLib F) (fe : FrontEnd) (kind : SirKind) (x : SirArgs F) :
    Outcome (Front (SirCall F)) :=
  (checkObs fe x.ro).bind fun r => r.next fe fun No =>
  (parseGeometry fe kind.numPars x.geom).bind fun r => r.next fe fun g =>
  (parseSampling fe x.sPar).bind fun r => r.next fe fun (dx, dy, dt, nt) =>
  (checkDelay fe x.delay No).bind fun r => r.next fe fun delayType =>
  (parseMaterial fe x.mPar).bind fun r => r.next fe fun (v, cp, alpha) =>
  (if kind.focused then parseFocus fe x.foc x.focal 1 ⟨1, fun _ => lit 0⟩
   else .ok (.ret true false (.none, ⟨1, fun _ => lit 0⟩))).bind fun r =>
    r.next fe fun (met, focal) =>
  (parseError fe (errSeen fe x)).next fe fun level =>
  allocOut nt fun nt =>
  .ok (.call {
    k := kind.kern g met (focal.data 0)
    p := { dx := dx, dy := dy, dt := dt, delay := lit 0, v := v, cp := cp }
    att := attOf L nt dt alpha
    nt := nt
    ty := fe.idx
    level := level
    No := No
    Ro := x.ro.buf
    delayType := delayType
    delay := x.delay.buf })

/-- Array functions with a grid. -/
inductive ArrKind
  | rect | circ | cylind
  deriving DecidableEq, Repr

def ArrKind.numPars : ArrKind → Nat
  | .rect => 2 | .circ => 1 | .cylind => 3

def ArrKind.kern (k : ArrKind) (g : F × F × F) : ArrKern F :=
  match k with
  | .rect => .rect g.1 g.2.1
  | .circ => .circ g.1
  | .cylind => .cylind g.1 g.2.1 g.2.2

/-- Arguments of the array functions. -/
structure ArrArgs (F : Type) where
  ro : Arg F
  geom : Arg F
  grid : Arg F
  sPar : Arg F
  delay : Arg F
  mPar : Arg F
  foc : StrArg
  focal : Arg F
  steer : StrArg
  steerPar : Arg F
  apod : StrArg
  apodVec : Arg F
  winPar : Arg F
  err : Option StrArg

/-- A vector made by `std::make_unique<double[]>(n)`: zero filled. -/
def zeroVec (n : Nat) : Buf F := ⟨n, fun _ => lit 0⟩

/-- The wrapper of an array function up to the call of the driver: mex/mex_dream_arr_rect.cc 39-160,
oct/oct_dream_arr_rect.cc 176-335, python/src/py_dream_arr_rect.cc 50-200,
julia/src/jl_dream_arr_rect.cc 50-190, and the circular and cylindrical versions. -/
def frontArr (L : FFTLib F) (fe : FrontEnd) (kind : ArrKind) (x : ArrArgs F) :
    Outcome (Front (ArrCall F)) :=
  (checkObs fe x.ro).bind fun r => r.next fe fun No =>
  (parseGeometry fe kind.numPars x.geom).bind fun r => r.next fe fun g =>
  (checkArray fe x.grid).bind fun r => r.next fe fun num =>
  (parseSampling fe x.sPar).bind fun r => r.next fe fun (dx, dy, dt, nt) =>
  (checkDelay fe x.delay No).bind fun r => r.next fe fun delayType =>
  (parseMaterial fe x.mPar).bind fun r => r.next fe fun (v, cp, alpha) =>
  (parseFocus fe x.foc x.focal num (zeroVec num)).bind fun r => r.next fe fun (met, focal) =>
  (parseSteer fe x.steer x.steerPar).bind fun r => r.next fe fun (smet, theta, phi) =>
  (parseApod fe x.apod x.apodVec x.winPar num ⟨false, .gauss, zeroVec num, lit 0⟩).bind fun r =>
    r.next fe fun A =>
  (parseError fe x.err).next fe fun level =>
  allocOut nt fun nt =>
  .ok (.call {
    A := { num := num, G := x.grid.buf, focMet := met, focal := focal, steerMet := smet,
           theta := theta, phi := phi, doApod := A.on, apod := A.vec, apodMet := A.met,
           apodPar := A.par }
    K := kind.kern g
    p := { dx := dx, dy := dy, dt := dt, delay := lit 0, v := v, cp := cp }
    att := attOf L nt dt alpha
    nt := nt
    ty := fe.idx
    level := level
    No := No
    Ro := x.ro.buf
    delayType := delayType
    delay := x.delay.buf })

/-- Arguments of the annular array function. -/
structure AnnuArgs (F : Type) where
  ro : Arg F
  radii : Arg F
  sPar : Arg F
  delay : Arg F
  mPar : Arg F
  foc : StrArg
  focal : Arg F
  apod : StrArg
  apodVec : Arg F
  winPar : Arg F
  err : Option StrArg

/-- The variables the wrappers derive from the radii argument: the number of radii given to the driver
and the number of elements used for the focusing and apodization vectors.  MATLAB and Octave:
mex/mex_dream_arr_annu.cc 61-63, oct/oct_dream_arr_annu.cc 201-202; Python takes the number of rows
for both (python/src/py_dream_arr_annu.cc, `num_elements = G_m`), Julia the length
(julia/src/jl_dream_arr_annu.cc). -/
def annuCounts (fe : FrontEnd) (a : Arg F) : Outcome (Nat × Nat) :=
  match fe with
  | .python => (a.dim 0).bind fun m => .ok (m, m)
  | .julia => .ok (a.size, a.size)
  | _ => (a.dim 0).bind fun m => (a.dim 1).bind fun n => .ok (m * n, (m * n + 1) / 2)

/-- The parameters of a call of `ArrAnnu::dream_arr_annu`. -/
structure AnnuFront (F : Type) where
  A : AnnuPar F
  p : Par F
  att : Option (AttResp F)
  nt : Nat
  ty : IdxTy
  level : ErrorLevel
  No : Nat
  Ro : Buf F
  delayType : DelayType
  delay : Buf F

/-- The wrapper of the annular array function up to the call of the driver:
mex/mex_dream_arr_annu.cc 40-150, oct/oct_dream_arr_annu.cc 170-300,
python/src/py_dream_arr_annu.cc 50-165, julia/src/jl_dream_arr_annu.cc 50-160, all optional
arguments given. -/
def frontAnnu (L : FFTLib F) (fe : FrontEnd) (x : AnnuArgs F) : Outcome (Front (AnnuFront F)) :=
  (checkObs fe x.ro).bind fun r => r.next fe fun No =>
  (checkArrayAnnu fe x.radii).bind fun r => r.next fe fun _ =>
  (annuCounts fe x.radii).bind fun (numRadii, num) =>
  (parseSampling fe x.sPar).bind fun r => r.next fe fun (dx, dy, dt, nt) =>
  (checkDelay fe x.delay No).bind fun r => r.next fe fun delayType =>
  (parseMaterial fe x.mPar).bind fun r => r.next fe fun (v, cp, alpha) =>
  (parseFocus fe x.foc x.focal num (zeroVec num)).bind fun r => r.next fe fun (met, focal) =>
  (parseApod fe x.apod x.apodVec x.winPar num ⟨false, .gauss, zeroVec num, lit 0⟩).bind fun r =>
    r.next fe fun A =>
  (parseError fe x.err).next fe fun level =>
  allocOut nt fun nt =>
  .ok (.call {
    A := { numRadii := numRadii, Gr := x.radii.buf, focMet := met, focal := focal, doApod := A.on,
           apod := A.vec, apodMet := A.met, apodPar := A.par }
    p := { dx := dx, dy := dy, dt := dt, delay := lit 0, v := v, cp := cp }
    att := attOf L nt dt alpha
    nt := nt
    ty := fe.idx
    level := level
    No := No
    Ro := x.ro.buf
    delayType := delayType
    delay := x.delay.buf })

end Dream
