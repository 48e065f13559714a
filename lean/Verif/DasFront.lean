import Verif.ClaimsDas
import Verif.ArgParser

/-
The language interfaces of the delay-and-sum function `das` and the `DAS` object they keep between
calls: extra_src/mex_das.cc, extra_src/oct_das.cc, python/include/py_das.hpp,
julia/include/jl_das.hpp, include/das.h 69-92, extra_src/das.cc 36-54, opencl/cl_das.cc 31-53.
-/

namespace Dream
open Arith

variable {F : Type} [Arith F]

/-- Arguments of `das`.  `opts`: the arguments after the method (error level, device, verbose);
any prefix of them in MATLAB and Octave, all three in Python and Julia.  `single`: the first argument
is single precision (MATLAB, Octave) or the module is the single precision one (Python, Julia).
`sameType`: arguments 2, 3, 4 and 6 have the type of the first; simplified: no types other than
single and double.  `shared`, `delayShared`: for Octave, whether the data, grids and points, or the delay, are stored as
full matrices, so that the `Matrix` returned by `matrix_value()` shares their memory; for other values
(scalars, ranges) it is a temporary (Octave: `octave_scalar::matrix_value`). -/
structure DasArgs (F : Type) where
  y : Arg F
  gt : Arg F
  gr : Arg F
  ro : Arg F
  dt : Arg F
  delay : Arg F
  cp : Arg F
  method : StrArg
  opts : List StrArg
  single : Bool
  sameType : Bool
  shared : Bool
  delayShared : Bool

/-- What the wrapper hands on: pointers and numbers, and the name of the compute device. -/
structure DasJob (F : Type) where
  call : DasCall F
  device : String
  single : Bool

/-- The memory a pointer taken from an argument refers to when it is used.  In Octave the pointer is
taken from a `Matrix` variable in an inner block (extra_src/oct_das.cc 206-212, 227-233, 304-310, ...)
which is destroyed at the end of the block: unless the argument itself shares that memory the pointer
dangles, which is modelled by a buffer without entries (every read through it is undefined). -/
def ptr (fe : FrontEnd) (shared : Bool) (a : Arg F) : Buf F :=
  if fe = .octave ∧ shared = false then ⟨0, a.data⟩ else a.buf

/-- `if (mxGetN(prhs[i]) != 3) dream_err_msg(...)` and `mxGetM(prhs[i])`, extra_src/mex_das.cc
100-104, 146-150; in Octave `error`, which does not return either, in Python and Julia an exception. -/
def rows3 {α : Type} (a : Arg F) (k : Nat → Outcome (Front α)) : Outcome (Front α) :=
  (a.dim 1).bind fun n => if n ≠ 3 then .ok (.rejected true) else (a.dim 0).bind k

/-- Receive grid in MATLAB and Octave: extra_src/mex_das.cc 122-135 looks for a matrix without
columns, extra_src/oct_das.cc 245-263 for one without rows. -/
def recvMO {α : Type} (fe : FrontEnd) (shared : Bool) (a : Arg F) (k : Nat → Buf F → Outcome (Front α)) :
    Outcome (Front α) :=
  (a.dim (if fe = .matlab then 1 else 0)).bind fun e =>
  if e ≠ 0 then rows3 a fun nr => k nr (ptr fe shared a) else k 0 ⟨0, a.data⟩

/-- `if (!(mxGetM == 1 && mxGetN == 1))`, extra_src/mex_das.cc 165-177, 206-220. -/
def scalarArg {α : Type} (a : Arg F) (k : F → Outcome (Front α)) : Outcome (Front α) :=
  (a.dim 0).bind fun m => (a.dim 1).bind fun n =>
  if m = 1 ∧ n = 1 then (a.buf.read 0).bind k else .ok (.rejected true)

/-- `parse_das_arg`, include/arg_parser.h 552-592, arg_parser_python.h 548-581 (no message). -/
def parseDas (fe : FrontEnd) (a : StrArg) : PRes DASType :=
  match a with
  | .other => failMsg fe .saft
  | .text s =>
    match lookup dasTab (getString fe s) with
    | some m => .ret true false m
    | none =>
      match fe with
      | .matlab => .raised
      | .octave => .ret false true .saft
      | _ => .ret false false .saft

/-- The MATLAB and Octave wrappers up to the choice of the object: extra_src/mex_das.cc 44-279,
extra_src/oct_das.cc 153-417.  The device is looked at only if there are exactly ten arguments
(mex_das.cc 247, oct_das.cc 384), the eleventh only if it is there (263, 399). -/
def frontDasMO (fe : FrontEnd) (x : DasArgs F) : Outcome (Front (DasJob F)) :=
  if 3 < x.opts.length then .ok (.rejected true) else
  if x.sameType = false then .ok (.rejected true) else
  (x.y.dim 0).bind fun len =>
  rows3 x.gt fun nt =>
  recvMO fe x.shared x.gr fun nr gr =>
  rows3 x.ro fun No =>
  scalarArg x.dt fun dt =>
  (checkDelay fe x.delay No).bind fun r => r.next fe fun delayType =>
  scalarArg x.cp fun cp =>
  (parseDas fe x.method).next fe fun dasType =>
  (parseError fe x.opts[0]?).next fe fun level =>
  let job (device : String) : Outcome (Front (DasJob F)) := .ok (.call {
    call := {
      Y := ptr fe x.shared x.y, len := len, ty := fe.idx, level := level
      dasType := dasType
      Gt := ptr fe x.shared x.gt, nt := nt
      Gr := gr, nr := nr
      Ro := ptr fe x.shared x.ro, No := No
      dt := dt, cp := cp
      delayType := delayType, delay := ptr fe x.delayShared x.delay }
    device := device
    single := x.single })
  match x.opts with
  | [_, .text d] => job (getString fe d)
  | [_, .other] => .ok (.rejected true)
  | [_, _, .other] => .ok (.rejected true)
  | _ => job ""

/-- The Python and Julia wrappers up to the choice of the object: python/include/py_das.hpp 46-156,
julia/include/jl_das.hpp 44-153.  Scalars are passed as numbers.  The device test is
`device != "cpu" && device == "gpu"`. -/
def frontDasPJ (fe : FrontEnd) (x : DasArgs F) : Outcome (Front (DasJob F)) :=
  (x.y.dim 0).bind fun len =>
  rows3 x.gt fun nt =>
  (parseDas fe x.method).next fe fun dasType =>
  let rest (nr : Nat) (gr : Buf F) : Outcome (Front (DasJob F)) :=
    (checkObs fe x.ro).bind fun r => r.next fe fun No =>
    (checkDelay fe x.delay No).bind fun r => r.next fe fun delayType =>
    (parseError fe x.opts[0]?).next fe fun level =>
    match (x.opts[1]? : Option StrArg) with
    | some (.text d) =>
      if d ≠ "cpu" ∧ d = "gpu" then .ok (.rejected true) else .ok (.call {
        call := {
          Y := x.y.buf, len := len, ty := fe.idx, level := level
          dasType := dasType
          Gt := x.gt.buf, nt := nt
          Gr := gr, nr := nr
          Ro := x.ro.buf, No := No
          dt := x.dt.data 0, cp := x.cp.data 0
          delayType := delayType, delay := x.delay.buf }
        device := d
        single := x.single })
    | _ => .ok (.rejected false)
  if dasType ≠ .saft then rows3 x.gr fun nr => rest nr x.gr.buf else rest 0 ⟨0, x.gr.data⟩

def frontDas (fe : FrontEnd) (x : DasArgs F) : Outcome (Front (DasJob F)) :=
  match fe with
  | .matlab => frontDasMO .matlab x
  | .octave => frontDasMO .octave x
  | .python => frontDasPJ .python x
  | .julia => frontDasPJ .julia x

/-! ### The object kept between calls -/

/-- The data members of a `DAS` object, include/das.h 434-439. -/
structure DasSetup where
  dasType : DASType
  len : Nat
  No : Nat
  nt : Nat
  nr : Nat
  gpu : Bool
  deriving DecidableEq, Repr

/-- `das_setup_has_changed`, include/das.h 77-92. -/
def DasSetup.changed (o s : DasSetup) : Bool :=
  s.dasType != o.dasType || s.len != o.len || s.No != o.No || s.nt != o.nt || s.nr != o.nr ||
    o.gpu != s.gpu

/-- The constructor, without OpenCL (extra_src/das.cc 37-53) and with it (opencl/cl_das.cc 31-53,
`init_opencl`, include/das.h 96-403: SAFT objects have no receive elements, 101-104).  `initOk`:
whether the OpenCL set-up succeeds; `none`: it throws. -/
def DasSetup.build (opencl initOk : Bool) (s : DasSetup) : Option DasSetup :=
  if opencl then
    if s.gpu then
      if initOk then some (if s.dasType = .saft then { s with nr := 0 } else s) else none
    else some s
  else some { s with gpu := false }

/-- The two persistent pointers, extra_src/mex_das.cc 33-34, oct_das.cc 33-34; Python and Julia: one
for each of the two modules. -/
structure DasStore where
  f : Option DasSetup
  d : Option DasSetup
  deriving DecidableEq, Repr

/-- What a call of `das` comes to. -/
inductive DasOut (F : Type)
  /-- the arguments are not accepted -/
  | rejected (said : Bool)
  /-- the object could not be made; the result is an error or an empty or zero result -/
  | initFailed
  /-- `DAS::das` runs with these arguments and data members -/
  | cpu (c : DasCall F)
  /-- `DAS::cl_das` runs with these arguments, data members and delay -/
  | gpu (c : DasCall F) (delay : F)

/-- The set-up a job asks for; `use_gpu` is set only in builds with OpenCL, extra_src/mex_das.cc
291-296. -/
def DasJob.setup (opencl : Bool) (j : DasJob F) : DasSetup where
  dasType := j.call.dasType
  len := j.call.len
  No := j.call.No
  nt := j.call.nt
  nr := j.call.nr
  gpu := opencl && j.device == "gpu"

/-- The call made on object `o`: sizes and method are those of the object, the rest the caller's,
extra_src/das.cc 200-258; GPU: extra_src/mex_das.cc 383-389 (the first delay only). -/
def DasJob.on (opencl : Bool) (j : DasJob F) (o : DasSetup) : Outcome (DasOut F) :=
  let c := { j.call with dasType := o.dasType, len := o.len, No := o.No, nt := o.nt, nr := o.nr }
  if opencl = true ∧ j.device = "gpu" then (j.call.delay.read 0).bind fun d => .ok (.gpu c d)
  else .ok (.cpu c)

/-- Use of one persistent pointer: keep the object if nothing changed, otherwise make a new one. -/
def useObj (opencl initOk : Bool) (cur : Option DasSetup) (s : DasSetup) : Option DasSetup × Bool :=
  match cur with
  | some o => if o.changed s then (s.build opencl initOk, true) else (some o, false)
  | none => (s.build opencl initOk, true)

/-- One accepted call: extra_src/mex_das.cc 297-375, oct_das.cc 437-500; py_das.hpp 186-208.  In
MATLAB and Octave a new single precision object is made after dropping the double precision one and
the other way round; then `das_d->set_running()` is called in both cases. -/
def DasJob.step (fe : FrontEnd) (opencl initOk : Bool) (st : DasStore) (j : DasJob F) :
    DasStore × Outcome (DasOut F) :=
  let s := j.setup opencl
  let two := fe = .matlab ∨ fe = .octave
  if j.single then
    let r := useObj opencl initOk st.f s
    let d := if two ∧ r.2 then none else st.d
    match r.1 with
    | none => ({ st with d := d }, .ok .initFailed)
    | some o =>
      let st' : DasStore := { f := some o, d := d }
      if two ∧ d = none then (st', .ub .null) else (st', j.on opencl o)
  else
    let r := useObj opencl initOk st.d s
    let f := if two ∧ r.2 then none else st.f
    match r.1 with
    | none => ({ st with f := f }, .ok .initFailed)
    | some o => ({ f := f, d := some o }, j.on opencl o)

/-- One call of `das`. -/
def dasCall (fe : FrontEnd) (opencl : Bool) (st : DasStore) (e : Bool × DasArgs F) :
    DasStore × Outcome (DasOut F) :=
  match frontDas fe e.2 with
  | .ub u => (st, .ub u)
  | .fuel => (st, .fuel)
  | .ok (.rejected b) => (st, .ok (.rejected b))
  | .ok (.call j) => j.step fe opencl e.1 st

/-- The pointers after a session of calls; each call comes with the outcome of the OpenCL set-up,
should one be needed. -/
def dasSession (fe : FrontEnd) (opencl : Bool) : List (Bool × DasArgs F) → DasStore :=
  List.foldl (fun st e => (dasCall fe opencl st e).1) ⟨none, none⟩

end Dream
