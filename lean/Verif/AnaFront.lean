import Verif.ArgParser
import Verif.Analytic
import Verif.GpuRect

/-
The MATLAB and Octave wrappers of the analytic responses: extra_src/mex_circ_sir.cc,
oct_circ_sir.cc, mex_scirc_sir.cc, oct_scirc_sir.cc, mex_rect_sir.cc, oct_rect_sir.cc.  There are no
Python or Julia versions.
-/

namespace Dream
open Arith

variable {F : Type} [Arith F]

/-- The three functions. -/
inductive AnaName
  | circ | scirc | rect
  deriving DecidableEq, Repr

/-- Number of geometry parameters: mex_circ_sir.cc 193, mex_scirc_sir.cc 194, mex_rect_sir.cc 58. -/
def AnaName.numPars : AnaName → Nat
  | .circ => 1 | .scirc => 1 | .rect => 2

/-- The function that is called: mex_circ_sir.cc 99, mex_scirc_sir.cc 100, mex_rect_sir.cc 126-131. -/
def AnaName.toKind (kind : AnaName) (g : F × F × F) (k : Nat) : AnaKind F :=
  match kind with
  | .circ => .circ g.1
  | .scirc => .scirc g.1 k
  | .rect => .rect g.1 g.2.1

/-- A sixth argument: as numbers (a text is a row of character codes) and as text. -/
structure SixthArg (F : Type) where
  num : Arg F
  str : StrArg

/-- The arguments in the order of the code: points, geometry, sampling, delay, material, and perhaps a
sixth one. -/
structure AnaArgs (F : Type) where
  ro : Arg F
  geom : Arg F
  sPar : Arg F
  delay : Arg F
  mPar : Arg F
  sixth : Option (SixthArg F)

/-- `check_arg_in`: mex_circ_sir.cc 178, oct_circ_sir.cc 237 (5), mex_scirc_sir.cc 179,
oct_scirc_sir.cc 242 (6), mex_rect_sir.cc 42, oct_rect_sir.cc 109 (5 or 6). -/
def AnaName.countOk (k : AnaName) (sixth : Option (SixthArg F)) : Bool :=
  match k with
  | .circ => sixth.isNone
  | .scirc => sixth.isSome
  | .rect => true

/-- The test for a vector with two entries and its entries: `check_sampling(.., 2)`,
`check_material(.., 2)` (arg_parser.h 171-181, 204-214), mex_rect_sir.cc 65-74, 95-104. -/
def parsePair (fe : FrontEnd) (a : Arg F) : Outcome (PRes (F × F)) :=
  (a.isVec fe 2).bind fun good =>
  if good then
    (a.buf.read 0).bind fun x => (a.buf.read 1).bind fun y => .ok (.ret true false (x, y))
  else .ok (failMsg fe (lit 0, lit 0))

/-- Number of integration intervals of scirc_sir: mex_scirc_sir.cc 224-235 (`size_t`),
oct_scirc_sir.cc 312-327 (`octave_idx_type`). -/
def parseIntLen (fe : FrontEnd) (a : Arg F) : Outcome (PRes Nat) :=
  (a.isVec fe 1).bind fun good =>
  if good then
    (a.buf.read 0).bind fun x => (castIdx fe.idx (trunc x)).bind fun k =>
      .ok (if k < 1 then failMsg fe 0 else .ret true false k.toNat)
  else .ok (failMsg fe 0)

/-- What is run: the threaded function, or the OpenCL kernel. -/
inductive AnaRun (F : Type)
  | cpu (C : AnaCall F)
  | gpu (C : AnaCall F)

/-- The compute device of rect_sir: MATLAB ignores it (mex_rect_sir.cc 42), Octave wants a text and
compares it with "gpu" if built with OpenCL (oct_rect_sir.cc 197-236). -/
def parseDevice (fe : FrontEnd) (sixth : Option (SixthArg F)) : PRes String :=
  match fe, sixth with
  | .matlab, _ => .ret true false ""
  | _, none => .ret true false ""
  | fe, some s =>
    match s.str with
    | .other => failMsg fe ""
    | .text t => .ret true false t

/-- The wrappers up to the call of the computation: mex_circ_sir.cc 160-255, oct_circ_sir.cc 218-341,
mex_scirc_sir.cc 161-270, oct_scirc_sir.cc 223-356, mex_rect_sir.cc 37-110, oct_rect_sir.cc 98-236.
`opencl`: Octave built with OpenCL.  The response length is read before the delay is checked. -/
def frontAna (opencl : Bool) (fe : FrontEnd) (kind : AnaName) (x : AnaArgs F) :
    Outcome (Front (AnaRun F)) :=
  (if kind.countOk x.sixth then PRes.ret true false () else failMsg fe ()).next fe fun _ =>
  (checkObs fe x.ro).bind fun r => r.next fe fun No =>
  (parseGeometry fe kind.numPars x.geom).bind fun r => r.next fe fun g =>
  (parsePair fe x.sPar).bind fun r => r.next fe fun (dt, len) =>
  (castIdx fe.idx (trunc len)).bind fun nt =>
  (checkDelay fe x.delay No).bind fun r => r.next fe fun delayType =>
  (parsePair fe x.mPar).bind fun r => r.next fe fun (v, cp) =>
  (match kind, x.sixth with
    | .scirc, some s => parseIntLen fe s.num
    | _, _ => .ok (.ret true false 0)).bind fun r => r.next fe fun k =>
  (match kind with
    | .rect => parseDevice fe x.sixth
    | _ => .ret true false "").next fe fun dev =>
  allocOut nt fun nt =>
  let C : AnaCall F := {
    kind := kind.toKind g k
    Ro := x.ro.buf, No := No, dt := dt, nt := nt, delayType := delayType, delay := x.delay.buf
    v := v, cp := cp }
  .ok (.call (if opencl = true ∧ dev = "gpu" then .gpu C else .cpu C))

end Dream
