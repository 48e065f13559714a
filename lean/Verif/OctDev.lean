import Verif.ArgParser
import Verif.ClaimsGpu

/-
The compute device option of Octave's dreamrect and dreamcirc when built with OpenCL:
oct/oct_dreamrect.cc 201-284, oct/oct_dreamcirc.cc 199-282, opencl/cl_dreamrect.cc,
opencl/cl_dreamcirc.cc.
-/

namespace Dream
open Arith

variable {F : Type} [Arith F]

/-- What the wrapper does: stop with or without a message, run the threaded driver, or launch the
kernel described by the call (`SirCall.clItems`). -/
inductive OctDev (F : Type) where
  | rejected (said : Bool)
  | cpu (c : SirCall F)
  | gpu (c : SirCall F)

/-- The launch: `cl_dreamrect(Ro, No, a, b, dx, dy, dt, nt, delay[0], v, cp, h)`,
oct/oct_dreamrect.cc 238-240; `cl_dreamcirc`, oct/oct_dreamcirc.cc 235-238.  The attenuation, the
error level and the delays after the first are not passed on.  `No` and `nt` become `int`; the buffer
sizes `No*3*sizeof(double)` and `nt*No*sizeof(double)` start with an `int` product
(opencl/cl_dreamrect.cc 113, 130, opencl/cl_dreamcirc.cc 110, 125).  Simplification: a size that does
not fit `int` is `.ub .cast` also where the conversion of `No` or `nt` would wrap first. -/
def launchArgs (c : SirCall F) : Outcome (SirCall F) :=
  (c.delay.read 0).bind fun d =>
  (int32 (c.No : Int)).bind fun _ =>
  (int32 (c.nt : Int)).bind fun _ =>
  (int32 ((c.No : Int) * 3)).bind fun _ =>
  (int32 ((c.nt : Int) * c.No)).bind fun _ =>
  .ok { c with att := none, level := .none, delayType := .single, delay := ⟨1, fun _ => d⟩ }

/-- The wrapper with an optional seventh argument `dev`, oct/oct_dreamrect.cc 116-262,
oct/oct_dreamcirc.cc 114-262.  (The text check of the seventh argument comes before the output matrix
is made; both only reject.) -/
def octDev (L : FFTLib F) (kind : SirKind) (x : SirArgs F) (dev : Option StrArg) :
    Outcome (OctDev F) :=
  (frontSir L .octave kind { x with gpu := dev.isSome }).bind fun r =>
  match r with
  | .rejected said => .ok (.rejected said)
  | .call c =>
    match dev with
    | none => .ok (.cpu c)
    | some .other => .ok (.rejected true)
    | some (.text s) =>
      if s = "gpu" then (launchArgs c).bind fun c => .ok (.gpu c) else .ok (.cpu c)

/-- What the user gets back from the launch: the matrix read from the device (whose buffer initially
holds anything) and the variable `err`, which is only assigned on the CPU path
(oct/oct_dreamrect.cc 233, 264-285). -/
def GpuAnswer (c : SirCall F) (fuel : Nat) (H : Nat → F) (err : SIRError) : Prop :=
  (∃ fresh, Launched c.nt c.No (c.clItems fuel) fresh H) ∧ err = .none

end Dream
