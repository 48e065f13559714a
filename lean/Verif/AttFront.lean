import Verif.AnaFront
import Verif.Att
import Verif.Gpu

/-
The MATLAB and Octave functions `dream_att`: mex/mex_dream_att.cc, oct/oct_dream_att.cc.  There are no
Python or Julia versions.
-/

namespace Dream
open Arith

variable {F : Type} [Arith F]

/-- The arguments: points, sampling (interval, length), delay, material (sound speed, attenuation). -/
structure AttArgs (F : Type) where
  ro : Arg F
  sPar : Arg F
  delay : Arg F
  mPar : Arg F

/-- The number of points as kept by the wrapper: MATLAB `size_t` (mex_dream_att.cc 52); Octave
converts it to `int` (oct_dream_att.cc 90, 118), which keeps the low 32 bits. -/
def keepCount (fe : FrontEnd) (No : Nat) : Int :=
  match fe with
  | .octave => ((No : Int) + 2147483648) % 4294967296 - 2147483648
  | _ => No

/-- The response length: MATLAB `(dream_idx_type) s_par[1]` (mex_dream_att.cc 66), Octave
`(int) s_par[1]` (oct_dream_att.cc 134). -/
def castLen (fe : FrontEnd) (x : Option Int) : Outcome Int :=
  match fe with
  | .octave => castInt x
  | fe => castIdx fe.idx x

/-- The loop of the Octave version, oct_dream_att.cc 181-204, with the 32-bit `n`, `nt`, `No` and `it`:
index arithmetic that does not fit is undefined.  (The conversion of the arrival time to `int` is a
conversion to 64 bits whose result has to fit 32 bits.) -/
def dreamAtt32 (L : FFTLib F) (D : AttCall F) (xc : Buf (F × F)) (x : Buf F) (m : Buf F) :
    Outcome (Buf F) :=
  forO (fun n m =>
    (int32 ((n : Int) + 2 * D.No)).bind fun _ =>
    (D.arrive n).bind fun q =>
    (int32 q.2).bind fun it =>
    (int32 ((n : Int) * D.P.len)).bind fun _ =>
    att L D.P q.1 it (lit 1) xc x (n * D.P.len) m) D.No 0 m

/-- `dream_att`, mex_dream_att.cc 37-128, oct_dream_att.cc 88-205, with four arguments.  `xc0`, `x0`:
contents of the new work buffers.  The result is cleared (`hsir.clear()`) before the loop.  A negative
number of points (Octave, more than 2^31 - 1 points) is refused at the latest when the result is
allocated; `check_delay` is applied to zero points in that case. -/
def frontAtt (L : FFTLib F) (fe : FrontEnd) (xc0 : Nat → F × F) (x0 : Nat → F) (x : AttArgs F) :
    Outcome (Front (Buf F)) :=
  (checkObs fe x.ro).bind fun r => r.next fe fun rows =>
  let No := keepCount fe rows
  (parsePair fe x.sPar).bind fun r => r.next fe fun (dt, len) =>
  (castLen fe (trunc len)).bind fun nt =>
  (checkDelay fe x.delay No.toNat).bind fun r => r.next fe fun _ =>
  (parsePair fe x.mPar).bind fun r => r.next fe fun (cp, alpha) =>
  allocOut nt fun nt => allocOut No fun No =>
  let D : AttCall F := {
    P := { len := nt, dt := dt, alpha := alpha }
    No := No, Ro := x.ro.buf, cp := cp, delay := x.delay.buf, ty := fe.idx }
  (match fe with
    | .octave => dreamAtt32 L D ⟨nt, xc0⟩ ⟨nt, x0⟩ (zeroVec (No * nt))
    | _ => dreamAtt L D ⟨nt, xc0⟩ ⟨nt, x0⟩ (zeroVec (No * nt))).bind fun h => .ok (.call h)

end Dream
