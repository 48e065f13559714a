import Verif.ArgParser

/-
`dream_apodwin`: mex/mex_dream_apodwin.cc, oct/oct_dream_apodwin.cc (MATLAB and Octave only).
-/

namespace Dream
open Arith

variable {F : Type} [Arith F]

/-- The position given to sample `n` of `num`, mex_dream_apodwin.cc 64, oct_dream_apodwin.cc 130, with
`ramax = 1`. -/
def apodPos (num n : Nat) : F :=
  lit 2 *. lit 1 *. (lit (1 / 2) -. ofInt (n : Int) /. ofInt (num : Int))

/-- The loop over the window, mex_dream_apodwin.cc 58-68, oct_dream_apodwin.cc 125-135: nothing is
written if apodization is off. -/
def apodWin (A : Apod F) (num : Nat) (h : Buf F) : Outcome (Buf F) :=
  if A.on = true then
    forO (fun n (h : Buf F) =>
      (apodization A.met n A.vec (apodPos num n) (lit 0) (lit 1) A.par).bind fun w =>
        h.write (n : Int) w) num 0 h
  else .ok h

/-- The output: zeros in MATLAB (`mxCreateDoubleMatrix`, mex_dream_apodwin.cc 55), uninitialised memory
`junk` in Octave (`Matrix h_mat(num_elements,1)`, oct_dream_apodwin.cc 122). -/
def apodOut (fe : FrontEnd) (num : Nat) (junk : Nat → F) : Buf F :=
  match fe with
  | .matlab => zeroVec num
  | _ => ⟨num, junk⟩

/-- `dream_apodwin(apod_met, apod, win_par)`: mex_dream_apodwin.cc 36-70, oct_dream_apodwin.cc 88-139,
with three arguments.  The number of samples is the first entry of the second argument; the entry is
read even if there is none.  A negative number (Octave) is no size for `make_unique`.  The variable
`apod_par`, not initialised in the code, is 0 here until it is set; it is used only when it is set. -/
def dreamApodWin (fe : FrontEnd) (junk : Nat → F) (met : StrArg) (apod par : Arg F) :
    Outcome (Front (Buf F)) :=
  (apod.buf.read 0).bind fun x =>
  (castIdx fe.idx (trunc x)).bind fun num =>
  allocOut num fun num =>
  (parseApod fe met apod par num ⟨false, .gauss, zeroVec num, lit 0⟩).bind fun r => r.next fe fun A =>
  (apodWin A num (apodOut fe num junk)).bind fun h => .ok (.call h)

end Dream
