import Verif.Prog
import Verif.ProgBad
import Verif.Driver

/-
copy_p and add_p: extra_src/mex_copy_p.cc, extra_src/oct_copy_p.cc, extra_src/oct_add_p.cc.
-/

namespace Dream
open Arith

variable {F : Type} [Arith F]

/-- Which of the two functions. -/
inductive CopyOp
  | copy | add
  deriving DecidableEq, Repr

/-- Arguments of copy_p(A,r,k,B) and add_p(A,r,k,B): `A` (the matrix that is changed) is `aM x aN`,
`B` is `bM x bN`, `r = [r0 r1]` and `k = [k0 k1]` are the first and last row and column, counted
from one.  Simplification: the entries of `r` and `k`, which the code reads as double and truncates,
are whole numbers (extra_src/oct_copy_p.cc 182-200).  The index type is the signed one of Octave; in
MATLAB negative entries would be converted to `size_t`, which is undefined. -/
structure CopyCall (F : Type) where
  op : CopyOp
  aM : Nat
  aN : Nat
  r0 : Int
  r1 : Int
  k0 : Int
  k1 : Int
  bM : Nat
  bN : Nat
  B : Buf F

namespace CopyCall

/-- The checks on arguments 2, 3 and 4, extra_src/oct_copy_p.cc 202-246, extra_src/oct_add_p.cc
205-249, extra_src/mex_copy_p.cc 167-192. -/
def accepted (C : CopyCall F) : Bool :=
  !decide (C.r1 < 1) && !(decide (C.r0 > C.aM) || decide (C.r1 > C.aM)) &&
  !decide (C.k1 < 1) && !(decide (C.k0 > C.aN) || decide (C.k1 > C.aN)) &&
  !decide ((C.bM : Int) < C.r1 - C.r0 + 1) && !decide ((C.bN : Int) ≠ C.k1 - C.k0 + 1)

/-- `D[thread_n].r`, `.k`, `.len`, extra_src/oct_copy_p.cc 318-320. -/
def r (C : CopyCall F) : Int := C.r0 - 1
def k (C : CopyCall F) : Int := C.k0 - 1
def len (C : CopyCall F) : Int := C.r1 - C.r0 + 1

/-- One entry: read `B[l+n*B_M]` and store at `A[r+(k+n)*A_M+l]`; addresses in `A` are relative to
`&A[n*A_M]`.  extra_src/oct_copy_p.cc 96 (memcpy), extra_src/oct_add_p.cc 94-96. -/
def entry (C : CopyCall F) (n l : Nat) : Prog F Unit :=
  (Prog.lift (C.B.read ((l + n * C.bM : Nat) : Int))).bind fun v =>
  let at_ : Int := C.r + C.k * C.aM + l
  match C.op with
  | .copy => .wr at_ v (.ret ())
  | .add => .rd at_ fun a => .wr at_ (a +. v) (.ret ())

/-- Work for column `n`, extra_src/oct_copy_p.cc 94-103, extra_src/oct_add_p.cc 92-103.  A negative
length is converted to a huge `size_t` by memcpy; the loop of add_p is empty then. -/
def prog (C : CopyCall F) (n : Nat) : Prog F SIRError :=
  if C.len < 0 ∧ C.op = .copy then .bad .oob
  else (Prog.forN (fun l _ => C.entry n l) C.len.toNat 0 ()).bind fun _ => .ret .none

/-- The threaded driver: the columns **of A** are split over the threads,
extra_src/oct_copy_p.cc 303-326. -/
def drv (C : CopyCall F) : Drv F (Prog F SIRError) :=
  Drv.ofProg C.aN C.aM (fun n => n * C.aM) .none C.prog

end CopyCall
end Dream
