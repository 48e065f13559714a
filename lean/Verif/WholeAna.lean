import Verif.WholeConv
import Verif.AnaFront
import Verif.CopyP

/-
Whole calls of circ_sir, scirc_sir, rect_sir, copy_p and add_p in MATLAB and Octave, as in Verif/Whole.lean
and Verif/WholeConv.lean: argument checks, number of workers, the threaded computation, what the caller
gets.  Nobody presses CTRL-C.
-/

namespace Dream
open Arith

variable {F : Type} [Arith F]

/-! ### The analytic responses -/

/-- Types of the thread counters: extra_src/mex_circ_sir.cc 171, 227-244 and mex_scirc_sir.cc 172, 242-259
(`dream_idx_type`, unsigned in MATLAB), oct_circ_sir.cc 227, 311-328 (`unsigned int`), oct_scirc_sir.cc 232,
334-343 (`dream_idx_type`, signed in Octave), rect_sir.cc 147, 158-175 (`unsigned int`). -/
def AnaName.cnt (kind : AnaName) (fe : FrontEnd) : CntTy :=
  match kind, fe with
  | .rect, _ => .u32
  | .circ, .octave => .u32
  | .scirc, .octave => .signed
  | _, _ => .unsigned

/-- The environment variable that is looked at: extra_src/oct_scirc_sir.cc 334-343 does not look at it. -/
def AnaName.envSeen (kind : AnaName) (fe : FrontEnd) (env : Option String) : Option String :=
  match kind, fe with
  | .scirc, .octave => none
  | _, _ => env

/-- A call of circ_sir, scirc_sir or rect_sir that is not passed to the GPU: argument checks, then the driver
on a zeroed `nt` by `No` matrix, which is returned (extra_src/mex_circ_sir.cc 246-345, oct_circ_sir.cc
330-430, mex_scirc_sir.cc 261-361, oct_scirc_sir.cc 345-447, mex_rect_sir.cc 100-136, oct_rect_sir.cc
214-279).  There are no error codes, warnings or second outputs.  Simplification: circ_sir and scirc_sir
look at the variable before a negative length is refused; here the length comes first. -/
inductive AnaSees (opencl : Bool) (fe : FrontEnd) (kind : AnaName) (x : AnaArgs F) (hw : Nat)
    (env : Option String) : Seen F → Prop
  | refused (b : Bool) (h : frontAna opencl fe kind x = .ok (.rejected b)) :
      AnaSees opencl fe kind x hw env (.refused b)
  | undefined (h : ∀ r, frontAna opencl fe kind x ≠ .ok r) : AnaSees opencl fe kind x hw env .undefined
  | called (C : AnaCall F) (h : frontAna opencl fe kind x = .ok (.call (.cpu C))) (o : Seen F)
      (hs : C.drv.Sees convTail (kind.cnt fe) hw (kind.envSeen fe env) ⟨C.No * C.nt, fun _ => lit 0⟩ o) :
      AnaSees opencl fe kind x hw env o

/-! ### copy_p and add_p -/

/-- Work for column `n` with first row `r`, first column `k` and `len` rows, counted from zero:
extra_src/oct_copy_p.cc 94-103, extra_src/oct_add_p.cc 92-103, extra_src/mex_copy_p.cc 91-101.  A negative
length is converted to a huge `size_t` by memcpy; the loop of add_p is empty then. -/
def copyWork (op : CopyOp) (aM bM : Nat) (B : Buf F) (r k len : Int) (n : Nat) : Prog F SIRError :=
  if len < 0 ∧ op = .copy then .bad .oob
  else (Prog.forN (fun l _ =>
      (Prog.lift (B.read ((l + n * bM : Nat) : Int))).bind fun v =>
        match op with
        | .copy => .wr (r + k * aM + l) v (.ret ())
        | .add => .rd (r + k * aM + l) fun a => .wr (r + k * aM + l) (a +. v) (.ret ()))
    len.toNat 0 ()).bind fun _ => .ret .none

/-- The checks of arguments 2 to 4, extra_src/mex_copy_p.cc 166-193, extra_src/oct_copy_p.cc 206-250,
extra_src/oct_add_p.cc 208-252.  The numbers are converted to `size_t` in MATLAB and to `octave_idx_type`
in Octave, which is undefined for numbers outside the type. -/
def copyChecks (fe : ConvFront) (A r k B : HMat F) : Outcome (Except String ConvOpts) :=
  if r.rows * r.cols ≠ 2 then .ok (.error "Argument 2 must be a 2 element vector!") else
  (castIdx fe.idx (trunc (r.data 1))).bind fun r1 =>
  if r1 < 1 then .ok (.error "1st element of argument 2 must be > 1!") else
  (castIdx fe.idx (trunc (r.data 0))).bind fun r0 =>
  if r0 > A.rows ∨ r1 > A.rows then .ok (.error "One element of argument 2 exceeds row dimension of arg 1!")
  else
  if k.rows * k.cols ≠ 2 then .ok (.error "Argument 3 must be a 2 element vector!") else
  (castIdx fe.idx (trunc (k.data 1))).bind fun k1 =>
  if k1 < 1 then .ok (.error "1st element of argument 3 must be > 1!") else
  (castIdx fe.idx (trunc (k.data 0))).bind fun k0 =>
  if k0 > A.cols ∨ k1 > A.cols then .ok (.error "One element of argument 3 exceeds colomn dimension of arg 1!")
  else
  (castIdx fe.idx (trunc (r.data 1 -. r.data 0))).bind fun dr =>
  if (B.rows : Int) < dr + 1 then .ok (.error "Argument 4 has not the number of rows as given by arg 2!") else
  (castIdx fe.idx (trunc (k.data 1 -. k.data 0))).bind fun dk =>
  if (B.cols : Int) ≠ dk + 1 then .ok (.error "Argument 4 has not the number of columns as given by arg 3!")
  else .ok (.ok ⟨.equ, none⟩)

/-- `D[thread_n].r`, `.k` and `.len`, extra_src/mex_copy_p.cc 266-268, extra_src/oct_copy_p.cc 324-326. -/
def copyIdx (fe : ConvFront) (r k : HMat F) : Outcome (Int × Int × Int) :=
  (castIdx fe.idx (trunc (r.data 0 -. lit 1))).bind fun i =>
  (castIdx fe.idx (trunc (k.data 0 -. lit 1))).bind fun j =>
  (castIdx fe.idx (trunc (r.data 1 -. r.data 0 +. lit 1))).bind fun l => .ok (i, j, l)

/-- The work for column `n`.  The host converts the indices when it starts the workers; here a conversion
that is undefined is met by the workers. -/
def copyProg (fe : ConvFront) (op : CopyOp) (A r k B : HMat F) (n : Nat) : Prog F SIRError :=
  match copyIdx fe r k with
  | .ub e => .bad e
  | .ok (i, j, l) => copyWork op A.rows B.rows B.buf i j l n
  | .fuel => .bad .oob

/-- copy_p(A,r,k,B) and add_p(A,r,k,B) (in Octave only): extra_src/mex_copy_p.cc 132-306,
extra_src/oct_copy_p.cc 162-362, extra_src/oct_add_p.cc 164-364.  The columns **of A** are split over the
workers.  `A` is a full matrix of doubles and `B` is stored elsewhere (C79 has the other cases). -/
def copyJob (fe : ConvFront) (op : CopyOp) (args : List (HMat F)) (nlhs : Nat) : ConvJob F :=
  let A := args.getD 0 ⟨0, 0, fun _ => lit 0⟩
  let r := args.getD 1 ⟨0, 0, fun _ => lit 0⟩
  let k := args.getD 2 ⟨0, 0, fun _ => lit 0⟩
  let B := args.getD 3 ⟨0, 0, fun _ => lit 0⟩
  { raises := true
    early :=
      if args.length ≠ 4 then .ok (.error "copy_p requires 4 input arguments!")
      else if nlhs > 0 then .ok (.error "Too many output arguments for copy_p, none required!")
      else copyChecks fe A r k B
    late := fun o => .run o.mode (some (.mat A.rows A.cols A.data))
    cnt := match fe with
      | .matlab => .mixed
      | .octave => .signed
    rows := A.rows
    cols := A.cols
    fresh := fun _ => lit 0
    yMem := fun y => outBuf A.rows A.cols (some y)
    wis := none
    drv := fun _ _ => Drv.ofProg A.cols A.rows (fun n => n * A.rows) .none (copyProg fe op A r k B) }

end Dream
