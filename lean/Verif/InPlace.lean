import Verif.ConvP
import Verif.CopyP

/-
The in-place modes of conv_p, fftconv_p, copy_p and add_p seen from the interpreter: variables that
share memory with the matrix that is changed, inputs that are stored in that memory, and arguments
that are not full matrices.  extra_src/mex_conv_p.cc, extra_src/oct_conv_p.cc,
extra_src/mex_fftconv_p.cc, extra_src/oct_fftconv_p.cc, extra_src/oct_copy_p.cc,
extra_src/oct_add_p.cc, extra_src/conv.cc, extra_src/fftconv.cc.
-/

namespace Dream
open Arith

variable {F : Type} [Arith F]

/-! ### Convolution when an input is stored in the output matrix -/

/-- The double loop of `conv`, extra_src/conv.cc 49-53, 60-64, 70-74; as `convLoop`, but `x i` and
`y j`, the reads of `xr[i]` and `yr[j]`, may be reads of the output matrix. -/
def convLoopP (op : F → F → F) (x y : Nat → Prog F F) (nx ny : Nat) : Prog F Unit :=
  Prog.forN (fun i _ =>
    Prog.forN (fun j _ =>
      (x i).bind fun xi =>
      (y j).bind fun yj =>
      .rd ((i + j : Nat) : Int) fun z => .wr ((i + j : Nat) : Int) (op z (xi *. yj)) (.ret ()))
    ny 0 ()) nx 0 ()

/-- `conv`, extra_src/conv.cc 33-79, with reads that may be reads of the output matrix. -/
def convP (x y : Nat → Prog F F) (nx ny : Nat) (mode : ConvMode) : Prog F Unit :=
  match mode with
  | .equ => (zeroFill (nx + ny - 1)).bind fun _ => convLoopP Arith.add x y nx ny
  | .sum => convLoopP Arith.add x y nx ny
  | .neg => convLoopP Arith.sub x y nx ny

/-- The copy loops at the start of `fftconv`, extra_src/fftconv.cc 46-48 and 53-55, when the input is
in the output matrix: all samples are read before anything is written. -/
def readAll (x : Nat → Prog F F) (k : Nat) : Prog F (Nat → F) :=
  Prog.forN (fun i s => (x i).bind fun v => .ret fun q => if q = i then v else s q) k 0 fun _ => lit 0

namespace ConvCall

/-- The read of entry `off` of the output matrix by the worker at column `n` (offsets in a column
program are relative to the start of the column). -/
def rdY (C : ConvCall F) (n off : Nat) : Prog F F :=
  .rd ((off : Int) - ((n * C.len : Nat) : Int)) .ret

/-- The read `A[i + n*A_M]` (`ConvCall.rdA`); with `aY`, `A` is stored in the output matrix. -/
def rdAP (C : ConvCall F) (aY : Bool) (n i : Nat) : Prog F F :=
  if aY then C.rdY n (i + n * C.aM) else Prog.lift (C.rdA n i)

/-- The read of `B` (`ConvCall.rdB`); with `bY`, `B` is stored in the output matrix. -/
def rdBP (C : ConvCall F) (bY : Bool) (n j : Nat) : Prog F F :=
  if bY then C.rdY n (if 1 < C.bCols then j + n * C.bRows else j) else Prog.lift (C.rdB n j)

/-- Work for column `n` (`ConvCall.prog`: extra_src/mex_conv_p.cc 92-103, extra_src/fftconv_p.cc
103-141) when the inputs may be stored in the output matrix.  Only inputs stored there are read step
by step: nothing writes to the others. -/
def progAl (C : ConvCall F) (aY bY : Bool) (n : Nat) : Prog F SIRError :=
  (match C.kind with
   | .time => convP (C.rdAP aY n) (C.rdBP bY n) C.aM C.bRows C.mode
   | .fft L S =>
     (if aY then (readAll (C.rdAP aY n) C.aM).bind fun a => .ret fun i => Outcome.ok (a i)
      else .ret (C.rdA n)).bind fun xr =>
     (if bY then (readAll (C.rdBP bY n) C.bRows).bind fun b => .ret fun j => Outcome.ok (b j)
      else .ret (C.rdB n)).bind fun yr =>
     fftconv L xr yr C.aM C.bRows C.mode (S n)).bind fun _ => .ret .none

/-- The threaded driver, extra_src/mex_conv_p.cc 295-335, extra_src/fftconv_p.cc 341-386. -/
def drvAl (C : ConvCall F) (aY bY : Bool) : Drv F (Prog F SIRError) :=
  Drv.ofProg C.aN C.len (fun n => n * C.len) .none (C.progAl aY bY)

/-- When no input is stored in the output matrix this is the program of C29. -/
theorem progAl_none (C : ConvCall F) (n : Nat) : C.progAl false false n = C.prog n := by
  unfold progAl prog rdAP rdBP
  cases C.kind with
  | time => cases C.mode <;> rfl
  | fft L S => rfl

theorem drvAl_none (C : ConvCall F) : C.drvAl false false = C.drv := by
  have h : C.progAl false false = C.prog := funext (progAl_none C)
  unfold drvAl drv
  rw [h]

end ConvCall

/-! ### The interpreter -/

/-- A matrix as the interpreter stores it, by columns. -/
structure HMat (F : Type) where
  rows : Nat
  cols : Nat
  data : Nat → F

/-- The memory of a matrix. -/
def HMat.buf (m : HMat F) : Buf F := ⟨m.rows * m.cols, m.data⟩

/-- What a variable holds: a full matrix of doubles, stored in the block of memory `p` (assignment
shares the block, as `b = a` does in both interpreters), or, in Octave only, a value stored in
another form (scalar, range, logical, integer or single precision array) whose `matrix_value()` is a
new temporary matrix. -/
inductive HVal (F : Type) where
  | full (p : Nat)
  | other (m : HMat F)

/-- The interpreter: variables and blocks of memory. -/
structure Host (V F : Type) where
  env : V → HVal F
  mem : Nat → HMat F

namespace Host
variable {V : Type}

/-- The value of a variable. -/
def val (h : Host V F) (v : V) : HMat F :=
  match h.env v with
  | .full p => h.mem p
  | .other m => m

/-- The assignment `v = w`: both variables share the block (copy on write). -/
def assign [DecidableEq V] (h : Host V F) (v w : V) : Host V F :=
  { h with env := fun u => if u = v then h.env w else h.env u }

/-- The block `p` has been overwritten through a pointer: extra_src/mex_conv_p.cc 268
(`Y = mxGetPr(prhs[2])`), extra_src/oct_conv_p.cc 325 (`Y = (double*) Ytmp.data()`).  Neither makes
the block unique first. -/
def poke (h : Host V F) (p : Nat) (d : Nat → F) : Host V F :=
  { h with mem := fun q => if q = p then { h.mem p with data := d } else h.mem q }

/-- Two variables are stored in the same block. -/
def same (h : Host V F) (v w : V) : Bool :=
  match h.env v, h.env w with
  | .full p, .full q => p == q
  | _, _ => false

/-- The call conv_p(a,b,y,mode) or fftconv_p(a,b,y,mode). -/
def convCall (h : Host V F) (a b : V) (mode : ConvMode) (kind : ConvKind F) : ConvCall F :=
  ⟨(h.val a).rows, (h.val a).cols, (h.val a).buf, (h.val b).rows, (h.val b).cols, (h.val b).buf,
    mode, kind⟩

/-- The checks that lead to the in-place computation, extra_src/oct_conv_p.cc 246-249, 313-321,
extra_src/mex_conv_p.cc 215, 262-266. -/
def convChecks (h : Host V F) (a b y : V) (mode : ConvMode) (kind : ConvKind F) : Prop :=
  (h.convCall a b mode kind).accepted = true ∧
  (h.val y).rows = (h.convCall a b mode kind).len ∧
  (h.val y).cols = (h.convCall a b mode kind).aN

/-- A complete in-place call under schedule `as` with `nth` workers that takes the interpreter from
`h` to `h'`.  If `y` is a full matrix the workers write into its block.  If not, the temporary
`Ytmp` is destroyed at the end of the `else` block, before the workers start (extra_src/oct_conv_p.cc
323-326, extra_src/oct_fftconv_p.cc 488-502): the target is memory of size zero. -/
def ConvRun (h : Host V F) (a b y : V) (mode : ConvMode) (kind : ConvKind F) (nth : Nat)
    (as : List Act) (h' : Host V F) : Prop :=
  h.convChecks a b y mode kind ∧
  match h.env y with
  | .full p => ∃ s', ((h.convCall a b mode kind).drvAl (h.same a y) (h.same b y)).Run nth
      (h.mem p).buf as s' ∧ h' = h.poke p s'.mem.data
  | .other m => ∃ s', ((h.convCall a b mode kind).drvAl false false).Run nth ⟨0, m.data⟩ as s' ∧
      h' = h

/-- The call copy_p(a,r,k,b) or add_p(a,r,k,b). -/
def copyCall (h : Host V F) (op : CopyOp) (a b : V) (r0 r1 k0 k1 : Int) : CopyCall F :=
  ⟨op, (h.val a).rows, (h.val a).cols, r0, r1, k0, k1, (h.val b).rows, (h.val b).cols, (h.val b).buf⟩

/-- A complete call of copy_p or add_p.  The matrix `tmp` made from the first argument lives until
the function returns (extra_src/oct_copy_p.cc 186-189, extra_src/oct_add_p.cc 188-191), so with an
argument that is not a full matrix the workers change a temporary that is thrown away.
Simplification: `b` is not stored in the same block as `a`. -/
def CopyRun (h : Host V F) (op : CopyOp) (a b : V) (r0 r1 k0 k1 : Int) (nth : Nat) (as : List Act)
    (h' : Host V F) : Prop :=
  (h.copyCall op a b r0 r1 k0 k1).accepted = true ∧
  match h.env a with
  | .full p => ∃ s', (h.copyCall op a b r0 r1 k0 k1).drv.Run nth (h.mem p).buf as s' ∧
      h' = h.poke p s'.mem.data
  | .other m => ∃ s', (h.copyCall op a b r0 r1 k0 k1).drv.Run nth m.buf as s' ∧ h' = h

end Host
end Dream
