import Verif.Whole
import Verif.ConvOpts
import Verif.ConvHost
import Verif.InPlace

/-
Whole calls of conv_p, fftconv_p, fftconv_ola and sum_fftconv in MATLAB and Octave, and of the Python and
Julia functions conv_p and fftconv_p: argument checks, number of workers, wisdom and output matrix, the
threaded computation, and what the interpreter gets back.  Nobody presses CTRL-C.

Not modelled: results with `0 + 0 - 1` rows (both factors empty); arguments of another class than
real double matrix (see ClassesConv.lean); inputs stored in the memory of the matrix to be changed (C79); in Octave, a matrix to be
changed that is not stored as a full matrix, such as a 1 by 1 matrix (C79).
-/

namespace Dream
open Arith

variable {F : Type} [Arith F]

/-- A value handed back to the interpreter: a matrix, zero outside, or a text. -/
inductive OutVal (F : Type)
  | mat (rows cols : Nat) (h : Nat → Nat → F)
  | text (s : Str)

/-- What the caller of a convolution function gets. -/
inductive ConvSeen (F : Type)
  /-- the arguments are refused; `raised`: with an error (otherwise a message is printed and nothing is
  returned) -/
  | refused (raised : Bool)
  /-- an exception of the standard library leaves the function -/
  | thrown
  /-- undefined behaviour -/
  | undefined
  /-- the call never returns -/
  | noAnswer
  /-- the message "CTRL-C pressed!" although nobody pressed it -/
  | failed
  /-- the call returns: the new contents of the matrix that was given to be changed (in-place mode), and
  the values of the outputs number 0, 1, ... -/
  | done (inPlace : Option (OutVal F)) (outs : Nat → Option (OutVal F))

/-- Outputs of a function that made the matrix `y` (normal mode) and the text `w` (the caller asks for two
outputs): MATLAB functions assign `plhs[0]` and `plhs[1]` (extra_src/mex_fftconv_p.cc 412, 526-529,
mex_fftconv_ola.cc 632-635, mex_sum_fftconv.cc 463-466), Octave functions append to the list of outputs
(extra_src/oct_fftconv_p.cc 465, 594-597, oct_fftconv_ola.cc 588, 706-709, oct_sum_fftconv.cc 466,
577-580). -/
def convOuts (fe : ConvFront) (y w : Option (OutVal F)) (k : Nat) : Option (OutVal F) :=
  match fe with
  | .matlab => if k = 0 then y else if k = 1 then w else none
  | .octave => (y.toList ++ w.toList)[k]?

/-- One call, up to the parts in which the functions differ. -/
structure ConvJob (F : Type) where
  /-- refusals are errors -/
  raises : Bool
  /-- the checks before the number of workers is chosen -/
  early : Outcome (Except String ConvOpts)
  /-- the checks after it: import of the wisdom, size of the matrix to be changed -/
  late : ConvOpts → ConvFrontRes F
  cnt : CntTy
  rows : Nat
  cols : Nat
  /-- contents of a new matrix -/
  fresh : Nat → F
  /-- the memory of a matrix given to be changed: see `outBuf` -/
  yMem : MArg F → Option (Buf F)
  /-- the text of `fft.get_wisdom()`, if the caller asks for two outputs -/
  wis : Option Str
  /-- the threaded computation with `nth` workers -/
  drv : ConvMode → (nth : Nat) → Drv F (Prog F SIRError)

/-- The memory the workers write to: a new matrix, or the one given to be changed. -/
def ConvJob.mem (J : ConvJob F) (out : Option (MArg F)) : Option (Buf F) :=
  match out with
  | none => some ⟨J.rows * J.cols, J.fresh⟩
  | some y => J.yMem y

/-- End of the wrapper: error if the run flag is down (extra_src/mex_fftconv_p.cc 521-523), outputs. -/
def ConvJob.finish (fe : ConvFront) (J : ConvJob F) (inPlace : Bool) : Seen F → ConvSeen F
  | .matrix _ _ r c h =>
    if inPlace then .done (some (.mat r c h)) (convOuts fe none (J.wis.map .text))
    else .done none (convOuts fe (some (.mat r c h)) (J.wis.map .text))
  | .failed _ => .failed
  | .thrown => .thrown
  | .undefined => .undefined
  | .noAnswer => .noAnswer
  | .refused b => .refused b

/-- The drivers of the convolution functions have no error codes. -/
def convTail : Tail where
  sphere := false
  warns := false
  second := false

/-- What may be seen of a call on a machine with `hw` cores and `DREAM_NUM_THREADS` set to `env`. -/
inductive ConvJob.Sees (fe : ConvFront) (J : ConvJob F) (hw : Nat) (env : Option String) :
    ConvSeen F → Prop
  | refused (e : String) (h : J.early = .ok (.error e)) : Sees fe J hw env (.refused J.raises)
  | badArg (h : ∀ r, J.early ≠ .ok r) : Sees fe J hw env .undefined
  | thrown (o : ConvOpts) (h : J.early = .ok (.ok o)) (ht : chooseThreads J.cnt hw env J.cols = none) :
      Sees fe J hw env .thrown
  | late (o : ConvOpts) (h : J.early = .ok (.ok o)) (nth : Nat)
      (ht : chooseThreads J.cnt hw env J.cols = some nth) (e : String) (hl : J.late o = .error e) :
      Sees fe J hw env (.refused J.raises)
  | noMemory (o : ConvOpts) (h : J.early = .ok (.ok o)) (nth : Nat)
      (ht : chooseThreads J.cnt hw env J.cols = some nth) (mode : ConvMode) (out : Option (MArg F))
      (hl : J.late o = .run mode out) (hm : J.mem out = none) : Sees fe J hw env .undefined
  | ran (o : ConvOpts) (h : J.early = .ok (.ok o)) (nth : Nat)
      (ht : chooseThreads J.cnt hw env J.cols = some nth) (mode : ConvMode) (out : Option (MArg F))
      (hl : J.late o = .run mode out) (Y : Buf F) (hm : J.mem out = some Y) (s : Seen F)
      (hs : (J.drv mode nth).Sees convTail J.cnt hw env Y s) : Sees fe J hw env (J.finish fe out.isSome s)

/-- `dream_idx_type`: unsigned in MATLAB, signed in Octave (include/dream.h 108, 119). -/
def ConvFront.idx : ConvFront → IdxTy
  | .matlab => .unsigned
  | .octave => .signed

/-- `plan_method`/`return_wisdom`: `if (nlhs == 2)`, extra_src/mex_fftconv_p.cc 234-236. -/
def wisdomOut (nlhs : Nat) (wis : Str) : Option Str := if nlhs = 2 then some wis else none

/-! ### conv_p -/

/-- The argument switch of conv_p, extra_src/mex_conv_p.cc 144-202, extra_src/oct_conv_p.cc 172-234. -/
def convPOpts (fe : ConvFront) (nlhs : Nat) (extra : List (MArg F)) : Except String ConvOpts :=
  match extra with
  | [] => if nlhs > 1 then .error "Too many output arguments for conv_p!" else .ok ⟨.equ, none⟩
  | [y] =>
    if nlhs > 0 then .error "No output arguments required"
    else match fe, y with
      | .matlab, .chr _ _ _ => .error "Arg 3 must be a matrix (not a string)"
      | _, _ => .ok ⟨.equ, none⟩
  | [_, .chr _ _ s] =>
    match modeOf (readStr fe s) with
    | some m => .ok ⟨m, none⟩
    | none => .error "Non-valid string in arg 4!"
  | [_, .mat _ _ _] => .ok ⟨.equ, none⟩
  | _ => .error "conv_p requires 2 to 4 input arguments!"

/-- Size of the in-place matrix, extra_src/mex_conv_p.cc 248-270, extra_src/oct_conv_p.cc 303-333. -/
def convPLate (rows cols : Nat) (extra : List (MArg F)) (o : ConvOpts) : ConvFrontRes F :=
  match extra with
  | [] => .run o.mode none
  | y :: _ =>
    if y.rows ≠ rows then .error "Wrong number of rows in argument 3!"
    else if y.cols ≠ cols then .error "Wrong number of columns in argument 3!"
    else .run o.mode (some y)

/-- The size check of arguments 1 and 2 after the one of the options. -/
def sizeThen (ok : Bool) (r : Except String ConvOpts) : Except String ConvOpts :=
  match r with
  | .error e => .error e
  | .ok o => if ok then .ok o else .error "Argument 2 must be a vector or a matrix ..."

/-- The matrices `A` and `B` of a call. -/
def convArgs (A B : HMat F) (mode : ConvMode) (kind : ConvKind F) : ConvCall F :=
  ⟨A.rows, A.cols, A.buf, B.rows, B.cols, B.buf, mode, kind⟩

/-- conv_p(A,B,...), extra_src/mex_conv_p.cc 131-380, extra_src/oct_conv_p.cc 150-430.  Octave does not clear
the new matrix (oct_conv_p.cc 305: contents `junk`). -/
def convPJob (fe : ConvFront) (A B : HMat F) (extra : List (MArg F)) (nlhs : Nat) (junk : Nat → F) :
    ConvJob F where
  raises := decide (fe = .matlab)
  early := .ok (sizeThen (convArgs A B .equ .time).accepted (convPOpts fe nlhs extra))
  late := convPLate (convArgs A B .equ .time).len A.cols extra
  cnt := match fe with
    | .matlab => .mixed
    | .octave => .signed
  rows := (convArgs A B .equ .time).len
  cols := A.cols
  fresh := match fe with
    | .matlab => fun _ => lit 0
    | .octave => junk
  yMem := fun y => outBuf (convArgs A B .equ .time).len A.cols (some y)
  wis := none
  drv := fun mode _ => (convArgs A B mode .time).drv

/-! ### fftconv_p -/

/-- The checks of the number of outputs, of the sizes and of the options, in this order
(extra_src/mex_fftconv_p.cc 222-357, extra_src/oct_fftconv_p.cc 267-402). -/
def outsThen (ok : Bool) (nlhs : Nat) (r : Except String ConvOpts) : Except String ConvOpts :=
  if nlhs > 2 then .error "Too many output arguments"
  else if ok then r
  else .error "Argument 2 must be a vector or a matrix ..."

/-- fftconv_p(A,B,...), extra_src/mex_fftconv_p.cc 194-532, extra_src/oct_fftconv_p.cc 240-602.  `imp`:
FFTW's wisdom importer, `wis`: the text of `get_wisdom`, `L`: FFTW, `S n`: scratch memory at column `n`. -/
def fftconvPJob (fe : ConvFront) (L : FFTLib F) (S : Nat → Scratch F) (imp : Str → Bool) (wis : Str)
    (A B : HMat F) (extra : List (MArg F)) (nlhs : Nat) : ConvJob F where
  raises := true
  early := .ok (outsThen (convArgs A B .equ (.fft L S)).accepted nlhs (convOpts fe nlhs extra))
  late := chooseOut imp (convArgs A B .equ (.fft L S)).len A.cols extra
  cnt := fe.idx.cnt
  rows := (convArgs A B .equ (.fft L S)).len
  cols := A.cols
  fresh := fun _ => lit 0
  yMem := fun y => outBuf (convArgs A B .equ (.fft L S)).len A.cols (some y)
  wis := wisdomOut nlhs wis
  drv := fun mode _ => (convArgs A B mode (.fft L S)).drv

/-! ### fftconv_ola -/

/-- Scratch memory of the workers of fftconv_ola when they start a block or a column. -/
structure OlaScratch (F : Type) where
  S : Nat → Nat → Scratch F
  ab : Nat → Nat → Buf F
  y0 : Nat → Buf F

/-- The matrices and the block length of a call. -/
def olaArgs (L : FFTLib F) (M : OlaScratch F) (A B : HMat F) (bl : Nat) (mode : ConvMode) : OlaCall F :=
  ⟨A.rows, A.cols, A.buf, B.rows, B.cols, B.buf, bl, mode, L, M.S, M.ab, M.y0⟩

/-- `B_M != 1 && B_N != 1 && B_N != A_N`, extra_src/mex_fftconv_ola.cc 339. -/
def olaSizeOk (A B : HMat F) : Bool := !(B.rows != 1 && B.cols != 1 && B.cols != A.cols)

/-- The block length: extra_src/mex_fftconv_ola.cc 350-357, extra_src/oct_fftconv_ola.cc 407-421 (a scalar,
cast to an index; `none`: refused). -/
def olaBlock (fe : ConvFront) (A Bl : HMat F) : Outcome (Option Nat) :=
  if Bl.rows * Bl.cols = 1 then
    (castIdx fe.idx (trunc (Bl.data 0))).bind fun k =>
      .ok (if k < 0 ∨ k > A.rows then none else some k.toNat)
  else .ok none

/-- fftconv_ola(A,B,n,...), extra_src/mex_fftconv_ola.cc 285-640, extra_src/oct_fftconv_ola.cc 339-714;
`M bl`: scratch memory for the block length `bl`. -/
def olaJob (fe : ConvFront) (L : FFTLib F) (M : Nat → OlaScratch F) (imp : Str → Bool) (wis : Str)
    (A B Bl : HMat F) (extra : List (MArg F)) (nlhs : Nat) : ConvJob F where
  raises := true
  early :=
    if nlhs > 2 then .ok (.error "Too many output arguments for fftconv_ola!")
    else if !olaSizeOk A B then .ok (.error "Argument 2 must be a vector or a matrix ...")
    else (olaBlock fe A Bl).bind fun bl =>
      match bl with
      | none => .ok (.error "Argument 3 is out of bounds!")
      | some _ => .ok (convOpts fe nlhs extra)
  late := chooseOut imp (olaArgs L (M 0) A B 0 .equ).len A.cols extra
  cnt := fe.idx.cnt
  rows := (olaArgs L (M 0) A B 0 .equ).len
  cols := A.cols
  fresh := fun _ => lit 0
  yMem := fun y => outBuf (olaArgs L (M 0) A B 0 .equ).len A.cols (some y)
  wis := wisdomOut nlhs wis
  drv := fun mode nth =>
    match olaBlock fe A Bl with
    | .ok (some bl) => (olaArgs L (M bl) A B bl mode).drv nth
    | _ => (olaArgs L (M 0) A B 0 mode).drv nth

/-! ### sum_fftconv -/

/-- An array with any number of dimensions. -/
structure NArr (F : Type) where
  dims : List Nat
  data : Nat → F

/-- Scratch memory of the workers of sum_fftconv. -/
structure SumScratch (F : Type) where
  S : Nat → Nat → Scratch F
  cf : Nat → Buf (F × F)
  c : Nat → Buf F

/-- The arrays of a call. -/
def sumArgs (L : FFTLib F) (M : SumScratch F) (m n l : Nat) (H : Nat → F) (U : HMat F) (mode : ConvMode) :
    SumCall F :=
  ⟨m, n, l, ⟨m * n * l, H⟩, U.rows, U.cols, U.buf, mode, L, M.S, M.cf, M.c⟩

/-- `dv[0]`, `dv[1]`, `dv[2]` of a 3-dimensional array, extra_src/mex_sum_fftconv.cc 201-212. -/
def NArr.three (H : NArr F) : Option (Nat × Nat × Nat) :=
  match H.dims with
  | [m, n, l] => some (m, n, l)
  | _ => none

/-- sum_fftconv(H,U,...), extra_src/mex_sum_fftconv.cc 158-469, extra_src/oct_sum_fftconv.cc 258-586. -/
def sumJob (fe : ConvFront) (L : FFTLib F) (M : SumScratch F) (imp : Str → Bool) (wis : Str)
    (H : NArr F) (U : HMat F) (extra : List (MArg F)) (nlhs : Nat) : ConvJob F :=
  let d := H.three.getD (0, 0, 0)
  let C := sumArgs L M d.1 d.2.1 d.2.2 H.data U
  { raises := decide (fe = .matlab)
    early := .ok (outsThen (H.three.isSome && (C .equ).accepted) nlhs (sumOpts fe nlhs extra))
    late := fun o => sumMode fe (chooseOut imp (C .equ).len d.2.1 extra o)
    cnt := fe.idx.cnt
    rows := (C .equ).len
    cols := d.2.1
    fresh := fun _ => lit 0
    yMem := fun y => outBuf (C .equ).len d.2.1 (some y)
    wis := wisdomOut nlhs wis
    drv := fun mode _ => (C mode).drv }

/-! ### Python and Julia -/

/-- Index types of the Python and Julia drivers (include/dream.h 125, 130). -/
def ConvHost.cnt : ConvHost → CntTy
  | .pyFft => .signed
  | _ => .unsigned

/-- A call of the Python or Julia functions: `convHost` and the driver, which works on a new matrix whose
memory is not initialised (python/include/py_fftconv_p.hpp 60-86, julia/src/jl_fftconv_p.cc 198-330,
julia/src/jl_conv_p.cc 150-275).  These functions have one output and no in-place mode. -/
inductive HostConvSees (h : ConvHost) (L : FFTLib F) (S : Nat → Scratch F) (A B : Arg F) (hw : Nat)
    (env : Option String) : Seen F → Prop
  | refused (hr : convHost h L S A B = .ok .error) : HostConvSees h L S A B hw env (.refused true)
  | undefined (hu : ∀ r, convHost h L S A B ≠ .ok r) : HostConvSees h L S A B hw env .undefined
  | called (C : ConvCall F) (hc : convHost h L S A B = .ok (.call C)) (Y : Buf F)
      (hY : Y.size = C.len * C.aN) (o : Seen F) (hs : C.drv.Sees convTail h.cnt hw env Y o) :
      HostConvSees h L S A B hw env o

end Dream
