import Verif.Ola

/-
How conv_p, fftconv_p, fftconv_ola and sum_fftconv interpret the arguments after the positional
ones: extra_src/mex_conv_p.cc, extra_src/mex_fftconv_p.cc, extra_src/mex_fftconv_ola.cc,
extra_src/mex_sum_fftconv.cc and the corresponding oct_*.cc files, and the wisdom test of
include/fft.h.

FFTW's own wisdom importer is an uninterpreted predicate.  The planner is called before the wisdom
is imported (mex_fftconv_p.cc 259 and 371) and gives an FFT in either case, so the wisdom has no
influence on the computed values.
-/

namespace Dream

/-- Character data; may contain NUL. -/
abbrev Str := List Char

/-- `std::strcmp` on NUL-terminated memory: the end of the list is the terminator. -/
def strcmp : Str → Str → Int
  | [], [] => 0
  | [], d :: _ => 0 - d.toNat
  | c :: _, [] => c.toNat
  | c :: cs, d :: ds =>
    if c ≠ d then (c.toNat : Int) - d.toNat
    else if c = '\x00' then 0
    else strcmp cs ds

/-- `FFT::is_wisdom`, include/fft.h 176-177: `return std::strcmp("fftw_wisdom",str);` -/
def isWisdom (s : Str) : Bool := strcmp "fftw_wisdom".toList s != 0

/-- The two interfaces that have these options. -/
inductive ConvFront
  | matlab | octave
  deriving DecidableEq, Repr

/-- How a char argument becomes a `std::string`: `mxArrayToString` and the constructor from `char*`
in MATLAB (extra_src/mex_fftconv_p.cc 269-271, 297-299), `string_value()` in Octave
(extra_src/oct_fftconv_p.cc 318, 348). -/
def readStr : ConvFront → Str → Str
  | .matlab, s => s.takeWhile (· ≠ '\x00')
  | .octave, s => s

/-- An argument: a real matrix or a char array, with its number of rows and columns. -/
inductive MArg (F : Type) where
  | mat (rows cols : Nat) (data : Nat → F)
  | chr (rows cols : Nat) (s : Str)

namespace MArg
variable {F : Type}

/-- `mxGetM` / `rows()`. -/
def rows : MArg F → Nat
  | mat m _ _ => m
  | chr m _ _ => m

/-- `mxGetN` / `cols()`. -/
def cols : MArg F → Nat
  | mat _ n _ => n
  | chr _ n _ => n

end MArg

/-- What the option switch leaves: the conv mode and the wisdom string to load. -/
structure ConvOpts where
  mode : ConvMode
  wisdom : Option Str

/-- Result of the wrapper up to the start of the workers: an error, or the mode and the matrix to
work on (`none`: a new matrix cleared to zero). -/
inductive ConvFrontRes (F : Type) where
  | error (msg : String)
  | run (mode : ConvMode) (out : Option (MArg F))

/-- The three comparisons of the mode string, extra_src/mex_fftconv_p.cc 309-322. -/
def modeOf (s : Str) : Option ConvMode :=
  let r : Option ConvMode := none
  let r := if s = "=".toList then some .equ else r
  let r := if s = "+=".toList then some .sum else r
  if s = "-=".toList then some .neg else r

variable {F : Type}

/-- The switch over the number of arguments in fftconv_p (extra_src/mex_fftconv_p.cc 263-357,
extra_src/oct_fftconv_p.cc 310-402) and fftconv_ola (extra_src/mex_fftconv_ola.cc 366-468,
extra_src/oct_fftconv_ola.cc 431-529); `extra` are the arguments after the 2 (fftconv_p) or 3
(fftconv_ola) positional ones, `nlhs` the number of requested outputs. -/
def convOpts (fe : ConvFront) (nlhs : Nat) (extra : List (MArg F)) : Except String ConvOpts :=
  match extra with
  | [] => .ok ⟨.equ, none⟩
  | [.chr _ _ s] =>
    if !isWisdom (readStr fe s) then .error "not in a FFTW wisdom format"
    else .ok ⟨.equ, some (readStr fe s)⟩
  | [.mat _ _ _] =>
    if nlhs > 0 then .error "in-place mode with output arguments"
    else .ok ⟨.equ, none⟩
  | [_, .chr _ _ s] =>
    match modeOf (readStr fe s) with
    | some m => .ok ⟨m, none⟩
    | none =>
      if !isWisdom (readStr fe s) then .error "Non-valid string"
      else .ok ⟨.equ, some (readStr fe s)⟩
  | [_, .mat _ _ _] => .error "not a valid string format"
  | [_, _, .chr _ _ s] =>
    if !isWisdom (readStr fe s) then .error "not in a FFTW wisdom format"
    else .ok ⟨.equ, some (readStr fe s)⟩
  | [_, _, .mat _ _ _] => .error "not a valid string format"
  | _ => .error "wrong number of input arguments"

/-- `fft.import_wisdom` if there is wisdom to load, extra_src/mex_fftconv_p.cc 400-404. -/
def wisdomLoaded (imp : Str → Bool) : Option Str → Bool
  | some w => imp w
  | none => true

/-- Import of the wisdom and choice of the output matrix, extra_src/mex_fftconv_p.cc 400-440,
extra_src/mex_fftconv_ola.cc 508-550, extra_src/mex_sum_fftconv.cc 328-372.  `imp` is
`fftw_import_wisdom_from_string`; `load_wisdom` is `o.wisdom.isSome`; `rows x cols` the size of the
result. -/
def chooseOut (imp : Str → Bool) (rows cols : Nat) (extra : List (MArg F)) (o : ConvOpts) :
    ConvFrontRes F :=
  if !wisdomLoaded imp o.wisdom then .error "Failed to load FFTW wisdom!"
  else match extra with
  | [] => .run o.mode none
  | y :: rest =>
    if rest.isEmpty && o.wisdom.isSome then .run o.mode none
    else if y.rows ≠ rows then .error "Wrong number of rows in argument 3!"
    else if y.cols ≠ cols then .error "Wrong number of columns in argument 3!"
    else .run o.mode (some y)

/-- fftconv_p and fftconv_ola up to the start of the workers: `rows x cols` is
`(A_M+B_M-1) x A_N`.  The two sizes have been checked before (`ConvCall.accepted`,
`OlaCall.accepted`).  At most two outputs, extra_src/mex_fftconv_p.cc 228-230. -/
def fftconvFront (fe : ConvFront) (imp : Str → Bool) (nlhs rows cols : Nat)
    (extra : List (MArg F)) : ConvFrontRes F :=
  if nlhs > 2 then .error "Too many output arguments"
  else match convOpts fe nlhs extra with
    | .error e => .error e
    | .ok o => chooseOut imp rows cols extra o

/-- The switch of sum_fftconv, extra_src/mex_sum_fftconv.cc 245-292. -/
def sumOpts (fe : ConvFront) (nlhs : Nat) (extra : List (MArg F)) : Except String ConvOpts :=
  match extra with
  | [] => .ok ⟨.equ, none⟩
  | [.chr _ _ s] =>
    if !isWisdom (readStr fe s) then .error "not in a FFTW wisdom format"
    else .ok ⟨.equ, some (readStr fe s)⟩
  | [.mat _ _ _] =>
    if nlhs > 0 then .error "in-place mode with output arguments"
    else .ok ⟨.equ, none⟩
  | [_, .chr _ _ s] =>
    if !isWisdom (readStr fe s) then .error "not in fftw wisdom format"
    else .ok ⟨.equ, some (readStr fe s)⟩
  | [_, .mat _ _ _] => .error "not in fftw wisdom string format"
  | _ => .error "sum_fftconv requires 2 to 4 input arguments!"

/-- In-place calls of sum_fftconv: Octave sets `conv_mode = ConvMode::sum`
(extra_src/oct_sum_fftconv.cc 476), MATLAB leaves the mode alone (extra_src/mex_sum_fftconv.cc
362-372). -/
def sumMode (fe : ConvFront) : ConvFrontRes F → ConvFrontRes F
  | .run mode (some y) => .run (match fe with | .octave => .sum | .matlab => mode) (some y)
  | r => r

/-- sum_fftconv up to the start of the workers; the result is `fft_len x H_N`. -/
def sumFront (fe : ConvFront) (imp : Str → Bool) (nlhs rows cols : Nat)
    (extra : List (MArg F)) : ConvFrontRes F :=
  if nlhs > 2 then .error "Too many output arguments for sum_fftconv!"
  else match sumOpts fe nlhs extra with
    | .error e => .error e
    | .ok o => sumMode fe (chooseOut imp rows cols extra o)

/-- conv_p up to the start of the workers, extra_src/mex_conv_p.cc 144-202 and 248-270: a 4th
argument that is not a string is ignored and leaves the mode `=`.  The Octave version does not test
whether the 3rd argument is a string (extra_src/oct_conv_p.cc 188-193). -/
def convPFront (fe : ConvFront) (nlhs rows cols : Nat) (extra : List (MArg F)) :
    ConvFrontRes F :=
  let inPlace (mode : ConvMode) (y : MArg F) : ConvFrontRes F :=
    if y.rows ≠ rows then .error "Wrong number of rows in argument 3!"
    else if y.cols ≠ cols then .error "Wrong number of columns in argument 3!"
    else .run mode (some y)
  match extra with
  | [] => if nlhs > 1 then .error "Too many output arguments for conv_p!" else .run .equ none
  | [y] =>
    if nlhs > 0 then .error "No output arguments required"
    else match fe, y with
      | .matlab, .chr _ _ _ => .error "Arg 3 must be a matrix (not a string)"
      | _, _ => inPlace .equ y
  | [y, .chr _ _ s] =>
    match modeOf (readStr fe s) with
    | some m => inPlace m y
    | none => .error "Non-valid string in arg 4!"
  | [y, .mat _ _ _] => inPlace .equ y
  | _ => .error "conv_p requires 2 to 4 input arguments!"

/-- The memory the workers write to: the caller's matrix or a new one cleared to zero.  A char
array has no `double` entries, so it has no such memory. -/
def outBuf [Arith F] (rows cols : Nat) : Option (MArg F) → Option (Buf F)
  | none => some ⟨rows * cols, fun _ => Arith.lit 0⟩
  | some (.mat m n d) => some ⟨m * n, d⟩
  | some (.chr _ _ _) => none

end Dream
