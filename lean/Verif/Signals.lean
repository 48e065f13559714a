import Verif.Drv
import Verif.ArgParser
import Mathlib.Logic.Function.Basic

/-
Signal handlers and run flags: the main thread of a wrapper, from the installation of the handlers to
the report, with signals arriving at any time, and sessions of many calls.
-/

namespace Dream
open Arith

/-- The signals the library has handlers for. -/
inductive Sig
  | term | abrt | int
  deriving DecidableEq, Repr

/-- The functions that start workers.  Each is a library of its own with its own run flag. -/
inductive Fn
  | sir (k : SirKind) | arr (k : ArrKind) | annu
  | das | rectSir | circSir | scircSir
  | conv | fftconv | sum | ola | copy | add
  deriving DecidableEq, Repr

/-- In which host the function exists: directories mex, oct, python/src, julia/src, extra_src
(`add_p`: extra_src/oct_add_p.cc only). -/
def Fn.offered (fe : FrontEnd) : Fn → Bool
  | .sir _ => true
  | .arr _ => true
  | .annu => true
  | .das => true
  | .fftconv => true
  | .conv => decide (fe ≠ .python)
  | .add => decide (fe = .octave)
  | _ => decide (fe = .matlab ∨ fe = .octave)

/-- The signals a function installs its handler for, in this order: mex/mex_dreamrect.cc 112,
oct/oct_dreamrect.cc 227, python/src/py_dreamrect.cc 132, julia/src/jl_dreamrect.cc 124 and the same
in the other single-element and array wrappers; none in mex_dream_arr_annu.cc and
oct_dream_arr_annu.cc; das: extra_src/mex_das.cc 326, 363, oct_das.cc 470, 507, py_das.hpp 209,
jl_das.hpp 214; rect_sir: mex_rect_sir.cc 113, oct_rect_sir.cc 227; the others e.g.
extra_src/mex_conv_p.cc 275-285; none in py_fftconv_p.hpp. -/
def Fn.catches (fe : FrontEnd) : Fn → List Sig
  | .sir _ => [.int]
  | .arr _ => [.int]
  | .annu => if fe = .matlab ∨ fe = .octave then [] else [.int]
  | .das => [.abrt]
  | .rectSir => [.abrt]
  | .fftconv => if fe = .python then [] else [.term, .abrt, .int]
  | _ => [.term, .abrt, .int]

/-- Whether the previous handlers are put back before the result is looked at: e.g.
extra_src/mex_conv_p.cc 346-356, oct_circ_sir.cc 411-421, jl_conv_p.cc 271-281. -/
def Fn.restores : Fn → Bool
  | .sir _ => false
  | .arr _ => false
  | .annu => false
  | .das => false
  | .rectSir => false
  | _ => true

/-- Wrappers that check the in-place argument or the wisdom after the handlers are installed:
extra_src/mex_fftconv_p.cc 387-440, oct_fftconv_p.cc 446-505, mex_sum_fftconv.cc 325-378,
oct_sum_fftconv.cc 431-493, mex_fftconv_ola.cc 500-552, oct_fftconv_ola.cc 564-622,
oct_conv_p.cc 284-326. -/
def Fn.checksLate (fe : FrontEnd) : Fn → Bool
  | .fftconv => decide (fe = .matlab ∨ fe = .octave)
  | .sum => decide (fe = .matlab ∨ fe = .octave)
  | .ola => decide (fe = .matlab ∨ fe = .octave)
  | .conv => decide (fe = .octave)
  | _ => false

/-- Whether a call whose run flag is down at the end raises an error, so that nothing is returned:
`error`, `mexErrMsgTxt` or an exception (mex/mex_dreamrect.cc 126-133, oct_dreamrect.cc 251-260,
py_dreamrect.cc 146-154, mex_conv_p.cc 358-360, oct_fftconv_p.cc 588-591, oct_fftconv_ola.cc 700-703,
oct_copy_p.cc 356-359, oct_add_p.cc 358-361).  Otherwise at most a message is printed and the matrix
is returned: oct_conv_p.cc 402-405 (the matrix is in `oct_retval` since 305), oct_sum_fftconv.cc
567-570, oct_circ_sir.cc 423-427, oct_scirc_sir.cc 440-444, oct_rect_sir.cc 249-251, jl_conv_p.cc
271-283, jl_fftconv_p.cc 334-346 and py_fftconv_p.hpp (the flag is not looked at). -/
def Fn.raises (fe : FrontEnd) (f : Fn) : Bool :=
  match fe, f with
  | .matlab, _ => true
  | .octave, .conv => false
  | .octave, .sum => false
  | .octave, .circSir => false
  | .octave, .scircSir => false
  | .octave, .rectSir => false
  | .octave, _ => true
  | .python, .fftconv => false
  | .python, _ => true
  | .julia, .conv => false
  | .julia, .fftconv => false
  | .julia, _ => true

/-- What a wrapper reports: `running` is the run flag when it looks at it. -/
def Fn.report (fe : FrontEnd) (f : Fn) (running : Bool) (err : SIRError) : UserOutcome :=
  if f.raises fe then wrapper running err
  else if err = .warnOutOfBounds then .valueWithWarning else .value

/-! ### The main thread -/

/-- What the main thread does: `old = std::signal(s, handler)`, `running = true`, create the workers
and wait for them, `std::signal(s, old)`, `if (!running) ...`. -/
inductive Step
  | install (s : Sig)
  | start
  | work
  | restore (s : Sig)
  | report
  deriving DecidableEq, Repr

/-- How far a call gets: refused before the handlers are installed, refused after that (if the wrapper
has checks there), or computed. -/
inductive Entry
  | refused | refusedLate | started
  deriving DecidableEq, Repr

/-- The steps of a call.  `das` raises the flag before it installs the handler
(extra_src/mex_das.cc 360-363). -/
def Fn.script (fe : FrontEnd) (f : Fn) : Entry → List Step
  | .refused => []
  | .refusedLate => if f.checksLate fe then (f.catches fe).map .install else []
  | .started =>
    if f = .das then [.start, .install .abrt, .work, .report]
    else (f.catches fe).map .install ++ [.start, .work] ++
      (if f.restores then (f.catches fe).map .restore else []) ++ [.report]

/-- The process: the handler of each signal (`none`: the one of the host program), the run flag of
each function, and the signals that reached the handlers of the host. -/
structure Proc where
  handler : Sig → Option Fn
  flag : Fn → Bool
  host : List Sig

/-- A signal arrives.  `Rect::abort`, src/dreamrect.cc 40-43; `sighandler`, extra_src/mex_conv_p.cc
112-115. -/
def Proc.deliver (p : Proc) (s : Sig) : Proc :=
  match p.handler s with
  | none => { p with host := p.host ++ [s] }
  | some f => { p with flag := Function.update p.flag f false }

/-- What can happen next while a call is under way: the main thread takes its next step, worker `w`
takes one, a signal arrives. -/
inductive Ev
  | main
  | worker (w : Nat)
  | sig (s : Sig)
  deriving DecidableEq, Repr

/-- A call under way: what the main thread still has to do, the handlers it has saved, what has
happened to the workers and the run flag since `running = true` (a schedule in the sense of `Sched`),
and the same when the result was looked at. -/
structure Live where
  p : Proc
  todo : List Step
  old : Sig → Option Fn
  acts : Option (List Act)
  seen : Option (List Act)

/-- One event during a call of `f`. -/
def Live.step (f : Fn) (c : Live) : Ev → Live
  | .sig s =>
    { c with
      p := c.p.deliver s
      acts := if c.p.handler s = some f then c.acts.map (· ++ [.abort]) else c.acts }
  | .worker w =>
    if c.todo.head? = some .work then { c with acts := c.acts.map (· ++ [.step w]) } else c
  | .main =>
    match c.todo with
    | [] => c
    | .install s :: r =>
      { c with
        todo := r
        old := Function.update c.old s (c.p.handler s)
        p := { c.p with handler := Function.update c.p.handler s (some f) } }
    | .start :: r =>
      { c with
        todo := r
        p := { c.p with flag := Function.update c.p.flag f true }
        acts := some [] }
    | .work :: r => { c with todo := r }
    | .restore s :: r =>
      { c with
        todo := r
        p := { c.p with handler := Function.update c.p.handler s (c.old s) } }
    | .report :: r => { c with todo := r, seen := c.acts }

/-- A call of `f` in process `p`, as far as the events `evs` go. -/
def Fn.call (fe : FrontEnd) (f : Fn) (x : Entry) (p : Proc) (evs : List Ev) : Live :=
  evs.foldl (Live.step f) ⟨p, f.script fe x, fun _ => none, none, none⟩

/-- A session: signals between calls, and calls that have returned. -/
inductive Session (fe : FrontEnd) (p : Proc) : Proc → Prop
  | here : Session fe p p
  | idle {q : Proc} (s : Sig) : Session fe p q → Session fe p (q.deliver s)
  | call {q : Proc} (f : Fn) (x : Entry) (evs : List Ev) : Session fe p q → f.offered fe = true →
      (f.call fe x q evs).todo = [] → Session fe p (f.call fe x q evs).p

/-- A process that has not called the library yet. -/
def Proc.Fresh (p : Proc) : Prop := ∀ s, p.handler s = none

end Dream
