import Verif.Drv
import Verif.Signals

/-
Creation of the workers: the threads are created one after the other, and the creation of a thread can
fail (`std::thread` throws `std::system_error`).  Nothing in the drivers or wrappers catches the
exception.
-/

namespace Dream
open Arith

variable {F : Type} [Arith F] {L : Type}

/-- What can happen while a driver creates its workers and waits for them: a worker takes a step or a
signal arrives (`act`); the main thread creates the next worker, src/dreamrect.cc 222-248; the
operating system refuses to create it. -/
inductive SpEv
  | act (a : Act)
  | create
  | refuse
  deriving DecidableEq

/-- The process while the workers are created: `created` workers exist (the next one has number
`created`); `gone`: an exception has left the driver. -/
structure SpSys (F L : Type) where
  sys : Sys F L
  created : Nat
  gone : Bool

/-- One event with `nth` workers to be created, src/dreamrect.cc 222-251.  A worker that does not exist
yet does not step.  When a thread is refused the exception goes through the driver (no `join`, 254-256,
is reached) and through the wrapper, where the output matrix is a local variable
(oct/oct_dreamrect.cc 218, python/src/py_dreamrect.cc 119-126): the matrix is released, i.e. from then on
an access to it is an access to memory that does not belong to the program (a block of size zero).
Simplification: in MATLAB and Julia the host releases the matrix later, at a time the library does not
control. -/
def spStep (t : Task F L) (nth : Nat) (e : SpEv) (s : SpSys F L) : Outcome (SpSys F L) :=
  match e with
  | .act .abort => .ok { s with sys := { s.sys with running := false } }
  | .act (.step w) =>
    if w < s.created then (stepWorker t w s.sys).map fun y => { s with sys := y } else .ok s
  | .create =>
    if s.gone = false ∧ s.created < nth then .ok { s with created := s.created + 1 } else .ok s
  | .refuse =>
    if s.gone = false ∧ s.created < nth then
      .ok { s with sys := { s.sys with mem := { s.sys.mem with size := 0 } }, gone := true }
    else .ok s

/-- A sequence of events. -/
def spExec (t : Task F L) (nth : Nat) : List SpEv → SpSys F L → Outcome (SpSys F L)
  | [], s => .ok s
  | e :: es, s => (spStep t nth e s).bind (spExec t nth es)

/-- The process before the first worker is created: `running = true`, src/dreamrect.cc 180, and the
ranges each worker will get, 224-225. -/
def spInit (No nth : Nat) (m : Buf F) : SpSys F L := ⟨initSys No nth m, 0, false⟩

/-- The steps of the main thread of a wrapper (`Fn.script`) in a call in which a thread is refused: it
gets as far as the creation of the workers; the handlers are not put back (they are in the functions
that do so at all only after the workers have been joined, e.g. extra_src/mex_conv_p.cc 323, 346-356). -/
def Fn.cutScript (fe : FrontEnd) (f : Fn) : List Step :=
  (f.script fe .started).takeWhile (fun a => decide (a ≠ .work))

/-- A call of `f` in process `p` in which a thread is refused, as far as the events `evs` go. -/
def Fn.cutCall (fe : FrontEnd) (f : Fn) (p : Proc) (evs : List Ev) : Live :=
  evs.foldl (Live.step f) ⟨p, f.cutScript fe, fun _ => none, none, none⟩

end Dream
