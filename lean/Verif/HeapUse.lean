import Verif.Sched

/-
Heap memory during a call and over a session: which blocks the functions allocate and give back, for every pattern of
failing allocations.  Contents are not modelled here; the threads of a driver are run one after the other (their blocks
are their own, so the blocks left at the end do not depend on the order).
-/

namespace Dream

/-- What is allocated. -/
inductive Blk where
  /-- `malloc(nthreads*sizeof(DATA))` -/
  | jobs (n : Nat)
  /-- `new std::thread[nthreads]` -/
  | threads (n : Nat)
  /-- what the library needs for a started thread; released when the thread has ended -/
  | state
  /-- an object of `std::make_unique` -/
  | obj
  /-- `std::make_unique<double[]>(n)` -/
  | doubles (n : Nat)
  /-- `fftw_malloc` of `n` real numbers -/
  | vec (n : Nat)
  /-- `fftw_malloc` of `n` complex numbers -/
  | cvec (n : Nat)
  /-- a plan of FFTW for length `n` -/
  | plan (n : Nat)
  /-- the string of `fftw_export_wisdom_to_string` -/
  | wisdom
  /-- `malloc(H_L*sizeof(double*))` of sum_fftconv -/
  | filters (n : Nat)
  /-- the buffer of superpos_annular -/
  | shift (n : Nat)
  deriving DecidableEq, Repr

/-- Live blocks with their addresses; `next` counts the requests so far. -/
structure Heap where
  next : Nat
  live : List (Nat × Blk)

/-- How a piece of code ends. -/
inductive Ending (α : Type) where
  | ok (a : α)
  /-- an exception, or an error raised by the interpreter -/
  | thrown
  /-- a write through a null pointer: undefined behaviour -/
  | null
  /-- a block is given back that is not live: undefined behaviour -/
  | badFree
  /-- an exception leaves a thread: `std::terminate` ends the process -/
  | killed
  deriving DecidableEq

/-- Code that uses the heap; the first argument says which requests are granted. -/
def HM (α : Type) := (Nat → Bool) → Heap → Ending α × Heap

namespace HM
variable {α β : Type}

def pure (a : α) : HM α := fun _ h => (.ok a, h)

def bind (m : HM α) (f : α → HM β) : HM β := fun o h =>
  match m o h with
  | (.ok a, h') => f a o h'
  | (.thrown, h') => (.thrown, h')
  | (.null, h') => (.null, h')
  | (.badFree, h') => (.badFree, h')
  | (.killed, h') => (.killed, h')

/-- A request: the address, or null. -/
def malloc (b : Blk) : HM (Option Nat) := fun o h =>
  if o h.next then (.ok (some h.next), ⟨h.next + 1, (h.next, b) :: h.live⟩)
  else (.ok none, ⟨h.next + 1, h.live⟩)

def throw : HM α := fun _ h => (.thrown, h)

/-- `new`: an exception if the request is refused. -/
def new (b : Blk) : HM Nat := (malloc b).bind fun p =>
  match p with
  | some p => pure p
  | none => throw

/-- `free`; null is allowed. -/
def free (p : Option Nat) : HM Unit := fun _ h =>
  match p with
  | none => (.ok (), h)
  | some p =>
    if h.live.any (fun q => q.1 == p) then (.ok (), ⟨h.next, h.live.filter fun q => q.1 != p⟩)
    else (.badFree, h)

/-- First use of memory that was requested. -/
def use (p : Option Nat) : HM Unit := fun _ h =>
  match p with
  | none => (.null, h)
  | some _ => (.ok (), h)

/-- A local object: its memory is given back when the block is left, also by an exception. -/
def local_ (p : Option Nat) (m : HM α) : HM α := fun o h =>
  match m o h with
  | (.ok a, h') => ((free p).bind fun _ => pure a) o h'
  | (.thrown, h') => ((free p).bind fun _ => throw) o h'
  | (.null, h') => (.null, h')
  | (.badFree, h') => (.badFree, h')
  | (.killed, h') => (.killed, h')

/-- A loop. -/
def forN (f : Nat → HM Unit) : (cnt i : Nat) → HM Unit
  | 0, _ => pure ()
  | c + 1, i => (f i).bind fun _ => forN f c (i + 1)

/-- Local vectors of `fftw_malloc` (`FFTVec`, `FFTCVec`, include/fft.h 44-57, 79-92). -/
def vectors : List Blk → HM α → HM α
  | [], m => m
  | b :: l, m => (malloc b).bind fun p => local_ p (vectors l m)

/-- Local objects of `make_unique`. -/
def uniques : List Blk → HM α → HM α
  | [], m => m
  | b :: l, m => (new b).bind fun p => local_ (some p) (uniques l m)

end HM

open HM

/-- The length given to the planner: `(int) fft_len`; FFTW makes no plan for a length below 1. -/
def planOk (len : Nat) : Bool := decide (1 ≤ len % 2 ^ 32 ∧ len % 2 ^ 32 < 2 ^ 31)

/-- The constructor of `FFT`: two local vectors and two plans; the destructor `~FFT() = default` does not destroy
the plans, include/fft.h 106-156. -/
def fftPlans (len : Nat) : HM Unit :=
  vectors [.vec len, .cvec len] <|
    if planOk len then (malloc (.plan len)).bind fun _ => (malloc (.plan len)).bind fun _ => pure () else pure ()

/-- The life of an `Attenuation` object (include/attenuation.h 36-42): one `FFT` object with `make_unique`. -/
def withAttenuation {α : Type} (nt : Nat) (m : HM α) : HM α :=
  uniques [.obj] ((fftPlans nt).bind fun _ => m)

/-- Code that runs in a thread. -/
def inThread (m : HM Unit) : HM Unit := fun o h =>
  match m o h with
  | (.thrown, h') => (.killed, h')
  | r => r

/-- One pass of the loop that starts the workers: with two workers or more a thread is started, otherwise the
work is done here (src/dreamrect.cc 242-249). -/
def startWorker (threaded : Bool) (worker : HM Unit) : HM Unit :=
  if threaded then uniques [.state] (inThread worker) else worker

/-- What is done about a null pointer for the jobs. -/
inductive NullCheck where
  /-- nothing -/
  | no
  /-- an error -/
  | error
  deriving DecidableEq

/-- Allocation of the jobs and of the thread objects, the workers, and `free(D)`: src/dreamrect.cc 213-269.
`threadsFirst` for fftconv_ola (extra_src/mex_fftconv_ola.cc 555-565, oct_fftconv_ola.cc 626-638).  The array of thread
objects is never deleted. -/
def driverMem (chk : NullCheck) (threadsFirst always : Bool) (nth : Nat) (worker : HM Unit) : HM Unit :=
  (if threadsFirst then (new (.threads nth)).bind fun _ => malloc (.jobs nth) else malloc (.jobs nth)).bind fun D =>
  (if chk = .error ∧ D = none then throw else pure ()).bind fun _ =>
  (if threadsFirst then pure 0 else new (.threads nth)).bind fun _ =>
  (forN (fun _ => (use D).bind fun _ => startWorker (always || decide (1 < nth)) worker) nth 0).bind fun _ =>
  free D

/-- Scratch memory of a worker with attenuation: `make_unique<FFTCVec>(nt)` and `make_unique<FFTVec>(nt)`
(src/dreamrect.cc 94-100). -/
def attScratch (att : Bool) (nt : Nat) (m : HM Unit) : HM Unit :=
  if att then uniques [.obj] (vectors [.cvec nt] (uniques [.obj] (vectors [.vec nt] m))) else m

/-- The functions of single transducers and of arrays (src/dreamrect.cc 207-271, dreamline.cc 196-259, dreamcirc.cc
211-274, dreamsphere.cc 206-270, dreamcylind.cc 208-272, dreamrect_f.cc 209-275, dreamcirc_f.cc 210-275, dream_arr_rect.cc
357-432, dream_arr_circ.cc 354-427, dream_arr_cylind.cc 360-436): the `Attenuation` object exists also without
attenuation; there is no check of the pointer. -/
def sirMem (att : Bool) (nt nth : Nat) : HM Unit :=
  withAttenuation nt (driverMem .no false false nth (attScratch att nt (pure ())))

/-- The array wrappers: focusing and apodization vectors around the call (mex/mex_dream_arr_rect.cc 108, 134,
oct/oct_dream_arr_rect.cc 270, 301, and the same lines of the other arrays). -/
def arrayMem (att : Bool) (elements nt nth : Nat) : HM Unit :=
  uniques [.doubles elements, .doubles elements] (sirMem att nt nth)

/-- One point of an annular array: three vectors (src/dream_arr_annu.cc 204-206, 289-291), and for every ring the
buffer of superpos_annular (463-479), which is used without a check if it is not empty. -/
def annuPoint (nt radii rings : Nat) : HM Unit :=
  uniques [.doubles (nt * radii), .doubles (nt * rings), .doubles rings] <|
    forN (fun _ => (malloc (.shift (2 * nt))).bind fun p =>
      (if nt = 0 then pure () else use p).bind fun _ => free p) rings 0

/-- dream_arr_annu (mex/mex_dream_arr_annu.cc 96-110, src/dream_arr_annu.cc 558-629); `points` are the points of each
worker. -/
def annuMem (att : Bool) (radii rings nt nth points : Nat) : HM Unit :=
  uniques [.doubles rings, .doubles rings] <|
  withAttenuation nt (driverMem .no false false nth
    (attScratch att nt (forN (fun _ => annuPoint nt radii rings) points 0)))

/-- dream_att: an `Attenuation` object and two vectors, no threads (mex/mex_dream_att.cc 99-101). -/
def attMem (nt : Nat) : HM Unit :=
  withAttenuation nt (vectors [.cvec nt, .vec nt] (pure ()))

/-- das (extra_src/das.cc 240-297) and rect_sir (extra_src/rect_sir.cc 178-226): one worker computes in the calling thread;
circ_sir and scirc_sir (extra_src/mex_circ_sir.cc 280-323, oct_circ_sir.cc 364-405, mex_scirc_sir.cc 295-338,
oct_scirc_sir.cc 379-422): `always` a thread. -/
def plainMem (always : Bool) (nth : Nat) : HM Unit := driverMem .no false always nth (pure ())

/-- conv_p (extra_src/mex_conv_p.cc 294-341, oct_conv_p.cc 335-385, julia/src/jl_conv_p.cc 218-266) and, with threads
`always`, copy_p and add_p (mex_copy_p.cc 243-282, oct_copy_p.cc 297-339, oct_add_p.cc 299-341): with a check. -/
def checkedMem (always : Bool) (nth : Nat) : HM Unit := driverMem .error false always nth (pure ())

/-- Local vectors of `fftw_malloc` that are not checked (include/fft.h 44-49, 79-84) and, if `u` (they are not empty),
written by the first convolution (extra_src/fftconv.cc 52-93); every worker has a column. -/
def scratch (u : Bool) : List Blk → HM Unit → HM Unit
  | [], m => m
  | b :: l, m => (malloc b).bind fun p => local_ p (scratch u l ((if u then use p else pure ()).bind fun _ => m))

/-- The scratch vectors of a worker of fftconv_p and sum_fftconv (extra_src/mex_fftconv_p.cc 98-106, mex_sum_fftconv.cc
96-104, fftconv_p.cc 89-97, julia/src/jl_fftconv_p.cc 93-101). -/
def fftScratch (len : Nat) : List Blk := [.vec len, .vec len, .vec len, .cvec len, .cvec len, .cvec len]

/-- `get_wisdom` (include/fft.h 178-182): the string of FFTW is copied and not released. -/
def wisdomMem (asked : Bool) : HM Unit :=
  if asked then (malloc .wisdom).bind fun p => use p else pure ()

/-- CTRL-C: an error, or a message and an early return. -/
def ifPressed (pressed raises : Bool) (m : HM Unit) : HM Unit :=
  if pressed then (if raises then throw else pure ()) else m

/-- fftconv_p (extra_src/mex_fftconv_p.cc 259-530, oct_fftconv_p.cc 316-600, fftconv_p.cc 196-403,
julia/src/jl_fftconv_p.cc 244-330). -/
def fftconvMem (len nth : Nat) (asked pressed : Bool) : HM Unit :=
  (fftPlans len).bind fun _ =>
  (driverMem .error false false nth (scratch (decide (1 ≤ len)) (fftScratch len) (pure ()))).bind fun _ =>
  ifPressed pressed true (wisdomMem asked)

/-- The scratch vectors of a worker of fftconv_ola (extra_src/mex_fftconv_ola.cc 95-111, oct_fftconv_ola.cc 95-111). -/
def olaScratch (len : Nat) : List Blk :=
  [.vec len, .vec len, .vec len, .vec len, .cvec len, .cvec len, .cvec len, .vec len]

/-- fftconv_ola (extra_src/mex_fftconv_ola.cc 363-636, oct_fftconv_ola.cc 426-711): two more vectors. -/
def olaMem (len nth : Nat) (asked pressed : Bool) : HM Unit :=
  (fftPlans len).bind fun _ =>
  (driverMem .error true false nth
    (scratch (decide (1 ≤ len)) (olaScratch len) (pure ()))).bind fun _ =>
  ifPressed pressed true (wisdomMem asked)

/-- sum_fftconv (extra_src/mex_sum_fftconv.cc 217-466, oct_sum_fftconv.cc 321-582): the table of filters is not checked
and is released only after the test for CTRL-C (in MATLAB an error, in Octave a message and a return). -/
def sumMem (inputs len nth : Nat) (asked pressed raises : Bool) : HM Unit :=
  (malloc (.filters inputs)).bind fun H =>
  (forN (fun _ => use H) inputs 0).bind fun _ =>
  (fftPlans len).bind fun _ =>
  (driverMem .error false false nth (scratch (decide (1 ≤ len)) (fftScratch len) (pure ()))).bind fun _ =>
  ifPressed pressed raises ((free H).bind fun _ => wisdomMem asked)

/-- A call of fftconv_p, fftconv_ola or (`filters`) sum_fftconv that is refused after the `FFT` object was made: a bad
string, bad wisdom, an in-place result of a wrong size (extra_src/mex_fftconv_p.cc 259-430, mex_fftconv_ola.cc 363-553,
mex_sum_fftconv.cc 217-379). -/
def refusedMem (filters : Option Nat) (len : Nat) : HM Unit :=
  (match filters with
    | some n => (malloc (.filters n)).bind fun H => forN (fun _ => use H) n 0
    | none => pure ()).bind fun _ =>
  (fftPlans len).bind fun _ => throw

/-- A call that gets as far as the computation, or is refused late. -/
inductive MemCall where
  /-- a single transducer -/
  | sir (att : Bool) (nt nth : Nat)
  /-- an array of elements -/
  | array (att : Bool) (elements nt nth : Nat)
  /-- an annular array -/
  | annular (att : Bool) (radii rings nt nth points : Nat)
  | dreamAtt (nt : Nat)
  /-- das or rect_sir -/
  | das (nth : Nat)
  /-- circ_sir or scirc_sir -/
  | circ (nth : Nat)
  | conv (nth : Nat)
  /-- copy_p or add_p -/
  | copy (nth : Nat)
  | fftconv (len nth : Nat) (asked pressed : Bool)
  | ola (len nth : Nat) (asked pressed : Bool)
  | sum (inputs len nth : Nat) (asked pressed raises : Bool)
  | refused (filters : Option Nat) (len : Nat)

/-- The heap operations of a call. -/
def MemCall.run : MemCall → HM Unit
  | .sir att nt nth => sirMem att nt nth
  | .array att e nt nth => arrayMem att e nt nth
  | .annular att r e nt nth points => annuMem att r e nt nth points
  | .dreamAtt nt => attMem nt
  | .das nth => plainMem false nth
  | .circ nth => plainMem true nth
  | .conv nth => checkedMem false nth
  | .copy nth => checkedMem true nth
  | .fftconv len nth a p => fftconvMem len nth a p
  | .ola len nth a p => olaMem len nth a p
  | .sum i len nth a p r => sumMem i len nth a p r
  | .refused f len => refusedMem f len

/-- A session: one call after the other; an error ends a call, not the session. -/
def sessionMem : List MemCall → HM Unit
  | [] => pure ()
  | c :: cs => fun o h =>
    match c.run o h with
    | (.ok _, h') => sessionMem cs o h'
    | (.thrown, h') => sessionMem cs o h'
    | (.null, h') => (.null, h')
    | (.badFree, h') => (.badFree, h')
    | (.killed, h') => (.killed, h')

end Dream
