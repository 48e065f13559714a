import Verif.ArgParser
import Verif.EnvThreads
import Verif.Drv
import Verif.ClaimsEnvThreads

/-
Whole calls: from the arguments of a toolbox function to what its caller gets, through the argument
checks, the choice of the number of workers, the threaded driver and the end of the wrapper.
-/

namespace Dream
open Arith

variable {F : Type} [Arith F] {L : Type}

/-- What the caller of a function that returns a response matrix gets. -/
inductive Seen (F : Type)
  /-- the arguments are refused, with (`said`) or without a message -/
  | refused (said : Bool)
  /-- an exception of the standard library leaves the driver -/
  | thrown
  /-- undefined behaviour -/
  | undefined
  /-- the call never returns -/
  | noAnswer
  /-- an error: `oob` the message "SIR out-of-bounds!", otherwise "CTRL-C pressed!" -/
  | failed (oob : Bool)
  /-- a `rows` by `cols` matrix `h`, zero outside; `warned`: a warning has been printed; `second`: the
  second output, if the interface has one and the caller asks for it -/
  | matrix (warned : Bool) (second : Option SIRError) (rows cols : Nat) (h : Nat → Nat → F)

/-- How the code after the workers differs between the functions. -/
structure Tail where
  /-- the join loop is the one of src/dreamsphere.cc 252-262 -/
  sphere : Bool
  /-- the wrapper looks for the warning code -/
  warns : Bool
  /-- the wrapper returns the code as second output, and the caller asks for it -/
  second : Bool

/-- End of a driver and of its wrapper, src/dreamrect.cc 254-271 with mex/mex_dreamrect.cc 126-147,
oct/oct_dreamrect.cc 251-283, python/src/py_dreamrect.cc, julia/src/jl_dreamrect.cc: the codes are joined,
the run flag is looked at, the matrix is returned. -/
def Drv.result (D : Drv F L) (T : Tail) (nth : Nat) (s' : Sys F L) : Seen F :=
  let err := if T.sphere then returnedSphere nth s' else returned nth s'
  match wrapper s'.running err with
  | .errOutOfBounds => .failed true
  | .errCtrlC => .failed false
  | o => .matrix (T.warns && decide (o = .valueWithWarning)) (if T.second then some err else none)
      D.len D.No (fun i n => if i < D.len ∧ n < D.No then s'.mem.data (D.base n + i) else lit 0)

/-- What the caller of the driver may get, on a machine with `hw` cores and the environment variable
`DREAM_NUM_THREADS` set to `env`, if nobody presses CTRL-C: src/dreamrect.cc 180-271.  Every schedule of
the workers is possible; a run that goes on forever, without undefined behaviour, although every worker
gets a turn again and again gives no answer. -/
inductive Drv.Sees (D : Drv F L) (T : Tail) (t : CntTy) (hw : Nat) (env : Option String) (m : Buf F) :
    Seen F → Prop
  | thrown (h : chooseThreads t hw env D.No = none) : Sees D T t hw env m .thrown
  | undefined (nth : Nat) (as : List Act) (h : chooseThreads t hw env D.No = some nth)
      (hab : Act.abort ∉ as) (hu : ∀ s', exec D.task as (initSys D.No nth m) ≠ .ok s') :
      Sees D T t hw env m .undefined
  | ran (nth : Nat) (as : List Act) (s' : Sys F L) (h : chooseThreads t hw env D.No = some nth)
      (hab : Act.abort ∉ as) (hr : D.Run nth m as s') : Sees D T t hw env m (D.result T nth s')
  | hangs (nth : Nat) (σ : Nat → Act) (h : chooseThreads t hw env D.No = some nth)
      (hab : ∀ j, σ j ≠ .abort) (fair : ∀ w, w < nth → ∀ k, ∃ j, k ≤ j ∧ σ j = .step w)
      (never : ∀ k, ∃ s', exec D.task ((List.range k).map σ) (initSys D.No nth m) = .ok s' ∧
        ¬ s'.allDone nth) : Sees D T t hw env m .noAnswer

/-- How the functions end.  The wrapper julia/src/jl_dreamcylind.cc 137-150 does not look for the warning
code, all others do; the MATLAB and Octave wrappers have a second output (`two`: the caller asks for
it). -/
def SirKind.tail (kind : SirKind) (fe : FrontEnd) (two : Bool) : Tail where
  sphere := decide (kind = .sphere)
  warns := !decide (fe = .julia ∧ kind = .cylind)
  second := two && decide (fe = .matlab ∨ fe = .octave)

/-- The array functions end like dreamrect (mex/mex_dream_arr_rect.cc 185-209 and the corresponding lines
of the others). -/
def arrTail (fe : FrontEnd) (two : Bool) : Tail where
  sphere := false
  warns := true
  second := two && decide (fe = .matlab ∨ fe = .octave)

/-- A call of a single transducer function: argument checks, then the driver on a zeroed `nt` by `No`
matrix (`SIRData hsir(h, nt, No); hsir.clear();`, mex/mex_dreamrect.cc 106-107, the same in all
wrappers). -/
inductive SirSees (X : FFTLib F) (fe : FrontEnd) (kind : SirKind) (x : SirArgs F) (two : Bool) (hw : Nat)
    (env : Option String) : Seen F → Prop
  | refused (b : Bool) (h : frontSir X fe kind x = .ok (.rejected b)) :
      SirSees X fe kind x two hw env (.refused b)
  | undefined (h : ∀ r, frontSir X fe kind x ≠ .ok r) : SirSees X fe kind x two hw env .undefined
  | called (D : SirCall F) (h : frontSir X fe kind x = .ok (.call D)) (o : Seen F)
      (hs : D.drv.Sees (kind.tail fe two) D.ty.cnt hw env ⟨D.No * D.nt, fun _ => lit 0⟩ o) :
      SirSees X fe kind x two hw env o

/-- The same for the array functions. -/
inductive ArrSees (X : FFTLib F) (fe : FrontEnd) (kind : ArrKind) (x : ArrArgs F) (two : Bool) (hw : Nat)
    (env : Option String) : Seen F → Prop
  | refused (b : Bool) (h : frontArr X fe kind x = .ok (.rejected b)) :
      ArrSees X fe kind x two hw env (.refused b)
  | undefined (h : ∀ r, frontArr X fe kind x ≠ .ok r) : ArrSees X fe kind x two hw env .undefined
  | called (D : ArrCall F) (h : frontArr X fe kind x = .ok (.call D)) (o : Seen F)
      (hs : D.drv.Sees (arrTail fe two) D.ty.cnt hw env ⟨D.No * D.nt, fun _ => lit 0⟩ o) :
      ArrSees X fe kind x two hw env o

end Dream
