import Verif.Whole
import Verif.ClaimsAnnu
import Verif.DasFront

/-
Whole calls of the annular array function and of `das`, as in Verif/Whole.lean.
-/

namespace Dream
open Arith

variable {F : Type} [Arith F]

/-- The driver call of an accepted call of dream_arr_annu; `fuel` bounds the passes of the sampling loops of
the discs. -/
def AnnuFront.call (c : AnnuFront F) (fuel : Nat) : AnnuCall F where
  A := c.A
  p := c.p
  att := c.att
  nt := c.nt
  ty := c.ty
  level := c.level
  No := c.No
  Ro := c.Ro
  delayType := c.delayType
  delay := c.delay
  fuel := fuel

/-- A call of dream_arr_annu: argument checks, then the driver on a zeroed `nt` by `No` matrix
(mex/mex_dream_arr_annu.cc 134-178, oct/oct_dream_arr_annu.cc 286-337, python/src/py_dream_arr_annu.cc
159-199, julia/src/jl_dream_arr_annu.cc 149-190); it ends like the other array functions.  `called`: what may
be seen when the loops of the discs may make any large enough number of passes. -/
inductive AnnuSees (X : FFTLib F) (fe : FrontEnd) (x : AnnuArgs F) (two : Bool) (hw : Nat)
    (env : Option String) : Seen F → Prop
  | refused (b : Bool) (h : frontAnnu X fe x = .ok (.rejected b)) :
      AnnuSees X fe x two hw env (.refused b)
  | undefined (h : ∀ r, frontAnnu X fe x ≠ .ok r) : AnnuSees X fe x two hw env .undefined
  | called (c : AnnuFront F) (h : frontAnnu X fe x = .ok (.call c)) (o : Seen F) (N : Nat)
      (hs : ∀ fuel, N ≤ fuel → (c.call fuel).drv.Sees (arrTail fe two) c.ty.cnt hw env
        ⟨c.No * c.nt, fun _ => lit 0⟩ o) :
      AnnuSees X fe x two hw env o

/-- The image is a column of `No` numbers; the model of the driver has `No` columns of one number. -/
def Seen.transpose : Seen F → Seen F
  | .matrix w s r c h => .matrix w s c r (fun i n => h n i)
  | o => o

/-- A call of `das` on the CPU after any session of calls: extra_src/mex_das.cc 372-431, oct_das.cc 507-590,
python/include/py_das.hpp 206-246, julia/include/jl_das.hpp 210-250.  The image memory holds anything before
the call (zeros in MATLAB).  Calls on the GPU are not described.  In Python and Julia the text of the exception
is "CTRL-C pressed!" in any case; the message printed before is the one that `Seen.failed` tells. -/
inductive DasSees (fe : FrontEnd) (opencl : Bool) (hist : List (Bool × DasArgs F)) (e : Bool × DasArgs F)
    (two : Bool) (hw : Nat) (env : Option String) : Seen F → Prop
  | refused (b : Bool) (h : (dasCall fe opencl (dasSession fe opencl hist) e).2 = .ok (.rejected b)) :
      DasSees fe opencl hist e two hw env (.refused b)
  | undefined (h : ∀ r, (dasCall fe opencl (dasSession fe opencl hist) e).2 ≠ .ok r) :
      DasSees fe opencl hist e two hw env .undefined
  | called (C : DasCall F) (h : (dasCall fe opencl (dasSession fe opencl hist) e).2 = .ok (.cpu C))
      (Im : Buf F) (hIm : Im.size = C.No) (o : Seen F)
      (hs : C.drv.Sees (arrTail fe two) C.ty.cnt hw env Im o) :
      DasSees fe opencl hist e two hw env o.transpose

end Dream
