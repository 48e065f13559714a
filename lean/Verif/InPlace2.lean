import Verif.InPlace
import Verif.WholeConv

/-
In-place calls of `fftconv_ola` and `sum_fftconv` seen from the interpreter (C79).
-/

namespace Dream
open Arith

variable {F V : Type} [Arith F]

namespace Host

/-- The call fftconv_ola(a,b,bl,y,mode). -/
def olaCall (h : Host V F) (L : FFTLib F) (M : OlaScratch F) (a b : V) (bl : Nat) (mode : ConvMode) :
    OlaCall F := olaArgs L M (h.val a) (h.val b) bl mode

/-- The checks that lead to the in-place computation, extra_src/oct_fftconv_ola.cc 612-620 and the checks
before it, extra_src/mex_fftconv_ola.cc 339-357, 544-550.  Simplification: no input is stored in the
memory of the fourth argument. -/
def olaChecks (h : Host V F) (L : FFTLib F) (M : OlaScratch F) (a b y : V) (bl : Nat) (mode : ConvMode) : Prop :=
  (h.olaCall L M a b bl mode).accepted = true ∧
  (h.val y).rows = (h.olaCall L M a b bl mode).len ∧ (h.val y).cols = (h.val a).cols ∧
  h.same a y = false ∧ h.same b y = false

/-- A complete in-place call of `fftconv_ola`.  The workers write into the block of a full matrix
(extra_src/mex_fftconv_ola.cc 552); in Octave the temporary made from any other value is destroyed at
the end of the block in extra_src/oct_fftconv_ola.cc 610-624, before the workers start. -/
def OlaRun (h : Host V F) (L : FFTLib F) (M : OlaScratch F) (a b y : V) (bl : Nat) (mode : ConvMode) (nth : Nat)
    (as : List Act) (h' : Host V F) : Prop :=
  h.olaChecks L M a b y bl mode ∧
  match h.env y with
  | .full p => ∃ s', ((h.olaCall L M a b bl mode).drv nth).Run nth (h.mem p).buf as s' ∧
      h' = h.poke p s'.mem.data
  | .other m => ∃ s', ((h.olaCall L M a b bl mode).drv nth).Run nth ⟨0, m.data⟩ as s' ∧ h' = h

/-- The call sum_fftconv(H,u,y): the three-dimensional array `H`, with `n` columns and `l` pages, is
stored like a matrix with `n*l` columns. -/
def sumCall (h : Host V F) (L : FFTLib F) (M : SumScratch F) (H u : V) (n l : Nat) (mode : ConvMode) :
    SumCall F := sumArgs L M (h.val H).rows n l (h.val H).data (h.val u) mode

/-- The checks that lead to the in-place computation, extra_src/oct_sum_fftconv.cc 331-341, 478-486,
extra_src/mex_sum_fftconv.cc 228-230, 368-372.  Simplification: no input is stored in the memory of the third
argument. -/
def sumChecks (h : Host V F) (L : FFTLib F) (M : SumScratch F) (H u y : V) (n l : Nat) (mode : ConvMode) : Prop :=
  (h.sumCall L M H u n l mode).accepted = true ∧ (h.val H).cols = n * l ∧
  (h.val y).rows = (h.sumCall L M H u n l mode).len ∧ (h.val y).cols = n ∧
  h.same H y = false ∧ h.same u y = false

/-- A complete in-place call of `sum_fftconv`; `mode` is `+=` in Octave (extra_src/oct_sum_fftconv.cc 476) and
`=` in MATLAB (extra_src/mex_sum_fftconv.cc 170), where `Y` is the third argument itself (374).  In Octave
`Ytmp` is destroyed at the end of the block in lines 474-490. -/
def SumRun (h : Host V F) (L : FFTLib F) (M : SumScratch F) (H u y : V) (n l : Nat) (mode : ConvMode) (nth : Nat)
    (as : List Act) (h' : Host V F) : Prop :=
  h.sumChecks L M H u y n l mode ∧
  match h.env y with
  | .full p => ∃ s', (h.sumCall L M H u n l mode).drv.Run nth (h.mem p).buf as s' ∧ h' = h.poke p s'.mem.data
  | .other m => ∃ s', (h.sumCall L M H u n l mode).drv.Run nth ⟨0, m.data⟩ as s' ∧ h' = h

end Host
end Dream
