import Verif.Prog

/-
The FFT wrapper classes of include/fft.h.  FFTW itself is not modelled: its one dimensional
real-to-complex and complex-to-real transforms, and the arithmetic of std::complex, are the
operations of an uninterpreted interface `FFTLib`.  What is modelled of FFTW is its memory
interface: r2c writes the first N/2+1 coefficients only, c2r reads the first N/2+1 only, a plan of
length 0 is a null pointer.  `exactLib` (module `ExactFft`) is the exact transform.
-/

namespace Dream
open Arith

/-- Interface to FFTW and std::complex: complex numbers are pairs. -/
structure FFTLib (F : Type) where
  /-- `fftw_execute_dft_r2c` of length `N`: coefficient `k ≤ N/2` -/
  r2c : Nat → (Nat → F) → Nat → F × F
  /-- `fftw_execute_dft_c2r` of length `N` (not normalised): sample `i < N` -/
  c2r : Nat → (Nat → F × F) → Nat → F
  /-- complex product -/
  cmul : F × F → F × F → F × F
  /-- complex sum -/
  cadd : F × F → F × F → F × F
  /-- complex number divided by a real number -/
  cdivr : F × F → F → F × F

variable {F : Type} [Arith F]

/-- `FFT::fft`, include/fft.h 158-160. -/
def FFTLib.fft (L : FFTLib F) (N : Nat) (x : Buf F) (yc : Buf (F × F)) : Outcome (Buf (F × F)) :=
  if N = 0 then .ub .null
  else if N ≤ x.size ∧ N / 2 + 1 ≤ yc.size then
    .ok ⟨yc.size, fun k => if k ≤ N / 2 then
      L.r2c N (fun i => if i < N then x.data i else lit 0) k else yc.data k⟩
  else .ub .oob

/-- `FFT::ifft`, include/fft.h 162-169: the inverse transform and the division of every sample by
the length.  FFTW may overwrite the input `xc`; no caller uses it afterwards. -/
def FFTLib.ifft (L : FFTLib F) (N : Nat) (xc : Buf (F × F)) (y : Buf F) : Outcome (Buf F) :=
  if N = 0 then .ub .null
  else if N / 2 + 1 ≤ xc.size ∧ N ≤ y.size then
    .ok ⟨y.size, fun i => if i < N then
      L.c2r N (fun k => if k ≤ N / 2 then xc.data k else (lit 0, lit 0)) i /. ofInt N
      else y.data i⟩
  else .ub .oob

theorem FFTLib.fft_ok (L : FFTLib F) (N : Nat) (x : Buf F) (yc : Buf (F × F)) (h : 1 ≤ N)
    (hx : N ≤ x.size) (hy : N ≤ yc.size) :
    ∃ yc', L.fft N x yc = .ok yc' ∧ yc'.size = yc.size ∧ ∀ k, k ≤ N / 2 →
      yc'.data k = L.r2c N (fun i => if i < N then x.data i else lit 0) k := by
  unfold FFTLib.fft
  rw [if_neg (by omega), if_pos (by omega)]
  exact ⟨_, rfl, rfl, fun k hk => if_pos hk⟩

theorem FFTLib.ifft_ok (L : FFTLib F) (N : Nat) (xc : Buf (F × F)) (y : Buf F) (h : 1 ≤ N)
    (hx : N ≤ xc.size) (hy : N ≤ y.size) :
    ∃ y', L.ifft N xc y = .ok y' ∧ y'.size = y.size ∧ ∀ i, i < N →
      y'.data i = L.c2r N (fun k => if k ≤ N / 2 then xc.data k else (lit 0, lit 0)) i /. ofInt N := by
  unfold FFTLib.ifft
  rw [if_neg (by omega), if_pos (by omega)]
  exact ⟨_, rfl, rfl, fun k hk => if_pos hk⟩

end Dream
