import Verif.MachConv
import Verif.Ola

/-
Machine integers in fftconv_ola: extra_src/mex_fftconv_ola.cc (the Octave version has the same worker).
-/

namespace Dream
open Arith

variable {F : Type} [Arith F]

/-- A number of entries of eight bytes handed to memcpy or memset as a number of bytes of type `size_t`,
extra_src/mex_fftconv_ola.cc 157, 160, 226, 229. -/
def machEntries (n : Nat) : Nat := n * 8 % 2 ^ 64 / 8

namespace OlaCall

/-- `B_M` after "B is a vector", extra_src/mex_fftconv_ola.cc 343-346. -/
def machRows (C : OlaCall F) (ty : IdxTy) : Outcome Nat :=
  if C.bM = 1 ∨ C.bN = 1 then ty.norm (C.bM * C.bN) else .ok C.bM

/-- `block_len + B_M - 1`, extra_src/mex_fftconv_ola.cc 93, 359. -/
def machFft (C : OlaCall F) (ty : IdxTy) (r : Nat) : Outcome Nat := (ty.norm (C.bl + r)).bind ty.pred

/-- `A_M+B_M-1`, extra_src/mex_fftconv_ola.cc 173-178, 242-247. -/
def machLen (C : OlaCall F) (ty : IdxTy) (r : Nat) : Outcome Nat := (ty.norm (C.aM + r)).bind ty.pred

/-- `Bp[i]`: `Bp` starts as `&B[0+n*B_M]` with `n = col_start` and is advanced by `B_M` (exactly) after every column,
extra_src/mex_fftconv_ola.cc 127, 189; `B[i]` for a vector. -/
def machRdB (C : OlaCall F) (ty : IdxTy) (r start n i : Nat) : Outcome F :=
  if 1 < C.bCols then (ty.norm (start * r)).bind fun o => C.B.read ((i + (o + (n - start) * r) : Nat) : Int)
  else C.B.read (i : Int)

/-- First argument of `fftconv` for the block at `k`, extra_src/mex_fftconv_ola.cc 143-166, 213-235. -/
def machBlockSrc (C : OlaCall F) (ty : IdxTy) (n k ap : Nat) : Outcome (Nat → Outcome F) :=
  (ty.norm (k + C.bl)).bind fun q =>
  if q < C.aM then .ok fun i => C.A.read ((ap + i : Nat) : Int)
  else
    (ty.norm (n * C.aM)).bind fun o => (ty.norm (k + o)).bind fun s =>
    (forO (fun (i : Nat) a => (C.A.read ((s + i : Nat) : Int)).bind fun v => a.write (i : Int) v)
      (machEntries (C.aM - k)) 0 (C.ab n k)).bind fun a =>
    (forO (fun (i : Nat) a => a.write (i : Int) (lit 0)) (machEntries (C.bl - (C.aM - k))) (C.aM - k) a).bind fun a =>
    .ok fun i => a.read (i : Int)

/-- One block, with the transforms that FFTW was asked for (`fl` is `fft_len`). -/
def machBlockY (C : OlaCall F) (ty : IdxTy) (r fl start n k ap : Nat) (y : Buf F) : Outcome (Buf F) :=
  (C.machBlockSrc ty n k ap).bind fun src =>
  (fftconvLocalI C.L src (C.machRdB ty r start n) C.bl r (C.S n k)).bind fun c =>
  forO (fun (i : Nat) y => (c.read (i : Int)).bind fun v => (y.read (i : Int)).bind fun z =>
    y.write (i : Int) (storeVal C.mode z v)) fl 0 y

/-- "Add the overlap" to `Y[k+l + n*(A_M+B_M-1)]`, extra_src/mex_fftconv_ola.cc 171-179, 240-248; addresses are relative
to column `n` of the result (`N` is `A_M+B_M-1`). -/
def machOverlap (C : OlaCall F) (ty : IdxTy) (fl N n k : Nat) (y : Buf F) : Prog F Unit :=
  (Prog.lift (ty.norm (k + fl))).bind fun q =>
  Prog.forN (fun l _ =>
    (Prog.lift (y.read (l : Int))).bind fun v =>
    (Prog.lift (ty.norm (k + l))).bind fun i => (Prog.lift (ty.norm (n * N))).bind fun o =>
    (Prog.lift (ty.norm (i + o))).bind fun j =>
    .rd ((j : Int) - ((n * C.len : Nat) : Int)) fun z => .wr ((j : Int) - ((n * C.len : Nat) : Int)) (z +. v) (.ret ()))
    (if q < N then fl else N - k) 0 ()

/-- `while (k < A_M)`, extra_src/mex_fftconv_ola.cc 135-182, 206-251. -/
def machLoop (C : OlaCall F) (ty : IdxTy) (r fl N start n : Nat) : (fuel k ap : Nat) → Buf F → Prog F Unit
  | 0, k, _, _ => if k < C.aM then .spin else .ret ()
  | fuel + 1, k, ap, y =>
    if k < C.aM then
      (Prog.lift (C.machBlockY ty r fl start n k ap y)).bind fun y =>
      (C.machOverlap ty fl N n k y).bind fun _ =>
      (Prog.lift (ty.norm (k + C.bl))).bind fun k' =>
      C.machLoop ty r fl N start n fuel k' (ap + if k' < C.aM then C.bl else C.aM - k) y
    else .ret ()

/-- The index `Ap` points at: `&A[0+n*A_M]` for the first column of a worker, then advanced (exactly),
extra_src/mex_fftconv_ola.cc 126, 198, 168, 237, 259. -/
def machApAt (C : OlaCall F) (ty : IdxTy) (start : Nat) : Nat → Outcome Nat
  | 0 => ty.norm (start * C.aM)
  | i + 1 => (C.machApAt ty start i).map fun a => a + olaAdv C.aM C.bl C.aM 0 + if 1 < C.bCols then 0 else C.aM

/-- Work for column `n` with machine integers, in the worker whose range starts at `start`,
extra_src/mex_fftconv_ola.cc 83-268. -/
def machProg (C : OlaCall F) (ty : IdxTy) (start n : Nat) : Prog F SIRError :=
  (Prog.lift (C.machRows ty)).bind fun r =>
  (Prog.lift (C.machFft ty r)).bind fun fl =>
  (Prog.lift (C.machLen ty r)).bind fun N =>
  (Prog.lift (C.machApAt ty start (n - start))).bind fun ap =>
  (C.machLoop ty r fl N start n C.aM 0 ap (C.y0 n)).bind fun _ => .ret .none

/-- What the `nth` workers run, with machine integers. -/
def machTask (C : OlaCall F) (ty : IdxTy) (nth : Nat) : Task F (Prog F SIRError) where
  begin := fun n => .ok (C.machProg ty (startOf C.aN nth n) n)
  micro := fun n l m => l.eff.onBuf (n * C.len) m

end OlaCall

end Dream
