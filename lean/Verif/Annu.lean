import Verif.Prog
import Verif.Driver
import Verif.Arr

/-
Annular arrays: src/dream_arr_annu.cc.
-/

namespace Dream
open Arith

variable {F : Type} [Arith F]

/-- Arguments of an annular array: the radii, focusing and apodization. -/
structure AnnuPar (F : Type) where
  numRadii : Nat
  Gr : Buf F
  focMet : FocusMet
  focal : Buf F
  doApod : Bool
  apod : Buf F
  apodMet : ApodMet
  apodPar : F

/-- `num_elements = (num_radii+1)/2`, src/dream_arr_annu.cc 200. -/
def AnnuPar.numElements (A : AnnuPar F) : Nat := (A.numRadii + 1) / 2

/-- `std::numeric_limits<double>::epsilon()` -/
def epsilon : F := lit (1 / 2 ^ 52)

/-- One pass of the disc loop, src/dream_arr_annu.cc 224-241 (lossy: 307-325): the response of the
full disc with radius `Gr[n]` goes to `&h_disc[n*nt]`; a first radius of zero gives a zero
response.  The state is `h_disc` and `err`. -/
def annuDisc (A : AnnuPar F) (nt : Nat) (ty : IdxTy) (level : ErrorLevel)
    (att : Option (AttResp F)) (p : Par F) (xo yo zo : F) (fuel : Nat) (n : Nat)
    (s : Buf F × SIRError) : Outcome (Buf F × SIRError) :=
  (A.Gr.read (n : Int)).bind fun R =>
  if n = 0 ∧ le R epsilon then (clearCol 0 nt s.1).map fun h => (h, s.2)
  else dreamcircSerial nt ty level att p (lit 1) xo yo zo R fuel (n * nt) s.1

/-- The disc loop with `k` radii to go; it returns early when out of bounds (`Bool`). -/
def annuDiscs (A : AnnuPar F) (nt : Nat) (ty : IdxTy) (level : ErrorLevel)
    (att : Option (AttResp F)) (p : Par F) (xo yo zo : F) (fuel : Nat) :
    (k n : Nat) → Buf F × SIRError → Outcome (Buf F × SIRError)
  | 0, _, s => .ok s
  | k + 1, n, s =>
    (annuDisc A nt ty level att p xo yo zo fuel n s).bind fun s' =>
      if s'.2 = .outOfBounds then .ok s'
      else annuDiscs A nt ty level att p xo yo zo fuel k (n + 1) s'

/-- `annular_disc_radii`, src/dream_arr_annu.cc 361-368.  The loop
`for (n=2, ns=1; n<num_radii; n += 2, ns++)` runs for `ns = 1, 2, ...` with `n = 2*ns`, that is
`(num_radii-1)/2` times. -/
def annularDiscRadii (A : AnnuPar F) (ring : Buf F) : Outcome (Buf F) :=
  (ring.write 0 (lit 0)).bind fun ring =>
  forO (fun ns ring =>
    (A.Gr.read ((2 * ns : Nat) : Int)).bind fun g2 =>
    (A.Gr.read ((2 * ns : Nat) - 1 : Int)).bind fun g1 =>
    ring.write (ns : Int) ((g2 +. g1) /. lit 2)) ((A.numRadii - 1) / 2) 1 ring

/-- `focusing_annular`, src/dream_arr_annu.cc 376-405. -/
def focusingAnnular (met : FocusMet) (focal r rmax cp : F) : F :=
  match met with
  | .x | .y | .xy | .x_y =>
    (sqrt (rmax *. rmax +. focal *. focal) -. sqrt (r *. r +. focal *. focal)) *. lit 1000 /. cp
  | .ud => focal
  | _ => lit 0

/-- `apodization_annular`, src/dream_arr_annu.cc 413-449; hann and hamming are not handled and
give weight 1. -/
def apodizationAnnular (met : ApodMet) (n : Nat) (vec : Buf F) (r rmax par : F) : Outcome F :=
  match met with
  | .ud => vec.read (n : Int)
  | .triangle => .ok (lit 1 -. abs r /. rmax)
  | .gauss => .ok (exp (neg (par *. r *. r) /. (rmax *. rmax)))
  | .raisedCosine => .ok (par +. cos (r *. pi /. rmax))
  | .simplySupported => .ok (lit 1 -. r *. r /. (rmax *. rmax))
  | .clamped =>
    .ok ((lit 1 -. r *. r /. (rmax *. rmax)) *. (lit 1 -. r *. r /. (rmax *. rmax)))
  | _ => .ok (lit 1)

/-- `resp_annular`, src/dream_arr_annu.cc 491-506. -/
def respAnnular (hdisc hring : Buf F) (nt n : Nat) : Outcome (Buf F) :=
  let k := 2 * n
  if k = 0 then
    forO (fun i hring => (hdisc.read (i : Int)).bind fun x =>
      hring.write ((n * nt + i : Nat) : Int) x) nt 0 hring
  else
    forO (fun i hring => (hdisc.read ((k * nt + i : Nat) : Int)).bind fun x =>
      (hdisc.read (((k - 1) * nt + i : Nat) : Int)).bind fun y =>
      hring.write ((n * nt + i : Nat) : Int) (x -. y)) nt 0 hring

/-- The shifted copy `buf` of the ring response in `superpos_annular`,
src/dream_arr_annu.cc 463-473.  `dream_idx_type` overflow of the sum `rint(..) + 1` is not
modelled (the index is an unbounded integer). -/
def shiftedRing (ty : IdxTy) (hring : Buf F) (nt : Nat) (foc dt : F) (n : Nat) :
    Outcome (Buf F) :=
  (castIdx ty (rint (foc /. dt))).bind fun q =>
  let delayIdx := q + 1
  forO (fun i buf =>
    if delayIdx < (nt : Int) then
      (hring.read ((i + n * nt : Nat) : Int)).bind fun x => buf.write ((i : Int) + delayIdx) x
    else .ok buf) nt 0 { size := 2 * nt, data := fun _ => lit 0 }

/-- `superpos_annular`, src/dream_arr_annu.cc 460-482: `h[i] += weight * buf[i]`. -/
def superposAnnular (ty : IdxTy) (hring : Buf F) (nt : Nat) (weight foc : F) (n : Nat) (dt : F) :
    Prog F Unit :=
  (Prog.lift (shiftedRing ty hring nt foc dt n)).bind fun buf =>
  Prog.forN (fun i _ => (Prog.lift (buf.read (i : Int))).bind fun x =>
    .rd (i : Int) fun y => .wr (i : Int) (y +. weight *. x) (.ret ())) nt 0 ()

/-- Focusing delay and weight of ring `n`, src/dream_arr_annu.cc 251-262. -/
def ringPar (A : AnnuPar F) (ring : Buf F) (rmax cp : F) (n : Nat) : Outcome (F × F) :=
  (ring.read (n : Int)).bind fun r =>
  (A.focal.read (if A.focMet = .ud then (n : Int) else 0)).bind fun f =>
  (if A.doApod then apodizationAnnular A.apodMet n A.apod r rmax A.apodPar
    else .ok (lit 1)).bind fun w =>
  .ok (focusingAnnular A.focMet f r rmax cp, w)

/-- `dream_arr_annu_serial`, src/dream_arr_annu.cc 186-269 (lossless) and 271-353 (lossy), on the
column `h`.  The explicit clearing of `h_disc` (217-222) is part of its allocation here. -/
def annuSerial (A : AnnuPar F) (nt : Nat) (ty : IdxTy) (level : ErrorLevel)
    (att : Option (AttResp F)) (p : Par F) (xo yo zo : F) (fuel : Nat) : Prog F SIRError :=
  (Prog.forN (fun i _ => .wr (i : Int) (lit 0) (.ret ())) nt 0 ()).bind fun _ =>
  (Prog.lift (annuDiscs A nt ty level att p xo yo zo fuel A.numRadii 0
    ({ size := nt * A.numRadii, data := fun _ => lit 0 }, .none))).bind fun s =>
  if s.2 = .outOfBounds then .ret s.2
  else
    (Prog.lift (annularDiscRadii A
      { size := A.numElements, data := fun _ => lit 0 })).bind fun ring =>
    (Prog.lift (ring.read ((A.numElements : Int) - 1))).bind fun rmax =>
    (Prog.forN (fun n hring =>
      (Prog.lift (ringPar A ring rmax p.cp n)).bind fun fw =>
      (Prog.lift (respAnnular s.1 hring nt n)).bind fun hring =>
      (superposAnnular ty hring nt fw.2 fw.1 n p.dt).bind fun _ => .ret hring)
      A.numElements 0 { size := nt * A.numElements, data := fun _ => lit 0 }).bind fun _ =>
    .ret s.2

end Dream
