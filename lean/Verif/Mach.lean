import Verif.Drv
import Verif.Driver
import Verif.Arr

/-
Index arithmetic in the machine type `dream_idx_type`: ranges of the workers, addresses of columns and
of the coordinates of an observation point.  The rest of the model computes these indices with unbounded
naturals.
-/

namespace Dream
open Arith

variable {F : Type} [Arith F] {L : Type}

/-- The value of an index expression with exact value `v` (not negative) in `dream_idx_type`
(include/dream.h 104-136): undefined on overflow of the signed type, modulo 2^64 in the unsigned one. -/
def IdxTy.norm : IdxTy → Nat → Outcome Nat
  | .signed, v => if v < 2 ^ 63 then .ok v else .ub .cast
  | .unsigned, v => .ok (v % 2 ^ 64)

/-- `thread_n * No/nthreads`, src/dreamrect.cc 224. -/
def machStart (ty : IdxTy) (No nth k : Nat) : Outcome Nat :=
  (ty.norm (k * No)).map (· / nth)

/-- `(thread_n+1) * No/nthreads`, src/dreamrect.cc 225. -/
def machStop (ty : IdxTy) (No nth k : Nat) : Outcome Nat :=
  (ty.norm (k + 1)).bind fun k1 => (ty.norm (k1 * No)).map (· / nth)

/-- The workers with numbers `k - 1, ..., 0` as the loop of src/dreamrect.cc 222-251 sets them up (in the
order 0, 1, ...; which comes first makes no difference to whether some product overflows). -/
def machWorkers (ty : IdxTy) (No nth : Nat) : Nat → Outcome (Nat → Worker L)
  | 0 => .ok fun _ => { n := 0, stop := 0, pc := .done, err := .none }
  | k + 1 =>
    (machWorkers ty No nth k).bind fun ws =>
    (machStart ty No nth k).bind fun a =>
    (machStop ty No nth k).bind fun b =>
    .ok fun w => if w = k then { n := a, stop := b, pc := .fetch, err := .none } else ws w

/-- `initSys` with machine arithmetic. -/
def machInit (ty : IdxTy) (No nth : Nat) (m : Buf F) : Outcome (Sys F L) :=
  (machWorkers ty No nth nth).map fun ws => { mem := m, running := true, ws := ws }

/-- Reading of observation point and delay, src/dreamrect.cc 105-115: `Ro[n]`, `Ro[n + 1*No]`,
`Ro[n + 2*No]`. -/
def machInputs (ty : IdxTy) (No : Nat) (Ro : Buf F) (dt : DelayType) (delay : Buf F) (n : Nat) :
    Outcome (F × F × F × F) :=
  (Ro.read (n : Int)).bind fun xo =>
  (ty.norm (1 * No)).bind fun i1 => (ty.norm (n + i1)).bind fun j1 =>
  (Ro.read (j1 : Int)).bind fun yo =>
  (ty.norm (2 * No)).bind fun i2 => (ty.norm (n + i2)).bind fun j2 =>
  (Ro.read (j2 : Int)).bind fun zo =>
  (delay.read (match dt with | .single => 0 | .multiple => (n : Int))).bind fun d =>
  .ok (xo, yo, zo, d)

/-- A worker program whose columns start at `&h[n*nt]`, src/dreamrect.cc 129: the product is computed in
the index type. -/
def machTask (ty : IdxTy) (begin : Nat → Outcome L) (step : Nat → L → Eff F L) (len : Nat) :
    Task F L where
  begin := begin
  micro := fun n l m => (ty.norm (n * len)).bind fun b => (step n l).onBuf b m

/-- The worker program of the single-element functions with machine arithmetic. -/
def SirCall.machTask (D : SirCall F) : Task F (KLoc F) :=
  Dream.machTask D.ty
    (fun n => (machInputs D.ty D.No D.Ro D.delayType D.delay n).map fun (xo, yo, zo, d) =>
      D.k.entry { D.p with delay := d } xo yo zo)
    (fun _ => kernStep D.nt D.ty D.level D.att) D.nt

/-- The same for the array functions, src/dream_arr_rect.cc 123-169. -/
def ArrCall.machTask (D : ArrCall F) : Task F (ALoc F) :=
  Dream.machTask D.ty
    (fun n => (machInputs D.ty D.No D.Ro D.delayType D.delay n).map fun x =>
      D.entry x.1 x.2.1 x.2.2.1 x.2.2.2)
    (fun _ => D.step) D.nt

end Dream
