import Verif.Prog
import Verif.Conv
import Verif.AnnuThms
import Verif.FftConv

/-
The analytic spatial impulse responses: extra_src/circ_sir.cc, extra_src/scirc_sir.cc,
extra_src/rect_sir.cc, and their threaded column loops.
-/

namespace Dream
open Arith

variable {F : Type} [Arith F]

/-- C++ `if` on a floating point comparison. -/
def fle (a b : F) : Prop := le a b = true
def flt (a b : F) : Prop := lt a b = true
instance (a b : F) : Decidable (fle a b) := inferInstanceAs (Decidable (_ = true))
instance (a b : F) : Decidable (flt a b) := inferInstanceAs (Decidable (_ = true))

/-- `x / 1000.0` -/
def toM (x : F) : F := x /. lit 1000

/-- `t = (((double) it) * dt + delay)/1.0e6`, extra_src/circ_sir.cc 67, extra_src/rect_sir.cc 400. -/
def sampleTime (dt delay : F) (it : Nat) : F := (ofInt it *. dt +. delay) /. lit 1000000

/-! ### Circular piston, extra_src/circ_sir.cc -/

/-- `r_cyl`, circ_sir.cc 61 -/
def cylR (xo yo : F) : F := sqrt (xo *. xo +. yo *. yo)
/-- `Rprim`, circ_sir.cc 62 -/
def nearR (zo r rc : F) : F := sqrt (zo *. zo +. (r -. rc) *. (r -. rc))
/-- `R`, circ_sir.cc 63 -/
def farR (zo r rc : F) : F := sqrt (zo *. zo +. (r +. rc) *. (r +. rc))

/-- Argument of `std::acos`, circ_sir.cc 78. -/
def acosArg (zo r rc cp t : F) : F :=
  (cp *. t *. cp *. t -. zo *. zo +. rc *. rc -. r *. r) /.
    (lit 2 *. rc *. sqrt (cp *. t *. cp *. t -. zo *. zo))

/-- The value assigned to `h[it]`, if any branch is taken, circ_sir.cc 69-99. -/
def circStore (zo r rc v cp t : F) : Option F :=
  let ct := cp *. t
  let Rp := nearR zo r rc
  let R := farR zo r rc
  if flt rc r then            -- r > r_cyl
    if flt ct zo then some (lit 0)
    else if fle zo ct ∧ flt ct Rp then some (v *. cp)
    else if fle Rp ct ∧ flt ct R then some (v *. cp /. pi *. acos (acosArg zo r rc cp t))
    else if fle R ct then some (lit 0)
    else none
  else
    if flt ct Rp then some (lit 0)
    else if fle Rp ct ∧ flt ct R then some (v *. cp /. pi *. acos (acosArg zo r rc cp t))
    else if fle R ct then some (lit 0)
    else none

/-- Sample `it`: the stored value, or the zero of the first loop. -/
def circSample (xo yo zo r dt delay v cp : F) (it : Nat) : F :=
  (circStore (toM zo) (toM r) (cylR (toM xo) (toM yo)) v cp (sampleTime dt delay it)).getD (lit 0)

/-- `circ_sir`, extra_src/circ_sir.cc 38-103. -/
def circSir (xo yo zo r dt : F) (nt : Nat) (delay v cp : F) : Prog F Unit :=
  (zeroFill nt).bind fun _ =>
  Prog.forN (fun it _ =>
    match circStore (toM zo) (toM r) (cylR (toM xo) (toM yo)) v cp (sampleTime dt delay it) with
    | some x => .wr (it : Int) x (.ret ())
    | none => .ret ()) nt 0 ()

/-! ### Sampled circular piston, extra_src/scirc_sir.cc -/

/-- One of the two clamped `acos` of `acos_acos`, scirc_sir.cc 240-267. -/
def acosClamp (c : F) : F :=
  if fle (lit (-1)) c ∧ fle c (lit 1) then acos c
  else if flt c (lit (-1)) then pi
  else lit 0

/-- Loop of `trapets_int` from `n` to the end, with `t` and `y`, scirc_sir.cc 284-292. -/
def trapLoop (zo r rc cp d : F) : Nat → F → F → F
  | 0, _, y => y
  | n + 1, t, y =>
    trapLoop zo r rc cp d n (t +. d)
      (y +. (acosClamp (acosArg zo r rc cp t) +. acosClamp (acosArg zo r rc cp (t +. d))) /. lit 2 *. d)

/-- `trapets_int`, scirc_sir.cc 273-295. -/
def trapInt (t1 t2 zo r rc cp : F) (intLen : Nat) : F :=
  trapLoop zo r rc cp ((t2 -. t1) /. ofInt intLen) intLen t1 (lit 0)

/-- Sampling interval, scirc_sir.cc 80-87. -/
def scircT1 (dt delay : F) (it : Nat) : F :=
  let t := sampleTime dt delay it -. (dt /. lit 1000000) /. lit 2
  if flt t (lit 0) then lit 0 else t
def scircT2 (dt delay : F) (it : Nat) : F :=
  (sampleTime dt delay it +. dt /. lit 1000000) -. (dt /. lit 1000000) /. lit 2

/-- `if (R > Rprim) h[it] += v*cp/M_PI*trapets_int(...)`. -/
def addTrap (zo r rc v cp : F) (n : Nat) (z t1 t2 : F) : F :=
  if flt (nearR zo r rc) (farR zo r rc) then z +. v *. cp /. pi *. trapInt t1 t2 zo r rc cp n else z

/-- What `h[it]`, which is `z` before, becomes in the case distinction, scirc_sir.cc 89-228.  The
stores to the same sample are combined into one. -/
def scircCases (zo r rc v cp : F) (n : Nat) (z t1 t2 : F) : F :=
  let Rp := nearR zo r rc
  let R := farR zo r rc
  let c1 := cp *. t1
  let c2 := cp *. t2
  if flt rc r then
    if flt c1 zo ∧ flt c2 zo then lit 0
    else if flt c1 zo ∧ fle zo c2 ∧ flt c2 Rp then v *. cp *. (t2 -. zo /. cp)
    else if flt c1 zo ∧ fle Rp c2 ∧ flt c2 R then
      addTrap zo r rc v cp n (lit 0 +. v *. cp *. (Rp -. zo) /. cp) (Rp /. cp) t2
    else if flt c1 zo ∧ fle R c2 then
      addTrap zo r rc v cp n (v *. cp *. (Rp -. zo) /. cp) (Rp /. cp) (R /. cp)
    else if fle zo c1 ∧ flt c2 Rp then v *. cp *. (t2 -. t1)
    else if fle zo c1 ∧ flt c1 Rp ∧ fle Rp c2 ∧ flt c2 R then
      addTrap zo r rc v cp n (v *. cp *. (Rp /. cp -. t1)) (Rp /. cp) t2
    else if fle zo c1 ∧ flt c1 Rp ∧ fle R c2 then
      addTrap zo r rc v cp n (v *. cp *. (Rp /. cp -. t1)) (Rp /. cp) (R /. cp)
    else if fle Rp c1 ∧ flt c2 R then addTrap zo r rc v cp n z t1 t2
    else if fle Rp c1 ∧ flt c1 R ∧ fle R c2 then addTrap zo r rc v cp n z t1 (R /. cp)
    else if flt R c1 then lit 0
    else z
  else
    if flt c2 Rp then lit 0
    else if flt c1 Rp ∧ fle Rp c2 ∧ flt c2 R then addTrap zo r rc v cp n z (Rp /. cp) t2
    else if flt c1 Rp ∧ fle R c2 then addTrap zo r rc v cp n z (Rp /. cp) (R /. cp)
    else if fle Rp c1 ∧ flt c2 R then addTrap zo r rc v cp n z t1 t2
    else if fle Rp c1 ∧ flt c1 R ∧ fle R c2 then addTrap zo r rc v cp n z t1 (R /. cp)
    else if fle R c1 then lit 0
    else z

/-- Sample `it` when `h[it]` is `z` before: the cases, then `h[it] /= dt/1.0e6`. -/
def scircUpd (xo yo zo r dt delay v cp : F) (n it : Nat) (z : F) : F :=
  scircCases (toM zo) (toM r) (cylR (toM xo) (toM yo)) v cp n z (scircT1 dt delay it)
    (scircT2 dt delay it) /. (dt /. lit 1000000)

/-- `scirc_sir`, extra_src/scirc_sir.cc 48-236. -/
def scircSir (xo yo zo r dt : F) (nt : Nat) (delay v cp : F) (intLen : Nat) : Prog F Unit :=
  (zeroFill nt).bind fun _ =>
  Prog.forN (fun it _ =>
    .rd (it : Int) fun z => .wr (it : Int) (scircUpd xo yo zo r dt delay v cp intLen it z) (.ret ()))
    nt 0 ()

/-! ### Rectangular piston, extra_src/rect_sir.cc -/

/-- `(s_k, l_k, g_k)` of sub-rectangle `k` for `xo`, `yo` already made non-negative,
rect_sir.cc 269-387.  The source has four separate `if` statements, a later one overrides an
earlier one; the conditions do not depend on `k`, so if none holds (NaN) the initial zeros stay. -/
def subRect (xo yo a b : F) (k : Nat) : F × F × F :=
  let a2 := a /. lit 2
  let b2 := b /. lit 2
  if flt a2 xo ∧ flt b2 yo then
    match k with
    | 1 => (abs (xo -. a2), abs (yo -. b2), lit 1)
    | 2 => (abs (a2 +. xo), abs (yo -. b2), lit (-1))
    | 3 => (abs (a2 +. xo), abs (b2 +. yo), lit 1)
    | _ => (abs (xo -. a2), abs (yo +. b2), lit (-1))
  else if flt a2 xo ∧ fle yo b2 then
    match k with
    | 1 => (abs (xo -. a2), abs (b2 -. yo), lit (-1))
    | 2 => (abs (a2 +. xo), abs (b2 -. yo), lit 1)
    | 3 => (abs (a2 +. xo), abs (b2 +. yo), lit 1)
    | _ => (abs (xo -. a2), abs (b2 +. yo), lit (-1))
  else if fle xo a2 ∧ flt b2 yo then
    match k with
    | 1 => (abs (a2 -. xo), abs (yo -. b2), lit (-1))
    | 2 => (abs (a2 +. xo), abs (yo -. b2), lit (-1))
    | 3 => (abs (a2 +. xo), abs (b2 +. yo), lit 1)
    | _ => (abs (a2 -. xo), abs (b2 +. yo), lit 1)
  else if fle xo a2 ∧ fle yo b2 then
    match k with
    | 1 => (abs (a2 -. xo), abs (b2 -. yo), lit 1)
    | 2 => (abs (xo +. a2), abs (b2 -. yo), lit 1)
    | 3 => (abs (xo +. a2), abs (yo +. b2), lit 1)
    | _ => (abs (a2 -. xo), abs (b2 -. yo), lit 1)
  else (lit 0, lit 0, lit 0)

/-- `a_k` at time `t`, rect_sir.cc 389-414. -/
def rectCorner (zo s l cp t : F) : F :=
  let tz := zo /. cp
  let tau2 := sqrt (zo *. zo +. s *. s) /. cp
  let tau3 := sqrt (zo *. zo +. l *. l) /. cp
  let tau4 := sqrt (zo *. zo +. l *. l +. s *. s) /. cp
  let a0 := if fle tz t ∧ fle t tau4 then lit 0 +. cp /. lit 4 else lit 0
  let a1 := if fle tau2 t ∧ fle t tau4 then
      a0 -. cp /. (lit 2 *. pi) *. acos (s /. (cp *. sqrt (t *. t -. tz *. tz))) else a0
  if fle tau3 t ∧ fle t tau4 then
    a1 -. cp /. (lit 2 *. pi) *. acos (l /. (cp *. sqrt (t *. t -. tz *. tz))) else a1

/-- Contribution `g_k * a_k` of sub-rectangle `k` to sample `it`. -/
def rectTerm (xo yo zo a b dt delay cp : F) (k it : Nat) : F :=
  let p := subRect (toM (abs xo)) (toM (abs yo)) (toM a) (toM b) k
  p.2.2 *. rectCorner (toM zo) p.1 p.2.1 cp (sampleTime dt delay it)

/-- Sample `it` of the rectangular response: the four contributions added up in order. -/
def rectSample (xo yo zo a b dt delay cp : F) (it : Nat) : F :=
  (((lit 0 +. rectTerm xo yo zo a b dt delay cp 1 it) +. rectTerm xo yo zo a b dt delay cp 2 it) +.
    rectTerm xo yo zo a b dt delay cp 3 it) +. rectTerm xo yo zo a b dt delay cp 4 it

/-- Pass `k` of the loop over the sub-rectangles. -/
def rectPass (xo yo zo a b dt : F) (nt : Nat) (delay cp : F) (k : Nat) : Prog F Unit :=
  Prog.forN (fun it _ =>
    .rd (it : Int) fun z => .wr (it : Int) (z +. rectTerm xo yo zo a b dt delay cp k it) (.ret ()))
    nt 0 ()

/-- `RectSir::rect_sir_serial`, extra_src/rect_sir.cc 239-424.  The argument `v` is not used by the
source. -/
def rectSir (xo yo zo a b dt : F) (nt : Nat) (delay _v cp : F) : Prog F Unit :=
  (zeroFill nt).bind fun _ =>
  (rectPass xo yo zo a b dt nt delay cp 1).bind fun _ =>
  (rectPass xo yo zo a b dt nt delay cp 2).bind fun _ =>
  (rectPass xo yo zo a b dt nt delay cp 3).bind fun _ =>
  rectPass xo yo zo a b dt nt delay cp 4

/-! ### The threaded loops over observation points -/

/-- Which response. -/
inductive AnaKind (F : Type) where
  | circ (r : F)
  | scirc (r : F) (intLen : Nat)
  | rect (a b : F)

/-- Arguments of circ_sir, scirc_sir, rect_sir (extra_src/mex_circ_sir.cc 73-129,
extra_src/mex_scirc_sir.cc, extra_src/rect_sir.cc 71-137). -/
structure AnaCall (F : Type) where
  kind : AnaKind F
  Ro : Buf F
  No : Nat
  dt : F
  nt : Nat
  delayType : DelayType
  delay : Buf F
  v : F
  cp : F

namespace AnaCall

/-- Reads of the observation point and its delay. -/
def inputs (C : AnaCall F) (n : Nat) : Outcome (F × F × F × F) :=
  (C.Ro.read (n : Int)).bind fun xo =>
  (C.Ro.read ((n + 1 * C.No : Nat) : Int)).bind fun yo =>
  (C.Ro.read ((n + 2 * C.No : Nat) : Int)).bind fun zo =>
  (C.delay.read (match C.delayType with | .single => 0 | .multiple => (n : Int))).bind fun d =>
  .ok (xo, yo, zo, d)

/-- Work for point `n`; none of the three functions has an error code. -/
def prog (C : AnaCall F) (n : Nat) : Prog F SIRError :=
  (Prog.lift (C.inputs n)).bind fun (xo, yo, zo, d) =>
  (match C.kind with
   | .circ r => circSir xo yo zo r C.dt C.nt d C.v C.cp
   | .scirc r k => scircSir xo yo zo r C.dt C.nt d C.v C.cp k
   | .rect a b => rectSir xo yo zo a b C.dt C.nt d C.v C.cp).bind fun _ => .ret .none

/-- The threaded driver: `&h[n*nt]` is the column of point `n`. -/
def drv (C : AnaCall F) : Drv F (Prog F SIRError) :=
  Drv.ofProg C.No C.nt (fun n => n * C.nt) .none C.prog

/-- Sizes of the argument buffers. -/
structure Sized (C : AnaCall F) (H : Buf F) : Prop where
  ro : C.Ro.size = 3 * C.No
  delay : C.delay.size = match C.delayType with | .single => 1 | .multiple => C.No
  h : H.size = C.nt * C.No

def xo (C : AnaCall F) (n : Nat) : F := C.Ro.data n
def yo (C : AnaCall F) (n : Nat) : F := C.Ro.data (n + C.No)
def zo (C : AnaCall F) (n : Nat) : F := C.Ro.data (n + 2 * C.No)
def delayAt (C : AnaCall F) (n : Nat) : F :=
  match C.delayType with
  | .single => C.delay.data 0
  | .multiple => C.delay.data n

/-- Sample `it` of the response of point `n`. -/
def sample (C : AnaCall F) (n it : Nat) : F :=
  match C.kind with
  | .circ r => circSample (C.xo n) (C.yo n) (C.zo n) r C.dt (C.delayAt n) C.v C.cp it
  | .scirc r k => scircUpd (C.xo n) (C.yo n) (C.zo n) r C.dt (C.delayAt n) C.v C.cp k it (lit 0)
  | .rect a b => rectSample (C.xo n) (C.yo n) (C.zo n) a b C.dt (C.delayAt n) C.cp it

end AnaCall

/-! ### What the programs compute -/

theorem circSir_run (xo yo zo r dt : F) (nt : Nat) (delay v cp : F) (c : Nat → F) :
    (circSir xo yo zo r dt nt delay v cp).runCol nt c =
      .ok ((fun q => if q < nt then circSample xo yo zo r dt delay v cp q else c q), ()) := by
  unfold circSir
  rw [Prog.runCol_bind, zeroFill_run _ _ (Nat.le_refl _), Outcome.ok_bind]
  rw [Prog.forN_pointwise nt nt _ (fun i z => (circStore (toM zo) (toM r) (cylR (toM xo) (toM yo)) v
    cp (sampleTime dt delay i)).getD z)]
  · congr 2
    funext q
    by_cases h : q < nt
    · simp only [if_pos h]; rfl
    · simp only [if_neg h]
  · intro i hi c
    cases circStore (toM zo) (toM r) (cylR (toM xo) (toM yo)) v cp (sampleTime dt delay i) with
    | none =>
      simp only [Prog.runCol, Option.getD]
      congr 2
      funext q
      by_cases h : q = i
      · rw [if_pos h, h]
      · rw [if_neg h]
    | some x =>
      simp only [Prog.runCol, Option.getD]
      rw [if_pos (by omega)]
      simp

theorem updLoop_run (nt : Nat) (g : Nat → F → F) (c : Nat → F) :
    (Prog.forN (fun it (_ : Unit) => .rd (it : Int) fun z => .wr (it : Int) (g it z) (.ret ()))
      nt 0 ()).runCol nt c = .ok ((fun q => if q < nt then g q (c q) else c q), ()) := by
  refine Prog.forN_pointwise nt nt _ g ?_ c
  intro i hi c
  simp only [Prog.runCol]
  rw [if_pos (by omega), if_pos (by omega)]
  simp

theorem scircSir_run (xo yo zo r dt : F) (nt : Nat) (delay v cp : F) (k : Nat) (c : Nat → F) :
    (scircSir xo yo zo r dt nt delay v cp k).runCol nt c =
      .ok ((fun q => if q < nt then scircUpd xo yo zo r dt delay v cp k q (lit 0) else c q), ()) := by
  unfold scircSir
  rw [Prog.runCol_bind, zeroFill_run _ _ (Nat.le_refl _), Outcome.ok_bind,
    updLoop_run nt (fun it z => scircUpd xo yo zo r dt delay v cp k it z)]
  congr 2
  funext q
  by_cases h : q < nt
  · simp only [if_pos h]
  · simp only [if_neg h]

theorem rectSir_run (xo yo zo a b dt : F) (nt : Nat) (delay v cp : F) (c : Nat → F) :
    (rectSir xo yo zo a b dt nt delay v cp).runCol nt c =
      .ok ((fun q => if q < nt then rectSample xo yo zo a b dt delay cp q else c q), ()) := by
  unfold rectSir rectPass
  rw [Prog.runCol_bind, zeroFill_run _ _ (Nat.le_refl _), Outcome.ok_bind, Prog.runCol_bind,
    updLoop_run nt (fun it z => z +. rectTerm xo yo zo a b dt delay cp 1 it), Outcome.ok_bind,
    Prog.runCol_bind, updLoop_run nt (fun it z => z +. rectTerm xo yo zo a b dt delay cp 2 it),
    Outcome.ok_bind, Prog.runCol_bind,
    updLoop_run nt (fun it z => z +. rectTerm xo yo zo a b dt delay cp 3 it), Outcome.ok_bind,
    updLoop_run nt (fun it z => z +. rectTerm xo yo zo a b dt delay cp 4 it)]
  congr 2
  funext q
  by_cases h : q < nt
  · simp only [if_pos h, rectSample]
  · simp only [if_neg h]

namespace AnaCall
variable {C : AnaCall F} {H : Buf F}

theorem inputs_ok (h : C.Sized H) (n : Nat) (hn : n < C.No) :
    C.inputs n = .ok (C.xo n, C.yo n, C.zo n, C.delayAt n) := by
  have hro := h.ro
  have hd := h.delay
  unfold inputs
  rw [Buf.read_nat _ _ (by omega), Outcome.ok_bind, Buf.read_nat _ _ (by omega), Outcome.ok_bind,
    Buf.read_nat _ _ (by omega), Outcome.ok_bind, Nat.one_mul]
  unfold delayAt
  cases hT : C.delayType with
  | single =>
    rw [hT] at hd
    simp only []
    rw [show (0 : Int) = ((0 : Nat) : Int) from rfl, Buf.read_nat _ _ (by simp only [] at hd; omega)]
    rfl
  | multiple =>
    rw [hT] at hd
    simp only []
    rw [Buf.read_nat _ _ (by simp only [] at hd; omega)]
    rfl

theorem prog_run (h : C.Sized H) (n : Nat) (hn : n < C.No) (c : Nat → F) :
    (C.prog n).runCol C.nt c = .ok ((fun q => if q < C.nt then C.sample n q else c q), .none) := by
  unfold prog
  rw [inputs_ok h n hn]
  simp only [Prog.lift, Prog.bind]
  unfold sample
  cases C.kind with
  | circ r => simp only []; rw [Prog.runCol_bind, circSir_run]; rfl
  | scirc r k => simp only []; rw [Prog.runCol_bind, scircSir_run]; rfl
  | rect a b => simp only []; rw [Prog.runCol_bind, rectSir_run]; rfl

theorem inside (h : C.Sized H) (n : Nat) (hn : n < C.No) : n * C.nt + C.nt ≤ H.size := by
  rw [h.h]
  calc n * C.nt + C.nt = C.nt * (n + 1) := by rw [Nat.mul_add, Nat.mul_one, Nat.mul_comm]
    _ ≤ C.nt * C.No := Nat.mul_le_mul_left _ hn

theorem progOk (h : C.Sized H) : ProgOk C.No C.nt (fun n => n * C.nt) .none C.prog H where
  inside n hn := inside h n hn
  disj i j _ _ hij := by
    rcases Nat.lt_or_gt_of_ne hij with g | g
    · left
      calc i * C.nt + C.nt = (i + 1) * C.nt := by rw [Nat.add_mul, Nat.one_mul]
        _ ≤ j * C.nt := Nat.mul_le_mul_right _ g
    · right
      calc j * C.nt + C.nt = (j + 1) * C.nt := by rw [Nat.add_mul, Nat.one_mul]
        _ ≤ i * C.nt := Nat.mul_le_mul_right _ g
  safe n hn := by rw [prog_run h n hn]; simp
  code n hn r hr := by rw [prog_run h n hn] at hr; rw [← Outcome.ok.inj hr]; exact .inl rfl

theorem faithful (h : C.Sized H) : C.drv.Faithful H := Drv.ofProg_faithful (progOk h)

theorem defined (h : C.Sized H) : C.drv.Defined H :=
  Drv.ofProg_defined (progOk h) fun n hn => ⟨_, prog_run h n hn _⟩

theorem serial (h : C.Sized H) (n : Nat) (hn : n < C.No) (fuel : Nat) :
    ∃ H', C.drv.serialAt n fuel H = .ok (H', .none) ∧
      ∀ q, q < C.nt → H'.data (n * C.nt + q) = C.sample n q := by
  refine ⟨H.setCol (n * C.nt) C.nt (fun q => if q < C.nt then C.sample n q
    else H.getCol (n * C.nt) C.nt q), ?_, ?_⟩
  · show (C.prog n).runBuf (n * C.nt) H = _
    rw [Prog.runBuf_col (n * C.nt) C.nt H (inside h n hn) (C.prog n)
      (by rw [prog_run h n hn]; simp), prog_run h n hn]
    rfl
  · intro q hq
    rw [Buf.setCol_data_in _ _ _ _ _ hq, if_pos hq]

/-- In every complete run that was not aborted, for any number of threads and any schedule, the
output is the matrix of the samples. -/
theorem run_samples (h : C.Sized H) (nth : Nat) (h1 : 1 ≤ nth) (as : List Act)
    (hab : Act.abort ∉ as) (s' : Sys F (Prog F SIRError)) (hr : C.drv.Run nth H as s')
    (n : Nat) (hn : n < C.No) (it : Nat) (hit : it < C.nt) :
    s'.mem.data (n * C.nt + it) = C.sample n it := by
  have hs := faithful h
  have hd := defined h
  obtain ⟨H', g1, g2⟩ := serial h n hn 0
  rw [← g2 it hit]
  refine Drv.columns hs hd nth h1 as hab ?_ s' hr n hn 0 H' .none g1 it hit
  exact Drv.nonstop_levels hs hd (.inr (.inr rfl))

/-- All schedules end, and complete runs exist. -/
theorem terminates (h : C.Sized H) (nth : Nat) :
    (∀ as, ∃ s', exec C.drv.task as (initSys C.No nth H) = .ok s') ∧
    ∃ as s', Act.abort ∉ as ∧ C.drv.Run nth H as s' := by
  obtain ⟨kk, s', g1, g2⟩ := Drv.run_exists (faithful h) (defined h) nth
  exact ⟨(Drv.terminates (faithful h) (defined h) nth).1, _, s', g1, g2⟩

end AnaCall

end Dream
