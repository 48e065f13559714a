import Verif.Base

/-
The serial spatial impulse response (SIR) kernels.

All SIR kernels have the same skeleton: a float `while` loop over rows (`ys` or `phi`), in
it a float `while` loop over `xs`, and in it the computation of a distance `r`, an amplitude
`ai` and an arrival index `it`, which is then range checked and either deposited or reported.
`sweep2D`/`sweep1D` are these loops, `deposit` is the tail of the loop body, and one
definition per C++ function supplies the formulas.
-/

namespace Dream
open Arith

/-- What one pass through the innermost loop computes before the index check:
distance `r`, amplitude `ai`, and the argument of `std::rint`. -/
structure Pt (F : Type) where
  r : F
  ai : F
  arg : F

/-- Continue a loop with a new state, or return from the function. -/
inductive Ctl (σ : Type)
  | next (s : σ)
  | ret (s : σ)

/-- Everything a kernel's loop tail needs: response length, index type, error level, and the
action taken for an in-range contribution.  `M` is the memory the action works on. -/
structure Ctx (F M : Type) where
  nt : Nat
  ty : IdxTy
  level : ErrorLevel
  /-- `h[it] += ai` or `att.att(..., r, it, h, ai)` -/
  act : (r : F) → (it : Int) → (ai : F) → M → Outcome M

variable {F M : Type} [Arith F]

/-- Tail of the innermost loop body: src/dreamrect.cc 311-328 (lossless), 376-393 (lossy) and
the same text in all other kernels.  src/dreamrect_f.cc 412 tests the error level instead of
the code before bailing out; for every level the two tests agree (`bail_iff`). -/
def deposit (c : Ctx F M) (p : Pt F) (s : M × SIRError) : Outcome (Ctl (M × SIRError)) :=
  (castIdx c.ty (rint p.arg)).bind fun it =>
    if it < (c.nt : Int) ∧ it ≥ 0 then
      (c.act p.r it p.ai s.1).bind fun m => .ok (.next (m, s.2))
    else
      let err := oobErr c.level
      if err = .outOfBounds then .ok (.ret (s.1, err)) else .ok (.next (s.1, err))

/-- The two bail-out tests of the source agree. -/
theorem bail_iff (l : ErrorLevel) :
    oobErr l = .outOfBounds ↔ (l = .parallelStop ∨ l = .stop) := by
  cases l <;> simp [oobErr]

/-- Inner loop `while (xs <= xsmax) { ...; xs += dx; }`, e.g. src/dreamrect.cc 297-331. -/
def innerLoop (c : Ctx F M) (pt : F → Pt F) (dx xmax : F) :
    Nat → F → M × SIRError → Outcome (Ctl (M × SIRError))
  | 0, _, _ => .fuel
  | n + 1, xs, s =>
    if le xs xmax then
      (deposit c (pt xs) s).bind fun
        | .next s' => innerLoop c pt dx xmax n (xs +. dx) s'
        | .ret s' => .ok (.ret s')
    else .ok (.next s)

/-- One row of a two-dimensional sweep. -/
structure Row (F : Type) where
  x0 : F      -- first xs
  xmax : F    -- loop bound for xs
  pt : F → Pt F

/-- Outer loop `while (ys <= ysmax) { ...; ys += dy; }`, e.g. src/dreamrect.cc 292-333. -/
def outerLoop (c : Ctx F M) (row : F → Row F) (dx dy ymax : F) :
    Nat → Nat → F → M × SIRError → Outcome (Ctl (M × SIRError))
  | _, 0, _, _ => .fuel
  | fuel, n + 1, ys, s =>
    if le ys ymax then
      (innerLoop c (row ys).pt dx (row ys).xmax fuel (row ys).x0 s).bind fun
        | .next s' => outerLoop c row dx dy ymax fuel n (ys +. dy) s'
        | .ret s' => .ok (.ret s')
    else .ok (.next s)

/-- A kernel ends with `return err` (the state at that point is memory and `err`). -/
def finish (x : Outcome (Ctl (M × SIRError))) : Outcome (M × SIRError) :=
  x.bind fun
    | .next s => .ok s
    | .ret s => .ok s

/-- Geometry of a two-dimensional sweep. -/
structure Sweep (F : Type) where
  y0 : F
  ymax : F
  dy : F
  dx : F
  row : F → Row F

/-- A kernel body: `SIRError err = SIRError::none;`, the loops, `return err;`. -/
def runSweep (c : Ctx F M) (g : Sweep F) (fuel : Nat) (m : M) : Outcome (M × SIRError) :=
  finish (outerLoop c g.row g.dx g.dy g.ymax fuel fuel g.y0 (m, .none))

/-- Body of a kernel with a single `xs` loop. -/
def runRow (c : Ctx F M) (row : Row F) (dx : F) (fuel : Nat) (m : M) : Outcome (M × SIRError) :=
  finish (innerLoop c row.pt dx row.xmax fuel row.x0 (m, .none))

/-- `ai = w * ds / (2*M_PI * r); ai /= dt; ai *= 1000.0;` with `w = weight * v` (or `v`),
e.g. src/dreamrect.cc 303-305. -/
def amp (w ds r dt : F) : F :=
  w *. ds /. (lit 2 *. pi *. r) /. dt *. lit 1000

/-- `(r * 1000.0/cp - delay)/dt`, e.g. src/dreamrect.cc 307-308. -/
def arrival (r cp delay dt : F) : F :=
  (r *. lit 1000 /. cp -. delay) /. dt

/-- `(r * 1000.0/cp - delay + foc_delay)/dt`, e.g. src/dreamrect_f.cc 321-322. -/
def arrivalFoc (r cp delay foc dt : F) : F :=
  (r *. lit 1000 /. cp -. delay +. foc) /. dt

/-- `std::sqrt(rx*rx + ry*ry + rz*rz)` -/
def dist3 (rx ry rz : F) : F :=
  sqrt (rx *. rx +. ry *. ry +. rz *. rz)

/-- Sampling and medium parameters shared by all kernels. -/
structure Par (F : Type) where
  dx : F
  dy : F
  dt : F
  delay : F
  v : F
  cp : F

/-- `dreamrect_serial`, src/dreamrect.cc 274-335 and (lossy) 337-400: sampling of the
aperture. -/
def rectSweep (p : Par F) (weight xo yo zo a b : F) : Sweep F where
  y0 := neg b /. lit 2 +. p.dy /. lit 2
  ymax := b /. lit 2
  dy := p.dy
  dx := p.dx
  row ys :=
    { x0 := neg a /. lit 2 +. p.dx /. lit 2
      xmax := a /. lit 2
      pt := fun xs =>
        let r := dist3 (xo -. xs) (yo -. ys) zo
        { r := r, ai := amp (weight *. p.v) (p.dx *. p.dy) r p.dt
          arg := arrival r p.cp p.delay p.dt } }

/-- `dreamcirc_serial`, src/dreamcirc.cc 286-352 and (lossy) 354-421. -/
def circSweep (p : Par F) (weight xo yo zo R : F) : Sweep F where
  y0 := neg R +. p.dy /. lit 2
  ymax := R
  dy := p.dy
  dx := p.dx
  row ys :=
    let rxs := sqrt (R *. R -. ys *. ys)
    { x0 := neg rxs +. p.dx /. lit 2
      xmax := rxs
      pt := fun xs =>
        let r := dist3 (xo -. xs) (yo -. ys) zo
        { r := r, ai := amp (weight *. p.v) (p.dx *. p.dy) r p.dt
          arg := arrival r p.cp p.delay p.dt } }

/-- `dreamline_serial`, src/dreamline.cc 262-318 and (lossy) 320-379: one row only. -/
def lineRow (p : Par F) (xo yo zo a : F) : Row F where
  x0 := neg a /. lit 2 +. p.dx /. lit 2
  xmax := a /. lit 2
  pt xs :=
    let r := dist3 (xo -. xs) yo zo
    { r := r, ai := amp p.v (p.dx *. p.dy) r p.dt, arg := arrival r p.cp p.delay p.dt }

/-- `focus_delay_rect`, src/dreamrect_f.cc 429-481. -/
def focusDelayRect (met : FocusMet) (focal xs ys xMax yMax rMax cp : F) : F :=
  match met with
  | .x =>
    (sqrt (xMax *. xMax +. focal *. focal) -. sqrt (xs *. xs +. focal *. focal))
      *. lit 1000 /. cp
  | .y =>
    (sqrt (yMax *. yMax +. focal *. focal) -. sqrt (ys *. ys +. focal *. focal))
      *. lit 1000 /. cp
  | .xy =>
    (sqrt (rMax *. rMax +. focal *. focal) -. sqrt (xs *. xs +. ys *. ys +. focal *. focal))
      *. lit 1000 /. cp
  | .x_y =>
    (sqrt (rMax *. rMax +. focal *. focal)
      -. (sqrt (xs *. xs +. focal *. focal) +. sqrt (ys *. ys +. focal *. focal)))
      *. lit 1000 /. cp
  | _ => lit 0

/-- `focus_delay_circ`, src/dreamcirc_f.cc 437-489. -/
def focusDelayCirc (met : FocusMet) (focal xs ys ramax cp : F) : F :=
  match met with
  | .x =>
    (sqrt (ramax *. ramax +. focal *. focal) -. sqrt (xs *. xs +. focal *. focal))
      *. lit 1000 /. cp
  | .y =>
    (sqrt (ramax *. ramax +. focal *. focal) -. sqrt (ys *. ys +. focal *. focal))
      *. lit 1000 /. cp
  | .xy =>
    (sqrt (ramax *. ramax +. focal *. focal) -. sqrt (xs *. xs +. ys *. ys +. focal *. focal))
      *. lit 1000 /. cp
  | .x_y =>
    (sqrt (ramax *. ramax +. focal *. focal)
      -. (sqrt (xs *. xs +. focal *. focal) +. sqrt (ys *. ys +. focal *. focal)))
      *. lit 1000 /. cp
  | _ => lit 0

/-- `dreamrect_f_serial`, src/dreamrect_f.cc 278-348 and (lossy) 350-421.  Note that the
focusing aperture is the full width `a`, `b` (not half), as in the source. -/
def rectFSweep (p : Par F) (met : FocusMet) (focal xo yo zo a b : F) : Sweep F where
  y0 := neg b /. lit 2 +. p.dy /. lit 2
  ymax := b /. lit 2
  dy := p.dy
  dx := p.dx
  row ys :=
    { x0 := neg a /. lit 2 +. p.dx /. lit 2
      xmax := a /. lit 2
      pt := fun xs =>
        let r := dist3 (xo -. xs) (yo -. ys) zo
        let foc := focusDelayRect met focal xs ys a b (sqrt (a *. a +. b *. b)) p.cp
        { r := r, ai := amp p.v (p.dx *. p.dy) r p.dt
          arg := arrivalFoc r p.cp p.delay foc p.dt } }

/-- `dreamcirc_f_serial`, src/dreamcirc_f.cc 278-353 and (lossy) 355-429. -/
def circFSweep (p : Par F) (met : FocusMet) (focal xo yo zo R : F) : Sweep F where
  y0 := neg R +. p.dy /. lit 2
  ymax := R
  dy := p.dy
  dx := p.dx
  row ys :=
    let rxs := sqrt (R *. R -. ys *. ys)
    { x0 := neg rxs +. p.dx /. lit 2
      xmax := rxs
      pt := fun xs =>
        let r := dist3 (xo -. xs) (yo -. ys) zo
        let foc := focusDelayCirc met focal xs ys R p.cp
        { r := r, ai := amp p.v (p.dx *. p.dy) r p.dt
          arg := arrivalFoc r p.cp p.delay foc p.dt } }

/-- `sphere_f`, src/dreamsphere.cc 427-441. -/
def sphereF (xs ys Rc xo yo zo : F) : F :=
  let zs := Rc -. sqrt (Rc *. Rc -. xs *. xs -. ys *. ys)
  dist3 (xo -. xs) (yo -. ys) (zo -. zs)

/-- `sphere_d`, src/dreamsphere.cc 449-463. -/
def sphereD (xs ys Rc xo yo zo : F) : F :=
  let zs := Rc -. sqrt (Rc *. Rc -. xs *. xs -. ys *. ys)
  dist3 (xo -. xs) (yo -. ys) (zo +. zs)

/-- `dreamsphere_serial`, src/dreamsphere.cc 273-345 and (lossy) 347-419. -/
def sphereSweep (p : Par F) (xo yo zo R Rcurv : F) : Sweep F where
  y0 := neg R +. p.dy /. lit 2
  ymax := R
  dy := p.dy
  dx := p.dx
  row ys :=
    let rs := sqrt (R *. R -. ys *. ys)
    { x0 := neg rs +. p.dx /. lit 2
      xmax := rs
      pt := fun xs =>
        let r := if le (lit 0) Rcurv then sphereF xs ys Rcurv xo yo zo
          else sphereD xs ys (neg Rcurv) xo yo zo
        { r := r, ai := amp p.v (p.dx *. p.dy) r p.dt
          arg := arrival r p.cp p.delay p.dt } }

/-- `cylind_f`, src/dreamcylind.cc 442-484 (`du` is always set to 1). -/
def cylindF (xs ys Rc xo yo zo : F) : F :=
  let zs := Rc -. sqrt (Rc *. Rc -. ys *. ys)
  dist3 (xo -. xs) (yo -. ys) (zo -. zs)

/-- `cylind_d`, src/dreamcylind.cc 492-517 (`du` is always set to 1). -/
def cylindD (xs ys Rc xo yo zo : F) : F :=
  let zs := Rc -. sqrt (Rc *. Rc -. ys *. ys)
  dist3 (xo -. xs) (yo -. ys) (zo +. zs)

/-- `dreamcylind_serial`, src/dreamcylind.cc 275-353 and (lossy) 355-434.  The outer loop
variable is the angle `phi`; `ys` is recomputed from it (319, 348).  The message for
`b > 2|Rcurv|` (288-290) does not stop the computation and is not modelled. -/
def cylindSweep (p : Par F) (weight xo yo zo a b Rcurv : F) : Sweep F :=
  let R := abs Rcurv
  let b2 := b /. lit 2
  let zR := R -. sqrt (Rcurv *. Rcurv -. b2 *. b2)
  let phi := lit 2 *. atan (b2 /. (R -. zR))
  let dphi := asin (p.dy /. R)
  let ds := R *. p.dx *. dphi
  { y0 := neg phi /. lit 2 +. dphi /. lit 2
    ymax := phi /. lit 2
    dy := dphi
    dx := p.dx
    row := fun ph =>
      let ys := R *. sin ph
      { x0 := neg a /. lit 2 +. p.dx /. lit 2
        xmax := a /. lit 2
        pt := fun xs =>
          let r := if le (lit 0) Rcurv then cylindF xs ys Rcurv xo yo zo
            else cylindD xs ys R xo yo zo
          { r := r
            ai := weight *. p.v *. ds *. lit 1 /. (lit 2 *. pi *. r) /. p.dt *. lit 1000
            arg := arrival r p.cp p.delay p.dt } } }

/-! ### Actions on memory -/

/-- `h[it] += ai` where `h` points `base` elements into the buffer `m`. -/
def addAt (base : Nat) (it : Int) (ai : F) (m : Buf F) : Outcome (Buf F) :=
  (m.read ((base : Int) + it)).bind fun x => m.write ((base : Int) + it) (x +. ai)

/-- `for (i = 0; i < nt; i++) h[i] = 0.0;` where `h` points `base` elements into `m`
(e.g. src/dreamline.cc 282-284). -/
def clearCol (base : Nat) : Nat → Buf F → Outcome (Buf F)
  | 0, m => .ok m
  | n + 1, m => (clearCol base n m).bind fun m' => m'.write ((base : Int) + n) (lit 0)

/-- Time-domain attenuation response: sample `i` of the Green's function for distance `r`
and arrival index `it` (vector `x` in src/attenuation.cc after the inverse FFT).  Its values
are modelled in `Verif.Att`; here any function will do. -/
abbrev AttResp (F : Type) := (r : F) → (it : Int) → Nat → F

/-- `for (i=0; i<m_len; i++) h[i] += ai * x[i];`, src/attenuation.cc 133-136 (all callers use
`element = 0`). -/
def attAdd (base : Nat) (x : Nat → F) (ai : F) : Nat → Buf F → Outcome (Buf F)
  | 0, m => .ok m
  | n + 1, m => (attAdd base x ai n m).bind fun m' => addAt base (n : Int) (ai *. x n) m'

/-- Loop tail context for the output column starting at `base`: `att = none` is the lossless
kernel (`h[it] += ai`), `att = some x` the lossy one (`att.att(xc_vec, x_vec, r, it, h, ai)`). -/
def flatCtx (nt : Nat) (ty : IdxTy) (level : ErrorLevel) (att : Option (AttResp F))
    (base : Nat) : Ctx F (Buf F) where
  nt := nt
  ty := ty
  level := level
  act := fun r it ai m =>
    match att with
    | none => addAt base it ai m
    | some x => attAdd base (x r it) ai nt m

/-- `dreamrect_serial`, src/dreamrect.cc 274-335 (lossless), 337-400 (lossy); `base` is the
offset of the column `&h[n*nt]`. -/
def dreamrectSerial (nt : Nat) (ty : IdxTy) (level : ErrorLevel) (att : Option (AttResp F))
    (p : Par F) (weight xo yo zo a b : F) (fuel base : Nat) (m : Buf F) :
    Outcome (Buf F × SIRError) :=
  runSweep (flatCtx nt ty level att base) (rectSweep p weight xo yo zo a b) fuel m

/-- `dreamcirc_serial`, src/dreamcirc.cc 286-352 (lossless), 354-421 (lossy). -/
def dreamcircSerial (nt : Nat) (ty : IdxTy) (level : ErrorLevel) (att : Option (AttResp F))
    (p : Par F) (weight xo yo zo R : F) (fuel base : Nat) (m : Buf F) :
    Outcome (Buf F × SIRError) :=
  runSweep (flatCtx nt ty level att base) (circSweep p weight xo yo zo R) fuel m

/-- `dreamcylind_serial`, src/dreamcylind.cc 275-353 (lossless), 355-434 (lossy). -/
def dreamcylindSerial (nt : Nat) (ty : IdxTy) (level : ErrorLevel) (att : Option (AttResp F))
    (p : Par F) (weight xo yo zo a b Rcurv : F) (fuel base : Nat) (m : Buf F) :
    Outcome (Buf F × SIRError) :=
  runSweep (flatCtx nt ty level att base) (cylindSweep p weight xo yo zo a b Rcurv) fuel m

/-- `dreamline_serial`, src/dreamline.cc 262-318 (lossless), 320-379 (lossy); clears the
column first. -/
def dreamlineSerial (nt : Nat) (ty : IdxTy) (level : ErrorLevel) (att : Option (AttResp F))
    (p : Par F) (xo yo zo a : F) (fuel base : Nat) (m : Buf F) :
    Outcome (Buf F × SIRError) :=
  (clearCol base nt m).bind fun m' =>
    runRow (flatCtx nt ty level att base) (lineRow p xo yo zo a) p.dx fuel m'

/-- `dreamrect_f_serial`, src/dreamrect_f.cc 278-348 (lossless), 350-421 (lossy). -/
def dreamrectFSerial (nt : Nat) (ty : IdxTy) (level : ErrorLevel) (att : Option (AttResp F))
    (p : Par F) (met : FocusMet) (focal xo yo zo a b : F) (fuel base : Nat) (m : Buf F) :
    Outcome (Buf F × SIRError) :=
  (clearCol base nt m).bind fun m' =>
    runSweep (flatCtx nt ty level att base) (rectFSweep p met focal xo yo zo a b) fuel m'

/-- `dreamcirc_f_serial`, src/dreamcirc_f.cc 278-353 (lossless), 355-429 (lossy). -/
def dreamcircFSerial (nt : Nat) (ty : IdxTy) (level : ErrorLevel) (att : Option (AttResp F))
    (p : Par F) (met : FocusMet) (focal xo yo zo R : F) (fuel base : Nat) (m : Buf F) :
    Outcome (Buf F × SIRError) :=
  (clearCol base nt m).bind fun m' =>
    runSweep (flatCtx nt ty level att base) (circFSweep p met focal xo yo zo R) fuel m'

/-- `dreamsphere_serial`, src/dreamsphere.cc 273-345 (lossless), 347-419 (lossy). -/
def dreamsphereSerial (nt : Nat) (ty : IdxTy) (level : ErrorLevel) (att : Option (AttResp F))
    (p : Par F) (xo yo zo R Rcurv : F) (fuel base : Nat) (m : Buf F) :
    Outcome (Buf F × SIRError) :=
  (clearCol base nt m).bind fun m' =>
    runSweep (flatCtx nt ty level att base) (sphereSweep p xo yo zo R Rcurv) fuel m'

/-- The single-element transducers of the toolbox, with their geometry parameters.  `weight` is
the default argument `1.0` when called from the single-element drivers and the apodization
weight when called from the array functions. -/
inductive Kern (F : Type)
  | rect (weight a b : F)
  | circ (weight R : F)
  | cylind (weight a b Rcurv : F)
  | line (a : F)
  | rectF (met : FocusMet) (focal a b : F)
  | circF (met : FocusMet) (focal R : F)
  | sphere (R Rcurv : F)

/-- Which serial function is called for which transducer (the call in the worker loop, e.g.
src/dreamrect.cc 128-142). -/
def Kern.serial (k : Kern F) (nt : Nat) (ty : IdxTy) (level : ErrorLevel)
    (att : Option (AttResp F)) (p : Par F) (xo yo zo : F) (fuel base : Nat) (m : Buf F) :
    Outcome (Buf F × SIRError) :=
  match k with
  | .rect w a b => dreamrectSerial nt ty level att p w xo yo zo a b fuel base m
  | .circ w R => dreamcircSerial nt ty level att p w xo yo zo R fuel base m
  | .cylind w a b Rc => dreamcylindSerial nt ty level att p w xo yo zo a b Rc fuel base m
  | .line a => dreamlineSerial nt ty level att p xo yo zo a fuel base m
  | .rectF met f a b => dreamrectFSerial nt ty level att p met f xo yo zo a b fuel base m
  | .circF met f R => dreamcircFSerial nt ty level att p met f xo yo zo R fuel base m
  | .sphere R Rc => dreamsphereSerial nt ty level att p xo yo zo R Rc fuel base m

end Dream
