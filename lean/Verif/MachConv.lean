import Verif.Mach
import Verif.ConvP
import Verif.Analytic
import Verif.Das
import Verif.ClaimsAnnu

/-
Machine integers in the remaining threaded functions: the index type `dream_idx_type` in conv_p, fftconv_p,
sum_fftconv, the analytic responses, delay-and-sum and annular arrays, and the `int` in which FFTW gets the length of a
transform.
-/

namespace Dream
open Arith

variable {F : Type} [Arith F]

/-! ### The length of a transform -/

/-- The length FFTW is asked for, `(int) fft_len`, include/fft.h 146-152: the low 32 bits as a signed number.
For a length that is not positive the planner of FFTW returns no plan (a null pointer). -/
def planLen (N : Nat) : Option Nat :=
  if 0 < N % 2 ^ 32 ∧ N % 2 ^ 32 < 2 ^ 31 then some (N % 2 ^ 32) else none

/-- `FFT::fft` with the plan that was made for `fft_len = N`, include/fft.h 158-160: executing a null plan is undefined;
otherwise the transform has the length of the plan. -/
def FFTLib.fftI (L : FFTLib F) (N : Nat) (x : Buf F) (yc : Buf (F × F)) : Outcome (Buf (F × F)) :=
  match planLen N with
  | none => .ub .null
  | some P =>
    if P ≤ x.size ∧ P / 2 + 1 ≤ yc.size then
      .ok ⟨yc.size, fun k => if k ≤ P / 2 then
        L.r2c P (fun i => if i < P then x.data i else lit 0) k else yc.data k⟩
    else .ub .oob

/-- `FFT::ifft`, include/fft.h 162-169: the transform has the length of the plan, the loop that divides has
`m_fft_len` passes (a `dream_idx_type`). -/
def FFTLib.ifftI (L : FFTLib F) (N : Nat) (xc : Buf (F × F)) (y : Buf F) : Outcome (Buf F) :=
  match planLen N with
  | none => .ub .null
  | some P =>
    if P / 2 + 1 ≤ xc.size ∧ P ≤ y.size ∧ N ≤ y.size then
      .ok ⟨y.size, fun i => if i < N then
        (if i < P then L.c2r P (fun k => if k ≤ P / 2 then xc.data k else (lit 0, lit 0)) i else y.data i) /. ofInt N
        else y.data i⟩
    else .ub .oob

/-- `fftconvLocal` (extra_src/fftconv.cc 38-81) with the plans as they are. -/
def fftconvLocalI (L : FFTLib F) (x y : Nat → Outcome F) (nx ny : Nat) (S : Scratch F) :
    Outcome (Buf F) :=
  let N := nx + ny - 1
  (padCopy x nx N S.a).bind fun a =>
  (padCopy y ny N S.b).bind fun b =>
  (L.fftI N a S.af).bind fun af =>
  (L.fftI N b S.bf).bind fun bf =>
  (forO (fun (k : Nat) cf => (af.read (k : Int)).bind fun u => (bf.read (k : Int)).bind fun v =>
    cf.write (k : Int) (L.cmul u v)) N 0 S.cf).bind fun cf =>
  L.ifftI N cf S.c

/-- `fftconv`, extra_src/fftconv.cc 32-112, with the plans as they are. -/
def fftconvI (L : FFTLib F) (x y : Nat → Outcome F) (nx ny : Nat) (mode : ConvMode)
    (S : Scratch F) : Prog F Unit :=
  (Prog.lift (fftconvLocalI L x y nx ny S)).bind fun c => storeCol mode c (nx + ny - 1)

/-- Loop body of `add_fftconv`, extra_src/fftconv.cc 144-178, with the plans as they are. -/
def addFftStepI (L : FFTLib F) (h u : Nat → Outcome F) (hLen uLen : Nat) (S : Scratch F)
    (cf : Buf (F × F)) : Outcome (Buf (F × F)) :=
  let N := hLen + uLen - 1
  (padCopy h hLen N S.a).bind fun a =>
  (padCopy u uLen N S.b).bind fun b =>
  (L.fftI N a S.af).bind fun af =>
  (L.fftI N b S.bf).bind fun bf =>
  forO (fun (k : Nat) cf => (af.read (k : Int)).bind fun p => (bf.read (k : Int)).bind fun q =>
    (cf.read (k : Int)).bind fun z =>
    cf.write (k : Int) (L.cadd z (L.cdivr (L.cmul p q) (ofInt N)))) N 0 cf

/-- `add_fftconv`, extra_src/fftconv.cc 127-209, with the plans as they are. -/
def addFftconvI (L : FFTLib F) (h u : Nat → Nat → Outcome F) (Lin hLen uLen : Nat) (mode : ConvMode)
    (S : Nat → Scratch F) (cf : Buf (F × F)) (c : Buf F) : Prog F Unit :=
  let N := hLen + uLen - 1
  (Prog.lift <|
    (forO (fun (k : Nat) (b : Buf (F × F)) => b.write (k : Int) (lit 0, lit 0)) N 0 cf).bind fun cf =>
    (forO (fun l cf => addFftStepI L (h l) (u l) hLen uLen (S l) cf) Lin 0 cf).bind fun cf =>
    L.ifftI N cf c).bind fun c => storeCol (addMode mode) c N

/-! ### conv_p and fftconv_p -/

/-- The value of `v - 1` in the index type, for an index `v` (0 - 1 wraps around in the unsigned type). -/
def IdxTy.pred : IdxTy → Nat → Outcome Nat
  | .signed, v => .ok (v - 1)
  | .unsigned, v => .ok ((v + (2 ^ 64 - 1)) % 2 ^ 64)

namespace ConvCall

/-- `B_M` after "B is a vector": the product is computed in the index type, extra_src/mex_conv_p.cc 218-221,
extra_src/fftconv_p.cc 186-189. -/
def machRows (C : ConvCall F) (ty : IdxTy) : Outcome Nat :=
  if C.bM = 1 ∨ C.bN = 1 then ty.norm (C.bM * C.bN) else .ok C.bM

/-- `A_M+B_M-1`, extra_src/mex_conv_p.cc 95, extra_src/fftconv_p.cc 85. -/
def machLen (C : ConvCall F) (ty : IdxTy) : Outcome Nat :=
  (C.machRows ty).bind fun r => (ty.norm (C.aM + r)).bind fun s => ty.pred s

/-- `A[0+n*A_M]`, extra_src/mex_conv_p.cc 95, extra_src/fftconv_p.cc 106; the index `i` is added to the pointer (exactly)
by `conv` and `fftconv`. -/
def machRdA (C : ConvCall F) (ty : IdxTy) (n i : Nat) : Outcome F :=
  (ty.norm (n * C.aM)).bind fun o => C.A.read ((i + o : Nat) : Int)

/-- `B[0+n*B_M]` or `B`, extra_src/mex_conv_p.cc 94-97, extra_src/fftconv_p.cc 107. -/
def machRdB (C : ConvCall F) (ty : IdxTy) (r n i : Nat) : Outcome F :=
  if 1 < C.bCols then (ty.norm (n * r)).bind fun o => C.B.read ((i + o : Nat) : Int) else C.B.read (i : Int)

/-- Work for column `n` with machine integers, extra_src/mex_conv_p.cc 92-103, extra_src/fftconv_p.cc 78-141. -/
def machProg (C : ConvCall F) (ty : IdxTy) (n : Nat) : Prog F SIRError :=
  (Prog.lift (C.machRows ty)).bind fun r =>
  (Prog.lift (C.machLen ty)).bind fun _ =>
  (match C.kind with
   | .time => conv (C.machRdA ty n) (C.machRdB ty r n) C.aM r C.mode
   | .fft L S => fftconvI L (C.machRdA ty n) (C.machRdB ty r n) C.aM r C.mode (S n)).bind fun _ => .ret .none

/-- What the workers run, with machine integers: column `n` of the output starts at `&Y[0+n*(A_M+B_M-1)]`. -/
def machTask (C : ConvCall F) (ty : IdxTy) : Task F (Prog F SIRError) where
  begin := fun n => .ok (C.machProg ty n)
  micro := fun n l m => (C.machLen ty).bind fun N => (ty.norm (n * N)).bind fun b => l.eff.onBuf b m

/-- The worker program with exact indices but the plans of FFTW as they are. -/
def progI (C : ConvCall F) (n : Nat) : Prog F SIRError :=
  (match C.kind with
   | .time => conv (C.rdA n) (C.rdB n) C.aM C.bRows C.mode
   | .fft L S => fftconvI L (C.rdA n) (C.rdB n) C.aM C.bRows C.mode (S n)).bind fun _ => .ret .none

/-- The driver with exact indices but the plans of FFTW as they are. -/
def drvI (C : ConvCall F) : Drv F (Prog F SIRError) :=
  Drv.ofProg C.aN C.len (fun n => n * C.len) .none C.progI

end ConvCall

/-! ### sum_fftconv -/

namespace SumCall

/-- `U_M` after "U is a vector", extra_src/mex_sum_fftconv.cc 232-235. -/
def machRows (C : SumCall F) (ty : IdxTy) : Outcome Nat :=
  if C.uM = 1 ∨ C.uN = 1 then ty.norm (C.uM * C.uN) else .ok C.uM

/-- `H_M + U_M - 1`, extra_src/mex_sum_fftconv.cc 93, 237. -/
def machLen (C : SumCall F) (ty : IdxTy) : Outcome Nat :=
  (C.machRows ty).bind fun r => (ty.norm (C.hM + r)).bind fun s => ty.pred s

/-- `(H[l])[it + n*h_len]` with `H[l] = &tmp_p[H_M*H_N*l]`, extra_src/mex_sum_fftconv.cc 217-219,
extra_src/fftconv.cc 147. -/
def machRdH (C : SumCall F) (ty : IdxTy) (n l i : Nat) : Outcome F :=
  (ty.norm (C.hM * C.hN)).bind fun q => (ty.norm (q * l)).bind fun o =>
  (ty.norm (n * C.hM)).bind fun p => (ty.norm (i + p)).bind fun j => C.H.read ((j + o : Nat) : Int)

/-- `U[it + l*u_len]`, extra_src/fftconv.cc 153. -/
def machRdU (C : SumCall F) (ty : IdxTy) (r l i : Nat) : Outcome F :=
  (ty.norm (l * r)).bind fun p => (ty.norm (i + p)).bind fun j => C.U.read (j : Int)

/-- Work for observation point `n` with machine integers, extra_src/mex_sum_fftconv.cc 82-129. -/
def machProg (C : SumCall F) (ty : IdxTy) (n : Nat) : Prog F SIRError :=
  (Prog.lift (C.machRows ty)).bind fun r =>
  (Prog.lift (C.machLen ty)).bind fun _ =>
  (addFftconvI C.L (C.machRdH ty n) (C.machRdU ty r) C.hL C.hM r C.mode (C.S n) (C.cf n) (C.c n)).bind
    fun _ => .ret .none

/-- What the workers run, with machine integers: `&Y[0+n*fft_len]`, extra_src/mex_sum_fftconv.cc 118. -/
def machTask (C : SumCall F) (ty : IdxTy) : Task F (Prog F SIRError) where
  begin := fun n => .ok (C.machProg ty n)
  micro := fun n l m => (C.machLen ty).bind fun N => (ty.norm (n * N)).bind fun b => l.eff.onBuf b m

end SumCall

/-! ### Functions with observation points -/

/-- The worker program of circ_sir, scirc_sir and rect_sir with machine integers (extra_src/mex_circ_sir.cc 92-122,
extra_src/mex_scirc_sir.cc 93-123, extra_src/rect_sir.cc 92-115): coordinates and column address in the index type. -/
def AnaCall.machTask (C : AnaCall F) (ty : IdxTy) : Task F (Prog F SIRError) :=
  Dream.machTask ty (fun n => .ok <|
    (Prog.lift (machInputs ty C.No C.Ro C.delayType C.delay n)).bind fun (xo, yo, zo, d) =>
    (match C.kind with
     | .circ r => circSir xo yo zo r C.dt C.nt d C.v C.cp
     | .scirc r k => scircSir xo yo zo r C.dt C.nt d C.v C.cp k
     | .rect a b => rectSir xo yo zo a b C.dt C.nt d C.v C.cp).bind fun _ => .ret .none)
    (fun _ => Prog.eff) C.nt

/-- The same for dream_arr_annu, src/dream_arr_annu.cc 113-161. -/
def AnnuCall.machTask (D : AnnuCall F) : Task F (Prog F SIRError) :=
  Dream.machTask D.ty (fun n => .ok <|
    (Prog.lift (machInputs D.ty D.No D.Ro D.delayType D.delay n)).bind fun x =>
      annuSerial D.A D.nt D.ty D.level D.att { D.p with delay := x.2.2.2 } x.1 x.2.1 x.2.2.1 D.fuel)
    (fun _ => Prog.eff) D.nt

/-! ### Delay-and-sum -/

/-- `g[n]`, `g[n + 1*num]`, `g[n + 2*num]` in the index type and the travel time, extra_src/das.cc 329-332, 383-386,
393-396. -/
def machElem (ty : IdxTy) (G : Buf F) (num n : Nat) (xo yo zo ocp : F) : Outcome F :=
  (G.read (n : Int)).bind fun x =>
  (ty.norm (1 * num)).bind fun i1 => (ty.norm (n + i1)).bind fun j1 => (G.read (j1 : Int)).bind fun y =>
  (ty.norm (2 * num)).bind fun i2 => (ty.norm (n + i2)).bind fun j2 => (G.read (j2 : Int)).bind fun z =>
  .ok (travel (x -. xo) (y -. yo) (z -. zo) ocp)

/-- `G_row[0 + 1*num_cols]`, `G_row[num_cols-1 + 1*num_cols]`, `G_col[0]`, `G_col[num_rows-1]` in the index type,
extra_src/das.cc 461-464, 557-560 (for grids that are not empty). -/
def machLimits (ty : IdxTy) (Gc : Buf F) (nc : Nat) (Gr : Buf F) (nr : Nat) : Outcome (F × F × F × F) :=
  (ty.norm (1 * nc)).bind fun i0 => (ty.norm (0 + i0)).bind fun j0 => (Gr.read (j0 : Int)).bind fun ymin =>
  (ty.pred nc).bind fun p => (ty.norm (1 * nc)).bind fun i1 => (ty.norm (p + i1)).bind fun j1 =>
  (Gr.read (j1 : Int)).bind fun ymax =>
  (Gc.read 0).bind fun xmin =>
  (ty.pred nr).bind fun q => (Gc.read (q : Int)).bind fun xmax =>
  .ok (ymin, ymax, xmin, xmax)

/-- `G_col[n_c]`, `G_col[n_c + 2*num_cols]` in the index type, extra_src/das.cc 472-485. -/
def machCol (ty : IdxTy) (Gc : Buf F) (nc n : Nat) (ymin ymax xo yo zo ocp : F) : Outcome F :=
  (Gc.read (n : Int)).bind fun x =>
  (ty.norm (2 * nc)).bind fun i2 => (ty.norm (n + i2)).bind fun j2 => (Gc.read (j2 : Int)).bind fun z =>
  .ok (travel (x -. xo) (edge ymin ymax yo) (z -. zo) ocp)

/-- `G_row[n_r + 1*num_rows]`, `G_row[n_r + 2*num_rows]` in the index type, extra_src/das.cc 490-503. -/
def machRow (ty : IdxTy) (Gr : Buf F) (nr n : Nat) (xmin xmax xo yo zo ocp : F) : Outcome F :=
  (ty.norm (1 * nr)).bind fun i1 => (ty.norm (n + i1)).bind fun j1 => (Gr.read (j1 : Int)).bind fun y =>
  (ty.norm (2 * nr)).bind fun i2 => (ty.norm (n + i2)).bind fun j2 => (Gr.read (j2 : Int)).bind fun z =>
  .ok (travel (edge xmin xmax xo) (y -. yo) (z -. zo) ocp)

/-- The image value of one point with machine integers, extra_src/das.cc 307-626.  The A-scans are reached by advancing a
pointer (`y_p += a_scan_len`), not by an index computation. -/
def DasCall.machPixel (C : DasCall F) (ty : IdxTy) (xo yo zo d : F) : Prog F SIRError :=
  match C.method with
  | .saft => startPixel <| scanLoop (fun n e =>
      (Prog.lift (machElem ty C.Gt C.nt n xo yo zo (oneOver C.cp))).bind fun t =>
      C.toDasData.scan (fsKhz C.dt) n (lit 2 *. (t +. delayMs d)) e) C.nt 0 .none
  | .tfm => startPixel <| scanLoop (fun i e =>
      (Prog.lift (machElem ty C.Gt C.nt i xo yo zo (oneOver C.cp))).bind fun tt =>
      scanLoop (fun j e =>
        (Prog.lift (machElem ty C.Gr C.nr j xo yo zo (oneOver C.cp))).bind fun tr =>
        C.toDasData.scan (fsKhz C.dt) (i * C.nr + j) ((tt +. delayMs d) +. tr) e) C.nr 0 e) C.nt 0 .none
  | .rcaColtx =>
    (Prog.lift (machLimits ty C.Gt C.nt C.Gr C.nr)).bind fun (ymin, ymax, xmin, xmax) =>
    startPixel <| scanLoop (fun i e =>
      (Prog.lift (machCol ty C.Gt C.nt i ymin ymax xo yo zo (oneOver C.cp))).bind fun tc =>
      scanLoop (fun j e =>
        (Prog.lift (machRow ty C.Gr C.nr j xmin xmax xo yo zo (oneOver C.cp))).bind fun tr =>
        C.toDasData.scan (fsKhz C.dt) (i * C.nr + j) ((tc +. delayMs d) +. tr) e) C.nr 0 e) C.nt 0 .none
  | .rcaRowtx =>
    (Prog.lift (machLimits ty C.Gt C.nt C.Gr C.nr)).bind fun (ymin, ymax, xmin, xmax) =>
    startPixel <| scanLoop (fun i e =>
      (Prog.lift (machRow ty C.Gr C.nr i xmin xmax xo yo zo (oneOver C.cp))).bind fun tr =>
      scanLoop (fun j e =>
        (Prog.lift (machCol ty C.Gt C.nt j ymin ymax xo yo zo (oneOver C.cp))).bind fun tc =>
        C.toDasData.scan (fsKhz C.dt) (i * C.nt + j) ((tc +. delayMs d) +. tr) e) C.nt 0 e) C.nr 0 .none

/-- The same for delay-and-sum, extra_src/das.cc 120-180: the image value of point `n` is `Im[n]`. -/
def DasCall.machTask (C : DasCall F) (ty : IdxTy) : Task F (Prog F SIRError) :=
  Dream.machTask ty (fun n => .ok <|
    (Prog.lift (machInputs ty C.No C.Ro C.delayType C.delay n)).bind fun (xo, yo, zo, d) => C.machPixel ty xo yo zo d)
    (fun _ => Prog.eff) 1

end Dream
