import Verif.Classes
import Verif.WholeAna
import Verif.AttFront

/-
Numeric classes of the arguments of the convolution functions, copy_p, add_p, the analytic responses and
dream_att in MATLAB and Octave (as Verif/Classes.lean for the impulse response functions):

* MATLAB: `mxGetPr` gives the address of the stored numbers whatever their class; no class is checked.
* Octave: the wrappers keep the matrices `args(i).matrix_value()` until they return, so every class is
  converted; the geometry of rect_sir goes through `parse_geometry` (arg_parser.h 136-169), which does not
  keep it.

Complex and sparse arguments are not modelled.
-/

namespace Dream
open Arith

variable {F : Type} [Arith F]

/-- A matrix argument with its class; `bits` are the doubles found when the stored bytes are taken for
doubles. -/
structure TMat (F : Type) where
  mat : HMat F
  cls : NumClass
  bits : Nat → F

/-- The doubles that can be read (and written) at the address a wrapper gets:
extra_src/mex_conv_p.cc 208, 212, mex_fftconv_p.cc 240, 244, mex_fftconv_ola.cc 332, 336, 353,
mex_sum_fftconv.cc 225, mex_copy_p.cc 154-166; oct_conv_p.cc 235-243, oct_fftconv_p.cc 288-296,
oct_fftconv_ola.cc 386-394, 411, oct_sum_fftconv.cc 326, oct_copy_p.cc 186-204, oct_add_p.cc 188-206. -/
def TMat.mem (fe : ConvFront) (a : TMat F) : Buf F :=
  match fe with
  | .matlab =>
    if a.cls = .double then a.mat.buf else ⟨a.mat.rows * a.mat.cols * a.cls.bytes / 8, a.bits⟩
  | .octave => a.mat.buf

/-- An array argument with any number of dimensions, with its class. -/
structure TArr (F : Type) where
  arr : NArr F
  cls : NumClass
  bits : Nat → F

/-- Memory of the `m` by `n` by `l` array of sum_fftconv, extra_src/mex_sum_fftconv.cc 218,
oct_sum_fftconv.cc 308-324. -/
def TArr.mem (fe : ConvFront) (a : TArr F) (m n l : Nat) : Buf F :=
  match fe with
  | .matlab => if a.cls = .double then ⟨m * n * l, a.arr.data⟩ else ⟨m * n * l * a.cls.bytes / 8, a.bits⟩
  | .octave => ⟨m * n * l, a.arr.data⟩

/-- Class and stored bytes of the matrix that is given to be changed. -/
structure YClass (F : Type) where
  cls : NumClass
  bits : Nat → F

/-- Its memory: mex_conv_p.cc 268, mex_fftconv_p.cc 436, mex_fftconv_ola.cc 552, mex_sum_fftconv.cc 374.
In Octave the workers change a temporary matrix if the class is not double (C79), of which nobody sees
anything. -/
def YClass.mem (fe : ConvFront) (y : YClass F) (old : MArg F → Option (Buf F)) (m : MArg F) : Option (Buf F) :=
  match fe with
  | .matlab =>
    if y.cls = .double then old m
    else (old m).map fun b => ⟨b.size * y.cls.bytes / 8, y.bits⟩
  | .octave => old m

/-- conv_p: as `convPJob`, with the memory really accessed. -/
def convPJobT (fe : ConvFront) (A B : TMat F) (extra : List (MArg F)) (y : YClass F) (nlhs : Nat)
    (junk : Nat → F) : ConvJob F :=
  let J := convPJob fe A.mat B.mat extra nlhs junk
  { J with
    yMem := y.mem fe J.yMem
    drv := fun mode _ =>
      ({ convArgs A.mat B.mat mode .time with A := A.mem fe, B := B.mem fe } : ConvCall F).drv }

/-- fftconv_p: as `fftconvPJob`, with the memory really accessed. -/
def fftconvPJobT (fe : ConvFront) (L : FFTLib F) (S : Nat → Scratch F) (imp : Str → Bool) (wis : Str)
    (A B : TMat F) (extra : List (MArg F)) (y : YClass F) (nlhs : Nat) : ConvJob F :=
  let J := fftconvPJob fe L S imp wis A.mat B.mat extra nlhs
  { J with
    yMem := y.mem fe J.yMem
    drv := fun mode _ =>
      ({ convArgs A.mat B.mat mode (.fft L S) with A := A.mem fe, B := B.mem fe } : ConvCall F).drv }

/-- The block length, as `olaBlock`: extra_src/mex_fftconv_ola.cc 350-357, oct_fftconv_ola.cc 407-421. -/
def olaBlockT (fe : ConvFront) (A : HMat F) (Bl : TMat F) : Outcome (Option Nat) :=
  if Bl.mat.rows * Bl.mat.cols = 1 then
    ((Bl.mem fe).read 0).bind fun x => (castIdx fe.idx (trunc x)).bind fun k =>
      .ok (if k < 0 ∨ k > A.rows then none else some k.toNat)
  else .ok none

/-- fftconv_ola: as `olaJob`, with the memory really accessed. -/
def olaJobT (fe : ConvFront) (L : FFTLib F) (M : Nat → OlaScratch F) (imp : Str → Bool) (wis : Str)
    (A B Bl : TMat F) (extra : List (MArg F)) (y : YClass F) (nlhs : Nat) : ConvJob F :=
  let J := olaJob fe L M imp wis A.mat B.mat Bl.mat extra nlhs
  let C := fun bl mode =>
    ({ olaArgs L (M bl) A.mat B.mat bl mode with A := A.mem fe, B := B.mem fe } : OlaCall F)
  { J with
    early :=
      if nlhs > 2 then .ok (.error "Too many output arguments for fftconv_ola!")
      else if !olaSizeOk A.mat B.mat then .ok (.error "Argument 2 must be a vector or a matrix ...")
      else (olaBlockT fe A.mat Bl).bind fun bl =>
        match bl with
        | none => .ok (.error "Argument 3 is out of bounds!")
        | some _ => .ok (convOpts fe nlhs extra)
    yMem := y.mem fe J.yMem
    drv := fun mode nth =>
      match olaBlockT fe A.mat Bl with
      | .ok (some bl) => (C bl mode).drv nth
      | _ => (C 0 mode).drv nth }

/-- sum_fftconv: as `sumJob`, with the memory really accessed. -/
def sumJobT (fe : ConvFront) (L : FFTLib F) (M : SumScratch F) (imp : Str → Bool) (wis : Str)
    (H : TArr F) (U : TMat F) (extra : List (MArg F)) (y : YClass F) (nlhs : Nat) : ConvJob F :=
  let d := H.arr.three.getD (0, 0, 0)
  let J := sumJob fe L M imp wis H.arr U.mat extra nlhs
  { J with
    yMem := y.mem fe J.yMem
    drv := fun mode _ =>
      ({ sumArgs L M d.1 d.2.1 d.2.2 H.arr.data U.mat mode with
          H := H.mem fe d.1 d.2.1 d.2.2, U := U.mem fe } : SumCall F).drv }

/-- The checks of copy_p and add_p, as `copyChecks`, on the memory of the index arguments:
extra_src/mex_copy_p.cc 166-193, oct_copy_p.cc 206-250, oct_add_p.cc 208-252. -/
def copyChecksT (fe : ConvFront) (A r k B : TMat F) : Outcome (Except String ConvOpts) :=
  if r.mat.rows * r.mat.cols ≠ 2 then .ok (.error "Argument 2 must be a 2 element vector!") else
  ((r.mem fe).read 1).bind fun x1 =>
  (castIdx fe.idx (trunc x1)).bind fun r1 =>
  if r1 < 1 then .ok (.error "1st element of argument 2 must be > 1!") else
  ((r.mem fe).read 0).bind fun x0 =>
  (castIdx fe.idx (trunc x0)).bind fun r0 =>
  if r0 > A.mat.rows ∨ r1 > A.mat.rows then
    .ok (.error "One element of argument 2 exceeds row dimension of arg 1!")
  else
  if k.mat.rows * k.mat.cols ≠ 2 then .ok (.error "Argument 3 must be a 2 element vector!") else
  ((k.mem fe).read 1).bind fun y1 =>
  (castIdx fe.idx (trunc y1)).bind fun k1 =>
  if k1 < 1 then .ok (.error "1st element of argument 3 must be > 1!") else
  ((k.mem fe).read 0).bind fun y0 =>
  (castIdx fe.idx (trunc y0)).bind fun k0 =>
  if k0 > A.mat.cols ∨ k1 > A.mat.cols then
    .ok (.error "One element of argument 3 exceeds colomn dimension of arg 1!")
  else
  (castIdx fe.idx (trunc (x1 -. x0))).bind fun dr =>
  if (B.mat.rows : Int) < dr + 1 then
    .ok (.error "Argument 4 has not the number of rows as given by arg 2!") else
  (castIdx fe.idx (trunc (y1 -. y0))).bind fun dk =>
  if (B.mat.cols : Int) ≠ dk + 1 then
    .ok (.error "Argument 4 has not the number of columns as given by arg 3!")
  else .ok (.ok ⟨.equ, none⟩)

/-- The work for column `n`, as `copyProg`, on the memory really accessed. -/
def copyProgT (fe : ConvFront) (op : CopyOp) (A r k B : TMat F) (n : Nat) : Prog F SIRError :=
  match
    ((r.mem fe).read 0).bind fun x0 => ((r.mem fe).read 1).bind fun x1 => ((k.mem fe).read 0).bind fun y0 =>
    (castIdx fe.idx (trunc (x0 -. lit 1))).bind fun i =>
    (castIdx fe.idx (trunc (y0 -. lit 1))).bind fun j =>
    (castIdx fe.idx (trunc (x1 -. x0 +. lit 1))).bind fun l => (.ok (i, j, l) : Outcome (Int × Int × Int)) with
  | .ub e => .bad e
  | .ok (i, j, l) => copyWork op A.mat.rows B.mat.rows (B.mem fe) i j l n
  | .fuel => .bad .oob

/-- copy_p and add_p with four arguments: as `copyJob`, with the memory really accessed.  `A` is the
matrix that is changed (in Octave a temporary one if its class is not double, C79). -/
def copyJobT (fe : ConvFront) (op : CopyOp) (A r k B : TMat F) (nlhs : Nat) : ConvJob F :=
  let J := copyJob fe op [A.mat, r.mat, k.mat, B.mat] nlhs
  { J with
    early :=
      if nlhs > 0 then .ok (.error "Too many output arguments for copy_p, none required!")
      else copyChecksT fe A r k B
    yMem := YClass.mem fe ⟨A.cls, A.bits⟩ J.yMem
    drv := fun _ _ =>
      Drv.ofProg A.mat.cols A.mat.rows (fun n => n * A.mat.rows) .none (copyProgT fe op A r k B) }

/-! ### The analytic responses and dream_att -/

/-- The arguments of circ_sir, scirc_sir and rect_sir with their classes. -/
structure TAnaArgs (F : Type) where
  ro : TArg F
  geom : TArg F
  sPar : TArg F
  delay : TArg F
  mPar : TArg F
  sixth : Option (SixthArg F)

/-- The numbers the user wrote. -/
def TAnaArgs.plain (x : TAnaArgs F) : AnaArgs F :=
  ⟨x.ro.arg, x.geom.arg, x.sPar.arg, x.delay.arg, x.mPar.arg, x.sixth⟩

/-- As `parsePair`, on the memory to which the wrapper keeps a pointer: extra_src/mex_circ_sir.cc 200-204,
216-220, oct_circ_sir.cc 277-281, 301-304, mex_rect_sir.cc 65-74, 91-99, oct_rect_sir.cc 140-152,
172-182. -/
def parsePairT (fe : FrontEnd) (a : TArg F) : Outcome (PRes (F × F)) :=
  (a.arg.isVec fe 2).bind fun good =>
  if good then
    ((a.kept fe).read 0).bind fun x => ((a.kept fe).read 1).bind fun y => .ok (.ret true false (x, y))
  else .ok (failMsg fe (lit 0, lit 0))

/-- The geometry: `check_geometry` and a kept pointer for circ_sir and scirc_sir
(extra_src/mex_circ_sir.cc 193-195, oct_circ_sir.cc 261-267, mex_scirc_sir.cc 194-196,
oct_scirc_sir.cc 266-272), `parse_geometry` for rect_sir (mex_rect_sir.cc 57-58, oct_rect_sir.cc 131-134). -/
def parseGeomT (fe : FrontEnd) (kind : AnaName) (a : TArg F) : Outcome (PRes (F × F × F)) :=
  match kind with
  | .rect => parseGeometryT fe 2 a
  | _ =>
    (a.arg.isVec fe 1).bind fun good =>
    if good then ((a.kept fe).read 0).bind fun x => .ok (.ret true false (x, lit 0, lit 0))
    else .ok (failMsg fe (lit 0, lit 0, lit 0))

/-- The wrappers of the analytic responses, as `frontAna`, with the memory really accessed.  The number of
intervals of scirc_sir is converted (`mxGetScalar`, extra_src/mex_scirc_sir.cc 231; a kept matrix,
oct_scirc_sir.cc 321). -/
def frontAnaT (opencl : Bool) (fe : FrontEnd) (kind : AnaName) (x : TAnaArgs F) :
    Outcome (Front (AnaRun F)) :=
  (if kind.countOk x.sixth then PRes.ret true false () else failMsg fe ()).next fe fun _ =>
  (checkObs fe x.ro.arg).bind fun r => r.next fe fun No =>
  (parseGeomT fe kind x.geom).bind fun r => r.next fe fun g =>
  (parsePairT fe x.sPar).bind fun r => r.next fe fun (dt, len) =>
  (castIdx fe.idx (trunc len)).bind fun nt =>
  (checkDelay fe x.delay.arg No).bind fun r => r.next fe fun delayType =>
  (parsePairT fe x.mPar).bind fun r => r.next fe fun (v, cp) =>
  (match kind, x.sixth with
    | .scirc, some s => parseIntLen fe s.num
    | _, _ => .ok (.ret true false 0)).bind fun r => r.next fe fun k =>
  (match kind with
    | .rect => parseDevice fe x.sixth
    | _ => .ret true false "").next fe fun dev =>
  allocOut nt fun nt =>
  let C : AnaCall F := {
    kind := kind.toKind g k
    Ro := x.ro.kept fe, No := No, dt := dt, nt := nt, delayType := delayType, delay := x.delay.kept fe
    v := v, cp := cp }
  .ok (.call (if opencl = true ∧ dev = "gpu" then .gpu C else .cpu C))

/-- A call of circ_sir, scirc_sir or rect_sir: as `AnaSees`, with the memory really accessed. -/
inductive AnaSeesT (opencl : Bool) (fe : FrontEnd) (kind : AnaName) (x : TAnaArgs F) (hw : Nat)
    (env : Option String) : Seen F → Prop
  | refused (b : Bool) (h : frontAnaT opencl fe kind x = .ok (.rejected b)) :
      AnaSeesT opencl fe kind x hw env (.refused b)
  | undefined (h : ∀ r, frontAnaT opencl fe kind x ≠ .ok r) : AnaSeesT opencl fe kind x hw env .undefined
  | called (C : AnaCall F) (h : frontAnaT opencl fe kind x = .ok (.call (.cpu C))) (o : Seen F)
      (hs : C.drv.Sees convTail (kind.cnt fe) hw (kind.envSeen fe env) ⟨C.No * C.nt, fun _ => lit 0⟩ o) :
      AnaSeesT opencl fe kind x hw env o

/-- The arguments of dream_att with their classes. -/
structure TAttArgs (F : Type) where
  ro : TArg F
  sPar : TArg F
  delay : TArg F
  mPar : TArg F

/-- The numbers the user wrote. -/
def TAttArgs.plain (x : TAttArgs F) : AttArgs F := ⟨x.ro.arg, x.sPar.arg, x.delay.arg, x.mPar.arg⟩

/-- The memory of the delays of dream_att (mex/mex_dream_att.cc 78, oct/oct_dream_att.cc 143-144).  The wrapper
takes the first delay for all points if the argument has one element (mex/mex_dream_att.cc 104), which `arrive`
decides by the size of this memory; several narrow numbers that fill just one double are therefore given no size
here.  That is the same for every call: with several delays the last one is read, outside this memory, in
either case. -/
def attDelay (fe : FrontEnd) (a : TArg F) : Buf F :=
  if a.arg.size ≠ 1 ∧ (a.kept fe).size = 1 then ⟨0, a.bits⟩ else a.kept fe

/-- dream_att: as `frontAtt`, with the memory really accessed (mex/mex_dream_att.cc 52-83,
oct/oct_dream_att.cc 119-159). -/
def frontAttT (L : FFTLib F) (fe : FrontEnd) (xc0 : Nat → F × F) (x0 : Nat → F) (x : TAttArgs F) :
    Outcome (Front (Buf F)) :=
  (checkObs fe x.ro.arg).bind fun r => r.next fe fun rows =>
  let No := keepCount fe rows
  (parsePairT fe x.sPar).bind fun r => r.next fe fun (dt, len) =>
  (castLen fe (trunc len)).bind fun nt =>
  (checkDelay fe x.delay.arg No.toNat).bind fun r => r.next fe fun _ =>
  (parsePairT fe x.mPar).bind fun r => r.next fe fun (cp, alpha) =>
  allocOut nt fun nt => allocOut No fun No =>
  let D : AttCall F := {
    P := { len := nt, dt := dt, alpha := alpha }
    No := No, Ro := x.ro.kept fe, cp := cp, delay := attDelay fe x.delay, ty := fe.idx }
  (match fe with
    | .octave => dreamAtt32 L D ⟨nt, xc0⟩ ⟨nt, x0⟩ (zeroVec (No * nt))
    | _ => dreamAtt L D ⟨nt, xc0⟩ ⟨nt, x0⟩ (zeroVec (No * nt))).bind fun h => .ok (.call h)

end Dream
