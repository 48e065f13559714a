import Verif.GpuDas
import Verif.DasFront

/-
Delay-and-sum imaging on uniform grids: opencl/das_uni_double.cl (das_uni_float.cl is the same text
with `float` and `f` suffixes), include/das_uni.h, opencl/cl_das_uni.cc, extra_src/mex_das_uni.cc,
extra_src/oct_das_uni.cc.
-/

namespace Dream
open Arith

variable {F : Type} [Arith F]

/-- Three numbers that describe equally spaced positions: first, spacing, last. -/
structure Axis (F : Type) where
  lo : F
  step : F
  hi : F

/-- `(max - min)/pitch + 1.0`, opencl/das_uni_double.cl 23-29, include/das_uni.h 74-81. -/
def Axis.raw (a : Axis F) : F := (a.hi -. a.lo) /. a.step +. lit 1

/-- `(int) (...)` in the kernels. -/
def Axis.dev (a : Axis F) : Outcome Int := castInt (trunc a.raw)

/-- `(dream_idx_type) (...)` in the host code. -/
def Axis.host (ty : IdxTy) (a : Axis F) : Outcome Int := castIdx ty (trunc a.raw)

/-- `min + ((DAS_DATATYPE) n)*pitch`, opencl/das_uni_double.cl 42-44, 57. -/
def Axis.pos (a : Axis F) (n : Int) : F := a.lo +. ofInt n *. a.step

/-- Geometry: transmit, receive (row-column: columns, rows), image grid. -/
structure UniGeo (F : Type) where
  tx : Axis F
  rx : Axis F
  ix : Axis F
  iy : Axis F
  iz : Axis F

/-- Kernel arguments, opencl/das_uni_double.cl 9-18, 79-89, 168-178, 270-280. -/
structure UniArgs (F : Type) extends UniGeo F where
  Y : Buf F
  len : Nat
  dt : F
  delay : F
  cp : F

/-- Coordinates of image point `no`, opencl/das_uni_double.cl 25-44 (the same in all kernels).  A
division by zero is undefined (tag `cast`). -/
def UniGeo.point (A : UniGeo F) (no : Nat) : Outcome (F × F × F) :=
  A.ix.dev.bind fun Nx => A.iy.dev.bind fun Ny => A.iz.dev.bind fun Nz =>
  if Ny = 0 ∨ Nz = 0 ∨ Nx = 0 then .ub .cast else
  let yq := (no : Int).tdiv Ny
  let ny := (no : Int) - yq * Ny
  let zq := yq.tdiv Nz
  let nz := yq - zq * Nz
  let xq := zq.tdiv Nx
  let nx := zq - xq * Nx
  .ok (A.ix.pos nx, A.iy.pos ny, A.iz.pos nz)

/-- `int k = (int) (t_dp*Fs_khz); if (in range) im += y_p[k]; y_p += a_scan_len;`,
opencl/das_uni_double.cl 66-72, 155-161, 266-272, 384-390.  The state is (`im`, offset of `y_p`). -/
def uniScan (A : UniArgs F) (fs t : F) (s : F × Nat) : Outcome (F × Nat) :=
  (castInt (trunc (t *. fs))).bind fun k =>
  (if k < (A.len : Int) ∧ k ≥ 0 then
    (A.Y.read ((s.2 : Int) + k)).bind fun y => .ok (s.1 +. y)
  else .ok s.1).bind fun im => .ok (im, s.2 + A.len)

/-- `native_sqrt(gx*gx + gy*gy + zo*zo) * one_over_cp`; `native_sqrt` is taken to be `sqrt`. -/
def uniTime (gx gy zo ocp : F) : F := sqrt (gx *. gx +. gy *. gy +. zo *. zo) *. ocp

/-- Kernel `das_uni_saft`, opencl/das_uni_double.cl 9-77. -/
def uniSaft (A : UniArgs F) (no : Nat) : Prog F Unit :=
  Prog.lift (A.tx.dev.bind fun num => (A.point no).bind fun (xo, yo, zo) =>
    let fs := (lit 1 /. A.dt) *. lit 1000
    let ocp := lit 1 /. A.cp
    let dms := A.delay /. lit 1000
    forO (fun n s =>
      uniScan A fs (lit 2 *. (uniTime (A.tx.pos n -. xo) yo zo ocp +. dms)) s) num.toNat 0 (lit 0, 0))
  |>.bind fun s => .wr 0 s.1 (.ret ())

/-- Kernel `das_uni_tfm`, opencl/das_uni_double.cl 79-165. -/
def uniTfm (A : UniArgs F) (no : Nat) : Prog F Unit :=
  Prog.lift (A.tx.dev.bind fun nt => A.rx.dev.bind fun nr => (A.point no).bind fun (xo, yo, zo) =>
    let fs := (lit 1 /. A.dt) *. lit 1000
    let ocp := lit 1 /. A.cp
    let dms := A.delay /. lit 1000
    forO (fun i s =>
      let tt := uniTime (A.tx.pos i -. xo) yo zo ocp +. dms
      forO (fun j s =>
        let tr := uniTime (A.rx.pos j -. xo) yo zo ocp
        uniScan A fs (tt +. tr) s) nr.toNat 0 s) nt.toNat 0 (lit 0, 0))
  |>.bind fun s => .wr 0 s.1 (.ret ())

/-- `gy_c`, opencl/das_uni_double.cl 232-241, 366-375: the extent of the columns is that of the rows'
positions. -/
def uniColGap (A : UniArgs F) (yo : F) : F :=
  if le A.rx.lo yo ∧ le yo A.rx.hi then lit 0
  else if lt yo A.rx.lo then A.rx.lo -. yo else A.rx.hi -. yo

/-- `gx_r`, opencl/das_uni_double.cl 251-260, 344-353. -/
def uniRowGap (A : UniArgs F) (xo : F) : F :=
  if lt xo A.tx.lo ∨ lt A.tx.hi xo then
    if lt xo A.tx.lo then A.tx.lo -. xo else A.tx.hi -. xo
  else lit 0

/-- Kernel `das_uni_rca_coltx`, opencl/das_uni_double.cl 168-279; `tx`: columns, `rx`: rows. -/
def uniColtx (A : UniArgs F) (no : Nat) : Prog F Unit :=
  Prog.lift (A.tx.dev.bind fun nc => A.rx.dev.bind fun nr => (A.point no).bind fun (xo, yo, zo) =>
    let fs := (lit 1 /. A.dt) *. lit 1000
    let ocp := lit 1 /. A.cp
    let dms := A.delay /. lit 1000
    forO (fun i s =>
      let tc := uniTime (A.tx.pos i -. xo) (uniColGap A yo) zo ocp +. dms
      forO (fun j s =>
        let tr := uniTime (uniRowGap A xo) (A.rx.pos j -. yo) zo ocp
        uniScan A fs (tc +. tr) s) nr.toNat 0 s) nc.toNat 0 (lit 0, 0))
  |>.bind fun s => .wr 0 s.1 (.ret ())

/-- Kernel `das_uni_rca_rowtx`, opencl/das_uni_double.cl 282-394; `1.0/dt*1000.0` at 333. -/
def uniRowtx (A : UniArgs F) (no : Nat) : Prog F Unit :=
  Prog.lift (A.tx.dev.bind fun nc => A.rx.dev.bind fun nr => (A.point no).bind fun (xo, yo, zo) =>
    let fs := (lit 1 /. A.dt) *. lit 1000
    let ocp := lit 1 /. A.cp
    let dms := A.delay /. lit 1000
    forO (fun i s =>
      let tr := uniTime (uniRowGap A xo) (A.rx.pos i -. yo) zo ocp +. dms
      forO (fun j s =>
        let tc := uniTime (A.tx.pos j -. xo) (uniColGap A yo) zo ocp
        uniScan A fs (tc +. tr) s) nc.toNat 0 s) nr.toNat 0 (lit 0, 0))
  |>.bind fun s => .wr 0 s.1 (.ret ())

/-- Kernel by method, include/das_uni.h 84-101. -/
def uniItems (m : DASType) (A : UniArgs F) : Nat → Prog F Unit :=
  match m with
  | .saft => uniSaft A
  | .tfm => uniTfm A
  | .rcaColtx => uniColtx A
  | .rcaRowtx => uniRowtx A

/-! ### The object, include/das_uni.h -/

/-- The data members, include/das_uni.h 362-366. -/
structure UniSetup where
  dasType : DASType
  len : Nat
  No : Int
  nt : Int
  nr : Int
  deriving DecidableEq, Repr

/-- The numbers computed by `init_opencl` (include/das_uni.h 73-81) and `das_setup_has_changed`
(326-335). -/
def UniGeo.counts (ty : IdxTy) (m : DASType) (len : Nat) (g : UniGeo F) : Outcome UniSetup :=
  (g.tx.host ty).bind fun nt => (g.rx.host ty).bind fun nr =>
  (g.ix.host ty).bind fun Nx => (g.iy.host ty).bind fun Ny => (g.iz.host ty).bind fun Nz =>
  .ok { dasType := m, len := len, No := Nx * Ny * Nz, nt := nt, nr := nr }

/-- `m_num_r_elements = 0` for SAFT, include/das_uni.h 86-89. -/
def UniSetup.forObj (s : UniSetup) : UniSetup := if s.dasType = .saft then { s with nr := 0 } else s

/-- Entries of the data buffer, include/das_uni.h 285-290. -/
def UniSetup.dataLen (s : UniSetup) : Int := s.len * s.nt * (if s.dasType = .saft then 1 else s.nr)

/-- What the constructor comes to. -/
inductive UniBuilt
  /-- it throws: no OpenCL, no device, or a buffer of size zero -/
  | failed
  /-- a size in bytes does not fit the `cl_int` member it is stored in; not modelled further -/
  | tooBig
  | ok (o : UniSetup)
  deriving DecidableEq, Repr

/-- Does a number of bytes fit `cl_int`? -/
def fitsClInt (i : Int) : Bool := decide (-2147483648 ≤ i ∧ i < 2147483648)

/-- The constructor: opencl/cl_das_uni.cc 31-60, include/das_uni.h 66-318.  `clCreateBuffer` refuses
sizes that are not positive.  `initOk`: the rest of the OpenCL set-up works. -/
def UniSetup.build (initOk single : Bool) (s : UniSetup) : UniBuilt :=
  let o := s.forObj
  let w : Int := if single then 4 else 8
  if !(fitsClInt (o.dataLen * w) && fitsClInt (o.No * w)) then .tooBig
  else if o.dataLen ≤ 0 ∨ o.No ≤ 0 ∨ initOk = false then .failed
  else .ok o

/-- `das_setup_has_changed`, include/das_uni.h 337-343. -/
def UniSetup.changed (o s : UniSetup) : Bool :=
  s.dasType != o.dasType || s.len != o.len || s.No != o.No || s.nt != o.nt || s.nr != o.nr

/-! ### The interfaces -/

/-- Arguments of `das_uni` in MATLAB and Octave; the flags are those of `DasArgs`. -/
structure UniIn (F : Type) where
  y : Arg F
  gt : Arg F
  gr : Arg F
  grid : Arg F
  dt : Arg F
  delay : Arg F
  cp : Arg F
  method : StrArg
  single : Bool
  sameType : Bool
  shared : Bool
  delayShared : Bool

/-- What the wrapper hands on. -/
structure UniJob (F : Type) extends UniGeo F where
  Y : Buf F
  len : Nat
  method : DASType
  dt : F
  delay : Buf F
  cp : F
  /-- size of the image vector -/
  imLen : Nat
  single : Bool

/-- Reads entries `i`, `j`, `k`. -/
def readAxis (b : Buf F) (i j k : Nat) : Outcome (Axis F) :=
  (b.read (i : Int)).bind fun x => (b.read (j : Int)).bind fun y => (b.read (k : Int)).bind fun z =>
  .ok ⟨x, y, z⟩

/-- Transmit array, extra_src/mex_das_uni.cc 105-124, oct_das_uni.cc 185-207. -/
def txArg {α : Type} (a : Arg F) (k : Axis F → Outcome (Front α)) : Outcome (Front α) :=
  (a.dim 0).bind fun m => (a.dim 1).bind fun n =>
  if m * n ≠ 3 then .ok (.rejected true) else (readAxis a.buf 0 1 2).bind k

/-- Receive array, extra_src/mex_das_uni.cc 130-152 (empty: no columns), oct_das_uni.cc 213-239 (empty:
no entries). -/
def rxArg {α : Type} (fe : FrontEnd) (a : Arg F) (k : Axis F → Outcome (Front α)) : Outcome (Front α) :=
  (a.dim 0).bind fun m => (a.dim 1).bind fun n =>
  if (if fe = .matlab then n else m * n) ≠ 0 then
    if m * n ≠ 3 then .ok (.rejected true) else (readAxis a.buf 0 1 2).bind k
  else k ⟨lit 0, lit 0, lit 0⟩

/-- Image grid: MATLAB tests `mxGetN(prhs[3]) != 3` twice (extra_src/mex_das_uni.cc 159-161), Octave
rows and columns (oct_das_uni.cc 246-249).  The entries are read as if there were three rows
(mex_das_uni.cc 174-190). -/
def gridArg {α : Type} (fe : FrontEnd) (a : Arg F)
    (k : Axis F → Axis F → Axis F → Outcome (Front α)) : Outcome (Front α) :=
  (a.dim 0).bind fun m => (a.dim 1).bind fun n =>
  if n ≠ 3 ∨ (fe ≠ .matlab ∧ m ≠ 3) then .ok (.rejected true) else
  (readAxis a.buf 0 3 6).bind fun ix => (readAxis a.buf 1 4 7).bind fun iy =>
  (readAxis a.buf 2 5 8).bind fun iz => k ix iy iz

/-- The wrapper up to the choice of the object: extra_src/mex_das_uni.cc 42-265,
extra_src/oct_das_uni.cc 127-373. -/
def frontUni (fe : FrontEnd) (x : UniIn F) : Outcome (Front (UniJob F)) :=
  if x.sameType = false then .ok (.rejected true) else
  (x.y.dim 0).bind fun len =>
  txArg x.gt fun tx =>
  rxArg fe x.gr fun rx =>
  gridArg fe x.grid fun ix iy iz =>
  (ix.host fe.idx).bind fun Nx => (iy.host fe.idx).bind fun Ny => (iz.host fe.idx).bind fun Nz =>
  scalarArg x.dt fun dt =>
  (checkDelay fe x.delay (Nx * Ny * Nz).toNat).bind fun r => r.next fe fun _ =>
  scalarArg x.cp fun cp =>
  (parseDas fe x.method).next fe fun m =>
  allocOut (Nx * Ny * Nz) fun imLen =>
  .ok (.call {
    tx := tx, rx := rx, ix := ix, iy := iy, iz := iz
    Y := ptr fe x.shared x.y, len := len, method := m
    dt := dt, delay := ptr fe x.delayShared x.delay, cp := cp
    imLen := imLen, single := x.single })

/-- The two persistent pointers, extra_src/mex_das_uni.cc 33-34. -/
structure UniStore where
  f : Option UniSetup
  d : Option UniSetup
  deriving DecidableEq, Repr

/-- What a call comes to. -/
inductive UniOut (F : Type)
  | rejected (said : Bool)
  | initFailed
  | tooBig
  /-- kernel `m` is launched with these arguments over `No` work-items; `No` values are read back
  into the image vector with `imLen` entries -/
  | launch (m : DASType) (A : UniArgs F) (No : Nat) (imLen : Nat)

/-- `cl_das_uni` on object `o`, opencl/cl_das_uni.cc 69-187: the data buffer is filled from the host
memory (line 86), `delay[0]` is read by the caller (extra_src/mex_das_uni.cc 343, 354). -/
def UniJob.on (j : UniJob F) (o : UniSetup) : Outcome (UniOut F) :=
  (j.delay.read 0).bind fun d =>
  if (j.Y.size : Int) < o.dataLen then .ub .oob else
  .ok (.launch o.dasType {
    tx := j.tx, rx := j.rx, ix := j.ix, iy := j.iy, iz := j.iz
    Y := ⟨o.dataLen.toNat, j.Y.data⟩, len := o.len, dt := j.dt, delay := d, cp := j.cp } o.No.toNat j.imLen)

/-- Use of one of the pointers: keep the object or make a new one; the flag says that a new one was
made or tried. -/
def useUni (initOk single : Bool) (cur : Option UniSetup) (s : UniSetup) : UniBuilt × Bool :=
  match cur with
  | some o => if o.changed s then (s.build initOk single, true) else (.ok o, false)
  | none => (s.build initOk single, true)

/-- One accepted call, extra_src/mex_das_uni.cc 267-360, oct_das_uni.cc 375-490.  A new object of one
precision is made after dropping the object of the other. -/
def UniJob.call (fe : FrontEnd) (initOk : Bool) (st : UniStore) (j : UniJob F) :
    UniStore × Outcome (UniOut F) :=
  match j.toUniGeo.counts fe.idx j.method j.len with
  | .ub u => (st, .ub u)
  | .fuel => (st, .fuel)
  | .ok s =>
    let r := useUni initOk j.single (if j.single then st.f else st.d) s
    let st : UniStore := if r.2 then (if j.single then { st with d := none } else { st with f := none }) else st
    match r.1 with
    | .failed => (st, .ok .initFailed)
    | .tooBig => (st, .ok .tooBig)
    | .ok o => (if j.single then { st with f := some o } else { st with d := some o }, j.on o)

/-- One call of `das_uni`. -/
def uniCall (fe : FrontEnd) (st : UniStore) (e : Bool × UniIn F) : UniStore × Outcome (UniOut F) :=
  match frontUni fe e.2 with
  | .ub u => (st, .ub u)
  | .fuel => (st, .fuel)
  | .ok (.rejected b) => (st, .ok (.rejected b))
  | .ok (.call j) => j.call fe e.1 st

/-- The pointers after a session of calls. -/
def uniSession (fe : FrontEnd) : List (Bool × UniIn F) → UniStore :=
  List.foldl (fun st e => (uniCall fe st e).1) ⟨none, none⟩

end Dream
