import Verif.Prog
import Verif.ProgBad
import Verif.AnnuThms
import Verif.Driver
import Verif.FftConv
import Mathlib.Logic.Basic

/-
Delay-and-sum imaging: extra_src/das.cc.
-/

namespace Dream
open Arith

variable {F : Type} [Arith F]

/-- A loop that is left as soon as the code is "out of bounds" (the `return err; // Bail out.` of
extra_src/das.cc 348-350, 415-417, 516-518, 613-615). -/
def scanLoop (f : Nat → SIRError → Prog F SIRError) : (k start : Nat) → SIRError → Prog F SIRError
  | 0, _, e => .ret e
  | k + 1, q, e =>
    if e = .outOfBounds then .ret e else (f q e).bind fun e' => scanLoop f k (q + 1) e'

/-- Data of an imaging call that all methods share. -/
structure DasData (F : Type) where
  /-- the A-scans, `a_scan_len` samples each -/
  Y : Buf F
  len : Nat
  ty : IdxTy
  level : ErrorLevel

/-- One A-scan: `auto k = dream_idx_type(t_dp*Fs_khz); if (in range) im += y_p[k]; else err = ...`,
extra_src/das.cc 335-353, 402-419, 503-519, 600-616.  `y_p` is `&Y[q*a_scan_len]` since it is
advanced by `a_scan_len` after every A-scan.  The image value is entry 0 of the column. -/
def DasData.scan (D : DasData F) (fs : F) (q : Nat) (t : F) (e : SIRError) : Prog F SIRError :=
  (Prog.lift (castIdx D.ty (trunc (t *. fs)))).bind fun k =>
  if k < (D.len : Int) ∧ 0 ≤ k then
    (Prog.lift (D.Y.read (((q * D.len : Nat) : Int) + k))).bind fun v =>
    .rd 0 fun z => .wr 0 (z +. v) (.ret e)
  else .ret (oobErr D.level)

/-- `std::sqrt(gx*gx + gy*gy + gz*gz) * one_over_cp`. -/
def travel (gx gy gz ocp : F) : F := sqrt (gx *. gx +. gy *. gy +. gz *. gz) *. ocp

/-- One-way travel time between element `n` of grid `G` (column-major `num`×3) and the observation
point, extra_src/das.cc 329-332, 383-386, 393-396. -/
def elemTime (G : Buf F) (num n : Nat) (xo yo zo ocp : F) : Outcome F :=
  (G.read (n : Int)).bind fun x =>
  (G.read ((n + 1 * num : Nat) : Int)).bind fun y =>
  (G.read ((n + 2 * num : Nat) : Int)).bind fun z =>
  .ok (travel (x -. xo) (y -. yo) (z -. zo) ocp)

/-- `(1.0/dt)*1000.0`, extra_src/das.cc 317.  Simplified for the `float` instance of the template: there the
expression is evaluated in `double` and rounded once (here: after each operation). -/
def fsKhz (dt : F) : F := (lit 1 /. dt) *. lit 1000

/-- `1.0/cp`, extra_src/das.cc 318 (for `float`: a `double` division rounded to `float`, which is the `float`
quotient; the same in `delayMs`). -/
def oneOver (cp : F) : F := lit 1 /. cp

/-- `delay/1000.0`, extra_src/das.cc 319 -/
def delayMs (delay : F) : F := delay /. lit 1000

/-- Start of all four functions: `im = 0.0`. -/
def startPixel (p : Prog F SIRError) : Prog F SIRError := .wr 0 (lit 0) p

/-- `das_saft_serial`, extra_src/das.cc 307-357. -/
def dasSaft (D : DasData F) (g : Buf F) (num : Nat) (xo yo zo dt delay cp : F) : Prog F SIRError :=
  startPixel <| scanLoop (fun n e =>
    (Prog.lift (elemTime g num n xo yo zo (oneOver cp))).bind fun t =>
    D.scan (fsKhz dt) n (lit 2 *. (t +. delayMs delay)) e) num 0 .none

/-- `das_tfm_serial`, extra_src/das.cc 366-427. -/
def dasTfm (D : DasData F) (Gt : Buf F) (nt : Nat) (Gr : Buf F) (nr : Nat)
    (xo yo zo dt delay cp : F) : Prog F SIRError :=
  startPixel <| scanLoop (fun i e =>
    (Prog.lift (elemTime Gt nt i xo yo zo (oneOver cp))).bind fun tt =>
    scanLoop (fun j e =>
      (Prog.lift (elemTime Gr nr j xo yo zo (oneOver cp))).bind fun tr =>
      D.scan (fsKhz dt) (i * nr + j) ((tt +. delayMs delay) +. tr) e) nr 0 e) nt 0 .none

/-- Distance component along a stripe: zero inside the aperture, otherwise to the nearer edge,
extra_src/das.cc 474-482, 491-499. -/
def edge (lo hi v : F) : F :=
  if le lo v ∧ le v hi then lit 0 else if lt v lo then lo -. v else hi -. v

/-- Stripe limits `gc_y_min, gc_y_max, gr_x_min, gr_x_max` as the source reads them,
extra_src/das.cc 461-464 and 557-560. -/
def rcaLimits (Gc : Buf F) (nc : Nat) (Gr : Buf F) (nr : Nat) : Outcome (F × F × F × F) :=
  (Gr.read ((0 + 1 * nc : Nat) : Int)).bind fun ymin =>
  (Gr.read ((nc : Int) - 1 + 1 * nc)).bind fun ymax =>
  (Gc.read 0).bind fun xmin =>
  (Gc.read ((nr : Int) - 1)).bind fun xmax =>
  .ok (ymin, ymax, xmin, xmax)

/-- Travel time of column element `n`, extra_src/das.cc 472-485 (without the delay). -/
def colTime (Gc : Buf F) (nc n : Nat) (ymin ymax xo yo zo ocp : F) : Outcome F :=
  (Gc.read (n : Int)).bind fun x =>
  (Gc.read ((n + 2 * nc : Nat) : Int)).bind fun z =>
  .ok (travel (x -. xo) (edge ymin ymax yo) (z -. zo) ocp)

/-- Travel time of row element `n`, extra_src/das.cc 490-503. -/
def rowTime (Gr : Buf F) (nr n : Nat) (xmin xmax xo yo zo ocp : F) : Outcome F :=
  (Gr.read ((n + 1 * nr : Nat) : Int)).bind fun y =>
  (Gr.read ((n + 2 * nr : Nat) : Int)).bind fun z =>
  .ok (travel (edge xmin xmax xo) (y -. yo) (z -. zo) ocp)

/-- `das_rca_serial_coltx`, extra_src/das.cc 438-529. -/
def dasColtx (D : DasData F) (Gc : Buf F) (nc : Nat) (Gr : Buf F) (nr : Nat)
    (xo yo zo dt delay cp : F) : Prog F SIRError :=
  (Prog.lift (rcaLimits Gc nc Gr nr)).bind fun (ymin, ymax, xmin, xmax) =>
  startPixel <| scanLoop (fun i e =>
    (Prog.lift (colTime Gc nc i ymin ymax xo yo zo (oneOver cp))).bind fun tc =>
    scanLoop (fun j e =>
      (Prog.lift (rowTime Gr nr j xmin xmax xo yo zo (oneOver cp))).bind fun tr =>
      D.scan (fsKhz dt) (i * nr + j) ((tc +. delayMs delay) +. tr) e) nr 0 e) nc 0 .none

/-- `das_rca_serial_rowtx`, extra_src/das.cc 534-626. -/
def dasRowtx (D : DasData F) (Gc : Buf F) (nc : Nat) (Gr : Buf F) (nr : Nat)
    (xo yo zo dt delay cp : F) : Prog F SIRError :=
  (Prog.lift (rcaLimits Gc nc Gr nr)).bind fun (ymin, ymax, xmin, xmax) =>
  startPixel <| scanLoop (fun i e =>
    (Prog.lift (rowTime Gr nr i xmin xmax xo yo zo (oneOver cp))).bind fun tr =>
    scanLoop (fun j e =>
      (Prog.lift (colTime Gc nc j ymin ymax xo yo zo (oneOver cp))).bind fun tc =>
      D.scan (fsKhz dt) (i * nc + j) ((tc +. delayMs delay) +. tr) e) nc 0 e) nr 0 .none

/-! ### The driver -/

/-- Arguments of `DAS::das`, extra_src/das.cc 200-207, and of the constructor. -/
structure DasCall (F : Type) extends DasData F where
  dasType : DASType
  Gt : Buf F
  nt : Nat
  Gr : Buf F
  nr : Nat
  Ro : Buf F
  No : Nat
  dt : F
  cp : F
  delayType : DelayType
  delay : Buf F

namespace DasCall

/-- "Force SAFT if Gt is empty", extra_src/das.cc 211-214. -/
def method (C : DasCall F) : DASType := if C.nr = 0 then .saft else C.dasType

/-- Reading of observation point and delay, extra_src/das.cc 127-136. -/
def inputs (C : DasCall F) (n : Nat) : Outcome (F × F × F × F) :=
  (C.Ro.read (n : Int)).bind fun xo =>
  (C.Ro.read ((n + 1 * C.No : Nat) : Int)).bind fun yo =>
  (C.Ro.read ((n + 2 * C.No : Nat) : Int)).bind fun zo =>
  (C.delay.read (match C.delayType with | .single => 0 | .multiple => (n : Int))).bind fun d =>
  .ok (xo, yo, zo, d)

/-- Image value of observation point `n`, extra_src/das.cc 138-175. -/
def prog (C : DasCall F) (n : Nat) : Prog F SIRError :=
  (Prog.lift (C.inputs n)).bind fun (xo, yo, zo, d) =>
  match C.method with
  | .saft => dasSaft C.toDasData C.Gt C.nt xo yo zo C.dt d C.cp
  | .tfm => dasTfm C.toDasData C.Gt C.nt C.Gr C.nr xo yo zo C.dt d C.cp
  | .rcaColtx => dasColtx C.toDasData C.Gt C.nt C.Gr C.nr xo yo zo C.dt d C.cp
  | .rcaRowtx => dasRowtx C.toDasData C.Gt C.nt C.Gr C.nr xo yo zo C.dt d C.cp

/-- The threaded driver, extra_src/das.cc 200-298; `running` has been set by the wrapper
(`set_running`). -/
def drv (C : DasCall F) : Drv F (Prog F SIRError) :=
  Drv.ofProg C.No 1 (fun n => n) C.level C.prog

/-- Number of A-scans the method uses. -/
def scans (C : DasCall F) : Nat := if C.method = .saft then C.nt else C.nt * C.nr

/-- Sizes of the argument buffers: three coordinates per element and point, one A-scan per
transmitter (SAFT) or per pair (at least; further columns are not looked at), one image value per
point. -/
structure Sized (C : DasCall F) (Im : Buf F) : Prop where
  y : C.scans * C.len ≤ C.Y.size
  gt : C.Gt.size = 3 * C.nt
  gr : C.Gr.size = 3 * C.nr
  ro : C.Ro.size = 3 * C.No
  delay : C.delay.size = match C.delayType with | .single => 1 | .multiple => C.No
  im : Im.size = C.No

/-- The sizes of the grids, points and delays only. -/
structure Shaped (C : DasCall F) : Prop where
  gt : C.Gt.size = 3 * C.nt
  gr : C.Gr.size = 3 * C.nr
  ro : C.Ro.size = 3 * C.No
  delay : C.delay.size = match C.delayType with | .single => 1 | .multiple => C.No

omit [Arith F] in
theorem Sized.shaped {C : DasCall F} {Im : Buf F} (h : C.Sized Im) : C.Shaped :=
  ⟨h.gt, h.gr, h.ro, h.delay⟩

end DasCall

/-! ### Flat loops -/

theorem Prog.bind_assoc {G α β γ : Type} (p : Prog G α) (f : α → Prog G β) (g : β → Prog G γ) :
    (p.bind f).bind g = p.bind fun a => (f a).bind g := by
  induction p with
  | ret a => rfl
  | bad e => rfl
  | spin => rfl
  | rd j k ih => simp only [Prog.bind, ih]
  | wr j x p ih => simp only [Prog.bind, ih]

theorem scanLoop_oob (f : Nat → SIRError → Prog F SIRError) (k q : Nat) :
    scanLoop f k q .outOfBounds = .ret .outOfBounds := by
  cases k <;> simp [scanLoop]

theorem scanLoop_append (f : Nat → SIRError → Prog F SIRError) (a b : Nat) :
    ∀ (q : Nat) (e : SIRError), scanLoop f (a + b) q e =
      (scanLoop f a q e).bind fun e' => scanLoop f b (q + a) e' := by
  induction a with
  | zero => intro q e; simp [scanLoop, Prog.bind]
  | succ a ih =>
    intro q e
    rw [show a + 1 + b = a + b + 1 from by omega]
    simp only [scanLoop]
    by_cases h : e = .outOfBounds
    · rw [if_pos h, if_pos h, h]
      simp [Prog.bind, scanLoop_oob]
    · rw [if_neg h, if_neg h, Prog.bind_assoc]
      congr 1
      funext e'
      rw [ih (q + 1) e', show q + (a + 1) = q + 1 + a from by omega]

theorem scanLoop_congr (f g : Nat → SIRError → Prog F SIRError) (k : Nat) :
    ∀ (q q' : Nat) (e : SIRError), (∀ i, i < k → f (q + i) = g (q' + i)) →
    scanLoop f k q e = scanLoop g k q' e := by
  induction k with
  | zero => intro q q' e _; rfl
  | succ k ih =>
    intro q q' e h
    simp only [scanLoop]
    have h0 : f q = g q' := by simpa using h 0 (by omega)
    rw [h0]
    congr 1
    congr 1
    funext e'
    exact ih (q + 1) (q' + 1) e' (fun i hi => by
      have := h (i + 1) (by omega)
      rwa [show q + (i + 1) = q + 1 + i from by omega,
        show q' + (i + 1) = q' + 1 + i from by omega] at this)

/-- A doubly nested loop over A-scans is one loop. -/
theorem scanLoop_nested (g : Nat → Nat → SIRError → Prog F SIRError) (n m : Nat) (hm : 1 ≤ m) :
    ∀ (a : Nat) (e : SIRError), scanLoop (fun i e => scanLoop (fun j e => g i j e) m 0 e) n a e =
      scanLoop (fun q e => g (q / m) (q % m) e) (n * m) (a * m) e := by
  induction n with
  | zero => intro a e; simp [scanLoop]
  | succ n ih =>
    intro a e
    rw [Nat.add_mul, Nat.one_mul, Nat.add_comm (n * m),
      scanLoop_append (fun q e => g (q / m) (q % m) e) m (n * m)]
    simp only [scanLoop]
    by_cases h : e = .outOfBounds
    · rw [if_pos h, h, scanLoop_oob]
      simp [Prog.bind, scanLoop_oob]
    · rw [if_neg h]
      congr 1
      · refine scanLoop_congr _ _ m 0 (a * m) e ?_
        intro i hi
        rw [Nat.zero_add, Nat.mul_comm a m, Nat.mul_add_div (by omega), Nat.mul_add_mod,
          Nat.div_eq_of_lt hi, Nat.mod_eq_of_lt hi, Nat.add_zero]
      · funext e'
        rw [ih (a + 1) e', Nat.add_mul, Nat.one_mul]

/-- All four methods have this form: A-scan `q` is sampled at time `t q`. -/
def flatScan (D : DasData F) (fs : F) (t : Nat → F) (n : Nat) : Prog F SIRError :=
  startPixel (scanLoop (fun q e => D.scan fs q (t q) e) n 0 .none)

/-- Travel time to element `n` when the grid has `num` elements. -/
def elemVal (G : Buf F) (num n : Nat) (xo yo zo ocp : F) : F :=
  travel (G.data n -. xo) (G.data (n + num) -. yo) (G.data (n + 2 * num) -. zo) ocp

theorem elemTime_ok (G : Buf F) (num n : Nat) (xo yo zo ocp : F) (hG : G.size = 3 * num)
    (hn : n < num) : elemTime G num n xo yo zo ocp = .ok (elemVal G num n xo yo zo ocp) := by
  unfold elemTime
  rw [Buf.read_nat _ _ (by omega), Outcome.ok_bind, Buf.read_nat _ _ (by omega), Outcome.ok_bind,
    Buf.read_nat _ _ (by omega), Outcome.ok_bind, Nat.one_mul]
  rfl

theorem dasSaft_flat (D : DasData F) (g : Buf F) (num : Nat) (xo yo zo dt delay cp : F)
    (hg : g.size = 3 * num) :
    dasSaft D g num xo yo zo dt delay cp =
      flatScan D (fsKhz dt)
        (fun q => lit 2 *. (elemVal g num q xo yo zo (oneOver cp) +. delayMs delay)) num := by
  unfold dasSaft flatScan
  congr 1
  refine scanLoop_congr _ _ num 0 0 _ ?_
  intro i hi
  rw [Nat.zero_add]
  funext e
  rw [elemTime_ok g num i xo yo zo _ hg hi]
  rfl

/-- Nested loops whose times are defined. -/
theorem nested_flat (D : DasData F) (fs : F) (n m : Nat) (hm : 1 ≤ m) (outer inner : Nat → Outcome F)
    (to ti : Nat → F) (comb : F → F → F) (ho : ∀ i, i < n → outer i = .ok (to i))
    (hi : ∀ j, j < m → inner j = .ok (ti j)) :
    scanLoop (fun i e => (Prog.lift (outer i)).bind fun a =>
      scanLoop (fun j e => (Prog.lift (inner j)).bind fun b => D.scan fs (i * m + j) (comb a b) e)
        m 0 e) n 0 .none =
    scanLoop (fun q e => D.scan fs q (comb (to (q / m)) (ti (q % m))) e) (n * m) 0 .none := by
  have h1 : scanLoop (fun i e => (Prog.lift (outer i)).bind fun a =>
      scanLoop (fun j e => (Prog.lift (inner j)).bind fun b => D.scan fs (i * m + j) (comb a b) e)
        m 0 e) n 0 .none =
      scanLoop (fun i e => scanLoop (fun j e =>
        D.scan fs (i * m + j) (comb (to i) (ti j)) e) m 0 e) n 0 .none := by
    refine scanLoop_congr _ _ n 0 0 _ ?_
    intro i hi'
    funext e
    rw [Nat.zero_add, ho i hi']
    show scanLoop _ m 0 e = _
    refine scanLoop_congr _ _ m 0 0 _ ?_
    intro j hj
    funext e
    rw [Nat.zero_add, hi j hj]
    rfl
  rw [h1, scanLoop_nested (fun i j e => D.scan fs (i * m + j) (comb (to i) (ti j)) e) n m hm 0]
  rw [Nat.zero_mul]
  refine scanLoop_congr _ _ (n * m) 0 0 _ ?_
  intro q hq
  funext e
  rw [Nat.zero_add]
  rw [Nat.mul_comm (q / m) m, Nat.div_add_mod]

theorem dasTfm_flat (D : DasData F) (Gt : Buf F) (nt : Nat) (Gr : Buf F) (nr : Nat) (hnr : 1 ≤ nr)
    (xo yo zo dt delay cp : F) (ht : Gt.size = 3 * nt) (hr : Gr.size = 3 * nr) :
    dasTfm D Gt nt Gr nr xo yo zo dt delay cp =
      flatScan D (fsKhz dt) (fun q => (elemVal Gt nt (q / nr) xo yo zo (oneOver cp) +. delayMs delay)
        +. elemVal Gr nr (q % nr) xo yo zo (oneOver cp)) (nt * nr) := by
  unfold dasTfm flatScan
  congr 1
  exact nested_flat D (fsKhz dt) nt nr hnr _ _
    (fun i => elemVal Gt nt i xo yo zo (oneOver cp)) (fun j => elemVal Gr nr j xo yo zo (oneOver cp))
    (fun a b => (a +. delayMs delay) +. b)
    (fun i hi => elemTime_ok Gt nt i xo yo zo _ ht hi)
    (fun j hj => elemTime_ok Gr nr j xo yo zo _ hr hj)

/-! ### Meaning of the flat loop -/

/-- Index that A-scan `q` is sampled at is defined and equal to `k q`. -/
def DasData.Idx (D : DasData F) (fs : F) (t : Nat → F) (k : Nat → Int) (n : Nat) : Prop :=
  ∀ q, q < n → castIdx D.ty (trunc (t q *. fs)) = .ok (k q)

/-- Index inside the A-scan. -/
def DasData.hit (D : DasData F) (k : Nat → Int) (q : Nat) : Prop := 0 ≤ k q ∧ k q < (D.len : Int)

instance (D : DasData F) (k : Nat → Int) (q : Nat) : Decidable (D.hit k q) :=
  inferInstanceAs (Decidable (_ ∧ _))

/-- Sum over the first `n` A-scans of the samples at index `k q`, out-of-range ones left out, in
loop order. -/
def DasData.acc (D : DasData F) (k : Nat → Int) : Nat → F
  | 0 => lit 0
  | n + 1 => if D.hit k n then D.acc k n +. D.Y.data (n * D.len + (k n).toNat) else D.acc k n

theorem DasData.scan_run (D : DasData F) (fs : F) (q : Nat) (t : F) (k : Nat → Int)
    (hk : castIdx D.ty (trunc (t *. fs)) = .ok (k q)) (n : Nat) (hq : q < n)
    (hY : n * D.len ≤ D.Y.size) (e : SIRError) (c : Nat → F) :
    (D.scan fs q t e).runCol 1 c =
      .ok ((fun i => if i = 0 ∧ D.hit k q then c 0 +. D.Y.data (q * D.len + (k q).toNat) else c i),
        if D.hit k q then e else oobErr D.level) := by
  unfold DasData.scan
  rw [hk, Prog.runCol_bind, Prog.runCol_lift]
  simp only [Outcome.map, Outcome.bind]
  by_cases h : D.hit k q
  · have h1 : (q + 1) * D.len ≤ n * D.len := Nat.mul_le_mul_right _ hq
    rw [Nat.add_mul, Nat.one_mul] at h1
    obtain ⟨g1, g2⟩ := h
    rw [if_pos ⟨g2, g1⟩]
    have hr : D.Y.read (((q * D.len : Nat) : Int) + k q) =
        .ok (D.Y.data (q * D.len + (k q).toNat)) := by
      unfold Buf.read
      rw [if_pos (by omega)]
      congr 2
      omega
    rw [hr]
    simp only [Prog.lift, Prog.bind, Prog.runCol]
    rw [if_pos (by omega), if_pos (by omega), if_pos ⟨g1, g2⟩]
    congr 2
    funext i
    simp only [Int.toNat_zero]
    by_cases hi : i = 0
    · rw [if_pos hi, if_pos ⟨hi, g1, g2⟩]
    · rw [if_neg hi, if_neg (fun h => hi h.1)]
  · rw [if_neg (fun g => h ⟨g.2, g.1⟩), if_neg h]
    simp only [Prog.runCol]
    congr 2
    funext i
    rw [if_neg (fun g => h g.2)]

/-- What the loop over the A-scans `q, ..., q+m-1` does to the image value and the code. -/
def DasData.fold (D : DasData F) (k : Nat → Int) : (m q : Nat) → F → SIRError → F × SIRError
  | 0, _, z, e => (z, e)
  | m + 1, q, z, e =>
    if e = .outOfBounds then (z, e)
    else if D.hit k q then D.fold k m (q + 1) (z +. D.Y.data (q * D.len + (k q).toNat)) e
    else D.fold k m (q + 1) z (oobErr D.level)

theorem DasData.loop_run (D : DasData F) (fs : F) (t : Nat → F) (k : Nat → Int) (n : Nat)
    (hk : D.Idx fs t k n) (hY : n * D.len ≤ D.Y.size) : ∀ (m q : Nat), q + m ≤ n →
    ∀ (e : SIRError) (c : Nat → F),
    (scanLoop (fun q e => D.scan fs q (t q) e) m q e).runCol 1 c =
      .ok ((fun i => if i = 0 then (D.fold k m q (c 0) e).1 else c i), (D.fold k m q (c 0) e).2) := by
  intro m
  induction m with
  | zero =>
    intro q _ e c
    simp only [scanLoop, Prog.runCol, fold]
    congr 2
    funext i
    by_cases hi : i = 0
    · rw [if_pos hi, hi]
    · rw [if_neg hi]
  | succ m ih =>
    intro q hq e c
    simp only [scanLoop, fold]
    by_cases he : e = .outOfBounds
    · rw [if_pos he, if_pos he]
      simp only [Prog.runCol]
      congr 2
      funext i
      by_cases hi : i = 0
      · rw [if_pos hi, hi]
      · rw [if_neg hi]
    · rw [if_neg he, if_neg he, Prog.runCol_bind,
        D.scan_run fs q (t q) k (hk q (by omega)) n (by omega) hY e c]
      simp only [Outcome.bind]
      rw [ih (q + 1) (by omega)]
      by_cases h : D.hit k q
      · have h0 : True ∧ D.hit k q := ⟨trivial, h⟩
        simp only [if_pos h, if_pos h0]
        congr 2
        funext i
        by_cases hi : i = 0
        · rw [if_pos hi, if_pos hi]
        · rw [if_neg hi, if_neg hi, if_neg (fun g => hi g.1)]
      · have h0 : ¬ (True ∧ D.hit k q) := fun g => h g.2
        simp only [if_neg h, if_neg h0]
        congr 2
        funext i
        by_cases hi : i = 0
        · rw [if_pos hi, if_pos hi]
        · rw [if_neg hi, if_neg hi, if_neg (fun g => hi g.1)]

theorem DasData.fold_oob (D : DasData F) (k : Nat → Int) (m q : Nat) (z : F) :
    D.fold k m q z .outOfBounds = (z, .outOfBounds) := by
  cases m <;> simp [fold]

/-- As long as every index is inside, the loop sums. -/
theorem DasData.fold_hits (D : DasData F) (k : Nat → Int) (m : Nat) : ∀ q,
    (∀ i, q ≤ i → i < q + m → D.hit k i) →
    D.fold k m q (D.acc k q) .none = (D.acc k (q + m), .none) := by
  induction m with
  | zero => intro q _; rfl
  | succ m ih =>
    intro q h
    have hq := h q (Nat.le_refl _) (by omega)
    have := ih (q + 1) (fun i h1 h2 => h i (by omega) (by omega))
    rw [show q + (m + 1) = q + 1 + m from by omega, ← this]
    simp only [fold, acc, if_pos hq]
    rw [if_neg (by simp)]

/-- Below the stop level the loop sums over the indices inside. -/
theorem DasData.fold_below (D : DasData F) (k : Nat → Int) (hl : oobErr D.level ≠ .outOfBounds)
    (m : Nat) : ∀ q e, (e = .none ∨ e = oobErr D.level) →
    D.fold k m q (D.acc k q) e = (D.acc k (q + m),
      if ∀ i, i < m → D.hit k (q + i) then e else oobErr D.level) := by
  induction m with
  | zero => intro q e _; simp [fold]
  | succ m ih =>
    intro q e he
    have hne : e ≠ .outOfBounds := by
      rcases he with h | h
      · rw [h]; simp
      · rw [h]; exact hl
    simp only [fold]
    rw [if_neg hne]
    by_cases h : D.hit k q
    · rw [if_pos h]
      have h2 := ih (q + 1) e he
      simp only [acc, if_pos h] at h2
      rw [h2, show q + (m + 1) = q + 1 + m from by omega]
      congr 1
      refine if_congr ⟨?_, ?_⟩ rfl rfl
      · intro g i hi
        cases i with
        | zero => exact h
        | succ i =>
          have := g i (by omega)
          rwa [show q + 1 + i = q + (i + 1) from by omega] at this
      · intro g i hi
        have := g (i + 1) (by omega)
        rwa [show q + (i + 1) = q + 1 + i from by omega] at this
    · rw [if_neg h]
      have h2 := ih (q + 1) (oobErr D.level) (.inr rfl)
      simp only [acc, if_neg h] at h2
      rw [h2, show q + (m + 1) = q + 1 + m from by omega]
      have hn : ¬ ∀ i, i < m + 1 → D.hit k (q + i) := fun g => h (by simpa using g 0 (by omega))
      rw [if_neg hn]
      simp

/-- At the stop level the loop ends at the first index outside. -/
theorem DasData.fold_stop (D : DasData F) (k : Nat → Int) (hl : oobErr D.level = .outOfBounds)
    (n q : Nat) (hq : q < n) (hm : ¬ D.hit k q) (hbefore : ∀ i, i < q → D.hit k i) :
    D.fold k n 0 (lit 0) .none = (D.acc k q, .outOfBounds) := by
  suffices h : ∀ (j m : Nat), j + m = n → j ≤ q →
      D.fold k m j (D.acc k j) .none = (D.acc k q, .outOfBounds) from h 0 n (by omega) (by omega)
  intro j m
  induction m generalizing j with
  | zero => intro h1 h2; omega
  | succ m ih =>
    intro h1 h2
    simp only [fold]
    rw [if_neg (by simp)]
    by_cases h : D.hit k j
    · have hj : j ≠ q := fun e => hm (e ▸ h)
      rw [if_pos h]
      have := ih (j + 1) (by omega) (by omega)
      simpa only [acc, if_pos h] using this
    · have hj : j = q := by
        rcases Nat.lt_or_ge j q with h3 | h3
        · exact absurd (hbefore j h3) h
        · omega
      rw [if_neg h, hl, D.fold_oob, hj]

/-- The code of the loop is the error level's. -/
theorem DasData.fold_code (D : DasData F) (k : Nat → Int) (m : Nat) : ∀ q z e,
    (e = .none ∨ e = oobErr D.level) →
    (D.fold k m q z e).2 = .none ∨ (D.fold k m q z e).2 = oobErr D.level := by
  induction m with
  | zero => intro q z e h; exact h
  | succ m ih =>
    intro q z e h
    simp only [fold]
    split
    · exact h
    · split
      · exact ih _ _ _ h
      · exact ih _ _ _ (.inr rfl)

theorem flatScan_run (D : DasData F) (fs : F) (t : Nat → F) (k : Nat → Int) (n : Nat)
    (hk : D.Idx fs t k n) (hY : n * D.len ≤ D.Y.size) (c : Nat → F) :
    (flatScan D fs t n).runCol 1 c =
      .ok ((fun i => if i = 0 then (D.fold k n 0 (lit 0) .none).1 else c i),
        (D.fold k n 0 (lit 0) .none).2) := by
  unfold flatScan startPixel
  simp only [Prog.runCol]
  rw [if_pos (by omega), D.loop_run fs t k n hk hY n 0 (by omega)]
  congr 2
  funext i
  by_cases hi : i = 0
  · simp [hi]
  · simp [hi]

end Dream
