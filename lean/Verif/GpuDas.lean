import Verif.ClaimsGpu
import Verif.ClaimsDas

/-
The OpenCL delay-and-sum kernels, opencl/das_double.cl (opencl/das_float.cl is the same text with
`float` and `f` suffixes), written on their own, and C40 for them.
-/

namespace Dream
open Arith

variable {F : Type} [Arith F]

/-- `G[i]` with `int` index arithmetic. -/
def readI (G : Buf F) (i : Int) : Outcome F := (int32 i).bind fun j => G.read j

/-- Kernel arguments, opencl/das_double.cl 8-16, 54-63, 110-119, 190-199.  For the row-column kernels
`Gt`, `nt` are the columns and `Gr`, `nr` the rows. -/
structure ClDas (F : Type) where
  Y : Buf F
  len : Nat
  Gt : Buf F
  nt : Nat
  Gr : Buf F
  nr : Nat
  Ro : Buf F
  No : Nat
  dt : F
  delay : F
  cp : F

/-- The tail of the innermost loop: `int k = (int) (t_dp*Fs_khz); if (in range) im += y_p[k];
y_p += a_scan_len;`, opencl/das_double.cl 41-47, 93-99, 172-178, 251-257.  The state is (`im`, offset
of `y_p`).  The device's `native_sqrt` is taken to be the host's `sqrt`. -/
def clScan (A : ClDas F) (fs t : F) (s : F × Nat) : Outcome (F × Nat) :=
  (castInt (trunc (t *. fs))).bind fun k =>
  (if k < (A.len : Int) ∧ k ≥ 0 then
    (A.Y.read ((s.2 : Int) + k)).bind fun y => .ok (s.1 +. y)
  else .ok s.1).bind fun im => .ok (im, s.2 + A.len)

/-- `xo`, `yo`, `zo`, opencl/das_double.cl 18-21. -/
def ClDas.point (A : ClDas F) (no : Nat) : Outcome (F × F × F) :=
  (readI A.Ro (no : Int)).bind fun x =>
  (readI A.Ro ((no : Int) + A.No * 1)).bind fun y =>
  (readI A.Ro ((no : Int) + A.No * 2)).bind fun z => .ok (x, y, z)

/-- Time to an element: opencl/das_double.cl 35-38, 81-84, 89-92. -/
def clElem (G : Buf F) (num : Nat) (xo yo zo ocp : F) (n : Nat) : Outcome F :=
  (readI G (n : Int)).bind fun x =>
  (readI G ((n : Int) + 1 * num)).bind fun y =>
  (readI G ((n : Int) + 2 * num)).bind fun z =>
  let gx := x -. xo
  let gy := y -. yo
  let gz := z -. zo
  .ok (sqrt (gx *. gx +. gy *. gy +. gz *. gz) *. ocp)

/-- Kernel `das_saft`, opencl/das_double.cl 8-52. -/
def clSaft (A : ClDas F) (no : Nat) : Prog F Unit :=
  Prog.lift ((A.point no).bind fun (xo, yo, zo) =>
    let fs := (lit 1 /. A.dt) *. lit 1000
    let ocp := lit 1 /. A.cp
    let dms := A.delay /. lit 1000
    forO (fun n s => (clElem A.Gt A.nt xo yo zo ocp n).bind fun t =>
      clScan A fs (lit 2 *. (t +. dms)) s) A.nt 0 (lit 0, 0))
  |>.bind fun s => .wr 0 s.1 (.ret ())

/-- Kernel `das_tfm`, opencl/das_double.cl 54-108. -/
def clTfm (A : ClDas F) (no : Nat) : Prog F Unit :=
  Prog.lift ((A.point no).bind fun (xo, yo, zo) =>
    let fs := (lit 1 /. A.dt) *. lit 1000
    let ocp := lit 1 /. A.cp
    let dms := A.delay /. lit 1000
    forO (fun i s => (clElem A.Gt A.nt xo yo zo ocp i).bind fun tt =>
      forO (fun j s => (clElem A.Gr A.nr xo yo zo ocp j).bind fun tr =>
        clScan A fs ((tt +. dms) +. tr) s) A.nr 0 s) A.nt 0 (lit 0, 0))
  |>.bind fun s => .wr 0 s.1 (.ret ())

/-- `gc_y_min`, `gc_y_max`, `gr_x_min`, `gr_x_max`, opencl/das_double.cl 131-134, 210-213. -/
def clLimits (A : ClDas F) : Outcome (F × F × F × F) :=
  (readI A.Gr (0 + 1 * (A.nt : Int))).bind fun ymin =>
  (readI A.Gr ((A.nt : Int) - 1 + 1 * A.nt)).bind fun ymax =>
  (readI A.Gt 0).bind fun xmin =>
  (readI A.Gt ((A.nr : Int) - 1)).bind fun xmax =>
  .ok (ymin, ymax, xmin, xmax)

/-- Time to column `n`, opencl/das_double.cl 143-156, 238-251. -/
def clCol (A : ClDas F) (ymin ymax xo yo zo ocp : F) (n : Nat) : Outcome F :=
  (readI A.Gt (n : Int)).bind fun x =>
  let gx := x -. xo
  let gy := if le ymin yo ∧ le yo ymax then lit 0
    else if lt yo ymin then ymin -. yo else ymax -. yo
  (readI A.Gt ((n : Int) + 2 * A.nt)).bind fun z =>
  let gz := z -. zo
  .ok (sqrt (gx *. gx +. gy *. gy +. gz *. gz) *. ocp)

/-- Time to row `n`, opencl/das_double.cl 160-173, 222-235.  Unlike the CPU code the test is
"outside". -/
def clRow (A : ClDas F) (xmin xmax xo yo zo ocp : F) (n : Nat) : Outcome F :=
  let gx := if lt xo xmin ∨ lt xmax xo then
      if lt xo xmin then xmin -. xo else xmax -. xo
    else lit 0
  (readI A.Gr ((n : Int) + 1 * A.nr)).bind fun y =>
  let gy := y -. yo
  (readI A.Gr ((n : Int) + 2 * A.nr)).bind fun z =>
  let gz := z -. zo
  .ok (sqrt (gx *. gx +. gy *. gy +. gz *. gz) *. ocp)

/-- Kernel `das_rca_coltx`, opencl/das_double.cl 110-188. -/
def clColtx (A : ClDas F) (no : Nat) : Prog F Unit :=
  Prog.lift ((A.point no).bind fun (xo, yo, zo) =>
    let fs := (lit 1 /. A.dt) *. lit 1000
    let ocp := lit 1 /. A.cp
    let dms := A.delay /. lit 1000
    (clLimits A).bind fun (ymin, ymax, xmin, xmax) =>
    forO (fun i s => (clCol A ymin ymax xo yo zo ocp i).bind fun tc =>
      forO (fun j s => (clRow A xmin xmax xo yo zo ocp j).bind fun tr =>
        clScan A fs ((tc +. dms) +. tr) s) A.nr 0 s) A.nt 0 (lit 0, 0))
  |>.bind fun s => .wr 0 s.1 (.ret ())

/-- Kernel `das_rca_rowtx`, opencl/das_double.cl 190-267. -/
def clRowtx (A : ClDas F) (no : Nat) : Prog F Unit :=
  Prog.lift ((A.point no).bind fun (xo, yo, zo) =>
    let fs := (lit 1 /. A.dt) *. lit 1000
    let ocp := lit 1 /. A.cp
    let dms := A.delay /. lit 1000
    (clLimits A).bind fun (ymin, ymax, xmin, xmax) =>
    forO (fun i s => (clRow A xmin xmax xo yo zo ocp i).bind fun tr =>
      forO (fun j s => (clCol A ymin ymax xo yo zo ocp j).bind fun tc =>
        clScan A fs ((tc +. dms) +. tr) s) A.nt 0 s) A.nr 0 (lit 0, 0))
  |>.bind fun s => .wr 0 s.1 (.ret ())

/-- The arguments and kernel of a call: include/das.h 103-119 (kernel by method), opencl/cl_das.cc
66-118 (arguments), extra_src/mex_das.cc 374-376 (`delay[0]`). -/
def DasCall.cl (C : DasCall F) : ClDas F :=
  ⟨C.Y, C.len, C.Gt, C.nt, C.Gr, C.nr, C.Ro, C.No, C.dt, C.delay.data 0, C.cp⟩

def DasCall.clItems (C : DasCall F) : Nat → Prog F Unit :=
  match C.dasType with
  | .saft => clSaft C.cl
  | .tfm => clTfm C.cl
  | .rcaColtx => clColtx C.cl
  | .rcaRowtx => clRowtx C.cl

/-! ### Loops -/

theorem forO_append {σ : Type} (f : Nat → σ → Outcome σ) (a b : Nat) : ∀ (q : Nat) (s : σ),
    forO f (a + b) q s = (forO f a q s).bind fun s' => forO f b (q + a) s' := by
  induction a with
  | zero => intro q s; simp [forO]
  | succ a ih =>
    intro q s
    rw [show a + 1 + b = a + b + 1 from by omega]
    simp only [forO]
    cases f q s with
    | ok s' => simp only [Outcome.bind]; rw [ih, show q + (a + 1) = q + 1 + a from by omega]; rfl
    | ub e => rfl
    | fuel => rfl

theorem forO_congr {σ : Type} (f g : Nat → σ → Outcome σ) (k : Nat) : ∀ (q q' : Nat) (s : σ),
    (∀ i, i < k → f (q + i) = g (q' + i)) → forO f k q s = forO g k q' s := by
  induction k with
  | zero => intro q q' s _; rfl
  | succ k ih =>
    intro q q' s h
    simp only [forO]
    have h0 : f q = g q' := by simpa using h 0 (by omega)
    rw [h0]
    congr 1
    funext s'
    exact ih (q + 1) (q' + 1) s' (fun i hi => by
      have := h (i + 1) (by omega)
      rwa [show q + (i + 1) = q + 1 + i from by omega,
        show q' + (i + 1) = q' + 1 + i from by omega] at this)

theorem forO_nested {σ : Type} (g : Nat → Nat → σ → Outcome σ) (n m : Nat) (hm : 1 ≤ m) :
    ∀ (a : Nat) (s : σ), forO (fun i s => forO (fun j s => g i j s) m 0 s) n a s =
      forO (fun q s => g (q / m) (q % m) s) (n * m) (a * m) s := by
  induction n with
  | zero => intro a s; simp [forO]
  | succ n ih =>
    intro a s
    rw [Nat.add_mul, Nat.one_mul, Nat.add_comm (n * m),
      forO_append (fun q s => g (q / m) (q % m) s) m (n * m)]
    simp only [forO]
    congr 1
    · refine forO_congr _ _ m 0 (a * m) s ?_
      intro i hi
      rw [Nat.zero_add, Nat.mul_comm a m, Nat.mul_add_div (by omega), Nat.mul_add_mod,
        Nat.div_eq_of_lt hi, Nat.mod_eq_of_lt hi, Nat.add_zero]
    · funext s'
      rw [ih (a + 1) s', Nat.add_mul, Nat.one_mul]

/-- The sample index of A-scan `q` when it is defined. -/
def idxOf (fs : F) (t : Nat → F) (q : Nat) : Int := (trunc (t q *. fs)).getD 0

theorem castInt_cases (x : Option Int) : castInt x = .ok (x.getD 0) ∨ castInt x = .ub .cast := by
  cases x with
  | none => exact .inr rfl
  | some i => exact int32_cases i

/-- The flat loop of the device sums the samples, or a conversion fails. -/
theorem clFlat (A : ClDas F) (D : DasData F) (hY : D.Y = A.Y) (hlen : D.len = A.len) (fs : F)
    (t : Nat → F) (n : Nat) (hsz : n * A.len ≤ A.Y.size) : ∀ m q, q + m ≤ n →
    (forO (fun q s => clScan A fs (t q) s) m q (D.acc (idxOf fs t) q, q * A.len) =
      .ok (D.acc (idxOf fs t) (q + m), (q + m) * A.len) ∧
      ∀ i, q ≤ i → i < q + m → castInt (trunc (t i *. fs)) = .ok (idxOf fs t i)) ∨
    forO (fun q s => clScan A fs (t q) s) m q (D.acc (idxOf fs t) q, q * A.len) = .ub .cast := by
  intro m
  induction m with
  | zero => intro q _; exact .inl ⟨rfl, fun i _ _ => by omega⟩
  | succ m ih =>
    intro q hq
    simp only [forO]
    rcases castInt_cases (trunc (t q *. fs)) with hc | hc
    · have hstep : clScan A fs (t q) (D.acc (idxOf fs t) q, q * A.len) =
          .ok (D.acc (idxOf fs t) (q + 1), (q + 1) * A.len) := by
        unfold clScan
        rw [hc]
        simp only [Outcome.bind, DasData.acc]
        have h1 : (q + 1) * A.len ≤ n * A.len := Nat.mul_le_mul_right _ (by omega)
        rw [Nat.add_mul, Nat.one_mul] at h1
        by_cases hk : (trunc (t q *. fs)).getD 0 < (A.len : Int) ∧ (trunc (t q *. fs)).getD 0 ≥ 0
        · have hh : D.hit (idxOf fs t) q := by
            unfold DasData.hit idxOf; rw [hlen]; omega
          have hr : A.Y.read (((q * A.len : Nat) : Int) + (trunc (t q *. fs)).getD 0) =
              .ok (A.Y.data (q * A.len + ((trunc (t q *. fs)).getD 0).toNat)) := by
            unfold Buf.read
            rw [if_pos (by omega)]
            congr 2
            omega
          rw [if_pos hk, if_pos hh, hr]
          simp only
          rw [hY, hlen, Nat.add_mul, Nat.one_mul]
          rfl
        · have hh : ¬ D.hit (idxOf fs t) q := by
            unfold DasData.hit idxOf; rw [hlen]; omega
          rw [if_neg hk, if_neg hh, Nat.add_mul, Nat.one_mul]
      rw [hstep]
      simp only [Outcome.bind]
      rcases ih (q + 1) (by omega) with ⟨h1, h2⟩ | h1
      · left
        rw [h1, show q + 1 + m = q + (m + 1) from by omega]
        refine ⟨rfl, fun i hi hi2 => ?_⟩
        by_cases hiq : i = q
        · rw [hiq]; exact hc
        · exact h2 i (by omega) (by omega)
      · right; exact h1
    · right
      unfold clScan
      rw [hc]
      rfl

/-! ### Reading the inputs -/

theorem readI_ok (G : Buf F) (i : Int) (n : Nat) (h : i = n) (hn : n < G.size)
    (hs : G.size < 2147483648) : readI G i = .ok (G.data n) := by
  subst h
  unfold readI int32
  rw [if_pos (by omega)]
  simp only [Outcome.bind]
  exact Buf.read_nat G n hn

/-- Grids small enough for `int` indices. -/
structure DasCall.Small (C : DasCall F) : Prop where
  gt : 3 * C.nt < 2147483648
  gr : 3 * C.nr < 2147483648
  ro : 3 * C.No < 2147483648

/-- A call the GPU version is meant for. -/
structure DasCall.ForGpu (C : DasCall F) : Prop where
  small : C.Small
  delay : C.delayType = .single
  level : C.level = .ignore ∨ C.level = .warn ∨ C.level = .none
  /-- SAFT is used exactly when there are no receive elements -/
  saft : C.dasType = .saft ↔ C.nr = 0
  /-- the comparisons of the image points' x coordinates with the stripe limits are those of an order
  (no NaN); only the row-column kernels need it -/
  order : C.dasType = .saft ∨ C.dasType = .tfm ∨ ∀ n, n < C.No →
    lt (C.xo n) (C.Gt.data 0) = !(le (C.Gt.data 0) (C.xo n)) ∧
    lt (C.Gt.data (C.nr - 1)) (C.xo n) = !(le (C.xo n) (C.Gt.data (C.nr - 1)))

variable {C : DasCall F} {Im : Buf F}

theorem DasCall.cl_point (h : C.Sized Im) (hs : C.Small) (n : Nat) (hn : n < C.No) :
    C.cl.point n = .ok (C.xo n, C.yo n, C.zo n) := by
  have h1 := h.ro
  have h2 := hs.ro
  unfold ClDas.point
  rw [readI_ok C.cl.Ro (n : Int) n rfl (by show n < C.Ro.size; omega) (by show C.Ro.size < _; omega),
    readI_ok C.cl.Ro ((n : Int) + C.cl.No * 1) (n + C.No) (by show (n : Int) + C.No * 1 = _; omega)
      (by show _ < C.Ro.size; omega) (by show C.Ro.size < _; omega),
    readI_ok C.cl.Ro ((n : Int) + C.cl.No * 2) (n + 2 * C.No) (by show (n : Int) + C.No * 2 = _; omega)
      (by show _ < C.Ro.size; omega) (by show C.Ro.size < _; omega)]
  rfl

theorem clElem_ok (G : Buf F) (num n : Nat) (xo yo zo ocp : F) (hG : G.size = 3 * num)
    (hs : 3 * num < 2147483648) (hn : n < num) :
    clElem G num xo yo zo ocp n = .ok (elemVal G num n xo yo zo ocp) := by
  unfold clElem
  rw [readI_ok G _ n rfl (by omega) (by omega),
    readI_ok G _ (n + num) (by omega) (by omega) (by omega),
    readI_ok G _ (n + 2 * num) (by omega) (by omega) (by omega)]
  rfl

theorem DasCall.clLimits_ok (h : C.Sized Im) (hs : C.Small) (hl : C.limitsOk) : clLimits C.cl =
    .ok (C.Gr.data C.nt, C.Gr.data (2 * C.nt - 1), C.Gt.data 0, C.Gt.data (C.nr - 1)) := by
  obtain ⟨h1, h2, h3⟩ := hl
  have hg := h.gt
  have hr := h.gr
  have hsg := hs.gt
  have hsr := hs.gr
  unfold clLimits
  show ((readI C.Gr (0 + 1 * (C.nt : Int))).bind fun ymin =>
    (readI C.Gr ((C.nt : Int) - 1 + 1 * C.nt)).bind fun ymax =>
    (readI C.Gt 0).bind fun xmin =>
    (readI C.Gt ((C.nr : Int) - 1)).bind fun xmax => Outcome.ok (ymin, ymax, xmin, xmax)) = _
  rw [readI_ok C.Gr _ C.nt (by omega) (by omega) (by omega),
    readI_ok C.Gr _ (2 * C.nt - 1) (by omega) (by omega) (by omega),
    readI_ok C.Gt _ 0 (by omega) (by omega) (by omega),
    readI_ok C.Gt _ (C.nr - 1) (by omega) (by omega) (by omega)]
  rfl

theorem DasCall.clCol_ok (h : C.Sized Im) (hs : C.Small) (lo hi : F) (n i : Nat) (hi' : i < C.nt) :
    clCol C.cl lo hi (C.xo n) (C.yo n) (C.zo n) (oneOver C.cp) i = .ok (C.colT lo hi n i) := by
  have hg := h.gt
  have hsg := hs.gt
  unfold clCol
  rw [readI_ok C.cl.Gt _ i rfl (by show _ < C.Gt.size; omega) (by show C.Gt.size < _; omega),
    readI_ok C.cl.Gt _ (i + 2 * C.nt) (by show (i : Int) + 2 * C.nt = _; omega)
      (by show _ < C.Gt.size; omega) (by show C.Gt.size < _; omega)]
  rfl

/-- The device's "outside" test and the CPU's "inside" test give the same distance for ordered
values. -/
theorem clEdge (lo hi v : F) (h1 : lt v lo = !(le lo v)) (h2 : lt hi v = !(le v hi)) :
    (if lt v lo ∨ lt hi v then (if lt v lo then lo -. v else hi -. v) else lit 0) = edge lo hi v := by
  unfold edge
  rw [h1, h2]
  cases le lo v <;> cases le v hi <;> simp

theorem DasCall.clRow_ok (h : C.Sized Im) (hs : C.Small) (lo hi : F) (n j : Nat) (hj : j < C.nr)
    (h1 : lt (C.xo n) lo = !(le lo (C.xo n))) (h2 : lt hi (C.xo n) = !(le (C.xo n) hi)) :
    clRow C.cl lo hi (C.xo n) (C.yo n) (C.zo n) (oneOver C.cp) j = .ok (C.rowT lo hi n j) := by
  have hg := h.gr
  have hsg := hs.gr
  unfold clRow
  rw [clEdge lo hi _ h1 h2,
    readI_ok C.cl.Gr _ (j + C.nr) (by show (j : Int) + 1 * C.nr = _; omega)
      (by show _ < C.Gr.size; omega) (by show C.Gr.size < _; omega),
    readI_ok C.cl.Gr _ (j + 2 * C.nr) (by show (j : Int) + 2 * C.nr = _; omega)
      (by show _ < C.Gr.size; omega) (by show C.Gr.size < _; omega)]
  rfl

/-- Nested loops of the device whose times are defined. -/
theorem clNested (A : ClDas F) (fs : F) (n m : Nat) (hm : 1 ≤ m) (outer inner : Nat → Outcome F)
    (tO tI : Nat → F) (comb : F → F → F) (ho : ∀ i, i < n → outer i = .ok (tO i))
    (hi : ∀ j, j < m → inner j = .ok (tI j)) (s : F × Nat) :
    forO (fun i s => (outer i).bind fun a =>
      forO (fun j s => (inner j).bind fun b => clScan A fs (comb a b) s) m 0 s) n 0 s =
    forO (fun q s => clScan A fs (comb (tO (q / m)) (tI (q % m))) s) (n * m) 0 s := by
  have h1 : forO (fun i s => (outer i).bind fun a =>
      forO (fun j s => (inner j).bind fun b => clScan A fs (comb a b) s) m 0 s) n 0 s =
      forO (fun i s => forO (fun j s => clScan A fs (comb (tO i) (tI j)) s) m 0 s) n 0 s := by
    refine forO_congr _ _ n 0 0 _ ?_
    intro i hi'
    funext s
    rw [Nat.zero_add, ho i hi']
    show forO _ m 0 s = _
    refine forO_congr _ _ m 0 0 _ ?_
    intro j hj
    funext s
    rw [Nat.zero_add, hi j hj]
    rfl
  rw [h1, forO_nested (fun i j s => clScan A fs (comb (tO i) (tI j)) s) n m hm 0, Nat.zero_mul]

/-- All four kernels are one loop over the A-scans with the times of the CPU code. -/
theorem DasCall.cl_flat (h : C.Sized Im) (hr : C.Reads) (hg : C.ForGpu) (n : Nat) (hn : n < C.No) :
    C.clItems n = (Prog.lift (forO (fun q s => clScan C.cl (fsKhz C.dt) (C.dpTime n q) s) C.scans 0
      (lit 0, 0))).bind fun s => .wr 0 s.1 (.ret ()) := by
  have hm : C.method = C.dasType := by
    unfold DasCall.method
    split
    · next h0 => exact (hg.saft.2 h0).symm
    · rfl
  have hd : C.delayAt n = C.cl.delay := by unfold DasCall.delayAt; rw [hg.delay]; rfl
  have hpt := C.cl_point h hg.small n hn
  have hp := DasCall.nr_pos (C := C)
  have hord := hg.order
  unfold DasCall.clItems
  unfold dpTime pathTime scans
  unfold DasCall.Reads at hr
  rw [hm] at hr hp ⊢
  cases hT : C.dasType with
  | saft =>
    simp only [if_true]
    unfold clSaft
    rw [hpt, hd]
    simp only [Outcome.bind]
    congr 2
    refine forO_congr _ _ C.nt 0 0 _ ?_
    intro i hi
    funext s
    rw [Nat.zero_add]
    show (clElem C.Gt C.nt _ _ _ _ i).bind _ = _
    rw [clElem_ok C.Gt C.nt i _ _ _ _ h.gt hg.small.gt hi]
    rfl
  | tfm =>
    simp only [reduceCtorEq, if_false]
    unfold clTfm
    rw [hpt, hd]
    simp only [Outcome.bind]
    congr 2
    exact clNested C.cl (fsKhz C.dt) C.nt C.nr (hp (by rw [hT]; simp)) _ _ _ _
      (fun a b => (a +. delayMs C.cl.delay) +. b)
      (fun i hi => clElem_ok C.Gt C.nt i _ _ _ _ h.gt hg.small.gt hi)
      (fun j hj => clElem_ok C.Gr C.nr j _ _ _ _ h.gr hg.small.gr hj) _
  | rcaColtx =>
    rw [hT] at hr hord
    have hl : C.limitsOk := by simpa using hr
    have ho := (by simpa using hord : ∀ n, n < C.No → _) n hn
    simp only [reduceCtorEq, if_false]
    unfold clColtx
    rw [hpt, hd, C.clLimits_ok h hg.small hl]
    simp only [Outcome.bind]
    congr 2
    exact clNested C.cl (fsKhz C.dt) C.nt C.nr (hp (by rw [hT]; simp)) _ _ _ _
      (fun a b => (a +. delayMs C.cl.delay) +. b)
      (fun i hi => C.clCol_ok h hg.small _ _ n i hi)
      (fun j hj => C.clRow_ok h hg.small _ _ n j hj (by simpa using ho.1) (by simpa using ho.2)) _
  | rcaRowtx =>
    rw [hT] at hr hord
    have hl : C.limitsOk := by simpa using hr
    have ho := (by simpa using hord : ∀ n, n < C.No → _) n hn
    simp only [reduceCtorEq, if_false]
    unfold clRowtx
    rw [hpt, hd, C.clLimits_ok h hg.small hl]
    simp only [Outcome.bind]
    congr 2
    rw [Nat.mul_comm C.nt C.nr]
    exact clNested C.cl (fsKhz C.dt) C.nr C.nt hl.1 _ _ _ _
      (fun a b => (b +. delayMs C.cl.delay) +. a)
      (fun j hj => C.clRow_ok h hg.small _ _ n j hj (by simpa using ho.1) (by simpa using ho.2))
      (fun i hi => C.clCol_ok h hg.small _ _ n i hi) _

/-- The work-item of image point `n`: it writes the sum, or a conversion to `int` fails. -/
theorem DasCall.cl_run (h : C.Sized Im) (hr : C.Reads) (hg : C.ForGpu) (n : Nat) (hn : n < C.No)
    (c : Nat → F) :
    ((C.clItems n).runCol 1 c = .ok ((fun i => if i = 0 then
        C.toDasData.acc (idxOf (fsKhz C.dt) (C.dpTime n)) C.scans else c i), ()) ∧
      ∀ q, q < C.scans → castInt (trunc (C.dpTime n q *. fsKhz C.dt)) =
        .ok (idxOf (fsKhz C.dt) (C.dpTime n) q)) ∨
    (C.clItems n).runCol 1 c = .ub .cast := by
  rw [C.cl_flat h hr hg n hn, Prog.runCol_bind, Prog.runCol_lift]
  have := clFlat C.cl C.toDasData rfl rfl (fsKhz C.dt) (C.dpTime n) C.scans h.y C.scans 0 (by omega)
  simp only [DasData.acc, Nat.zero_mul, Nat.zero_add] at this
  rcases this with ⟨h1, h2⟩ | h1
  · left
    rw [h1]
    simp only [Outcome.map, Outcome.bind, Prog.runCol]
    rw [if_pos (by omega)]
    exact ⟨rfl, fun q hq => h2 q (Nat.zero_le _) hq⟩
  · right; rw [h1]; rfl

theorem castIdx_of_castInt {x : Option Int} {i : Int} (h : castInt x = .ok i) :
    castIdx .signed x = .ok i := by
  cases x with
  | none => simp [castInt] at h
  | some j =>
    obtain ⟨h1, h2⟩ := fits_of_int32 h
    subst h1
    simp [castIdx, h2]

theorem DasData.acc_congr (D : DasData F) (k k' : Nat → Int) (n : Nat)
    (h : ∀ q, q < n → k q = k' q) : D.acc k n = D.acc k' n := by
  induction n with
  | zero => rfl
  | succ n ih =>
    have hh : D.hit k n ↔ D.hit k' n := by unfold DasData.hit; rw [h n (by omega)]
    simp only [DasData.acc]
    rw [ih fun q hq => h q (by omega), h n (by omega)]
    by_cases hk : D.hit k' n
    · rw [if_pos (hh.2 hk), if_pos hk]
    · rw [if_neg (fun g => hk (hh.1 g)), if_neg hk]

/-- C40, imaging, one point: for every method, if the work-item ends then the CPU function ends (signed
index type) with the same image value; and if all of the CPU's conversions are defined (either index
type) the work-item ends with the same value or fails in a 32-bit conversion. -/
theorem C40_das_item (h : C.Sized Im) (hr : C.Reads) (hg : C.ForGpu) (n : Nat) (hn : n < C.No)
    (c : Nat → F) :
    (C.ty = .signed → ∀ c', (C.clItems n).runCol 1 c = .ok (c', ()) →
      ∃ e, (C.prog n).runCol 1 c = .ok (c', e)) ∧
    ∀ k, C.Index n k → ∃ c' e, (C.prog n).runCol 1 c = .ok (c', e) ∧
      ((C.clItems n).runCol 1 c = .ok (c', ()) ∨ (C.clItems n).runCol 1 c = .ub .cast) := by
  have hl := nonstop hg.level
  have hcpu : ∀ k, C.Index n k → ∃ e, (C.prog n).runCol 1 c =
      .ok ((fun i => if i = 0 then C.toDasData.acc k C.scans else c i), e) := by
    intro k hk
    rw [DasCall.run_pixel h hr n hn k hk c]
    have := C.toDasData.fold_below k hl C.scans 0 .none (.inl rfl)
    simp only [DasData.acc, Nat.zero_add] at this
    rw [this]
    exact ⟨_, rfl⟩
  constructor
  · intro hty c' hc'
    rcases C.cl_run h hr hg n hn c with ⟨h1, h2⟩ | h1
    · rw [hc'] at h1
      simp only [Outcome.ok.injEq, Prod.mk.injEq] at h1
      rw [h1.1]
      refine hcpu _ fun q hq => ?_
      rw [hty]
      exact castIdx_of_castInt (h2 q hq)
    · rw [hc'] at h1; simp at h1
  · intro k hk
    obtain ⟨e, he⟩ := hcpu k hk
    refine ⟨_, e, he, ?_⟩
    rcases C.cl_run h hr hg n hn c with ⟨h1, h2⟩ | h1
    · left
      rw [h1]
      congr 2
      funext i
      congr 1
      refine DasData.acc_congr C.toDasData _ _ C.scans fun q hq => ?_
      have h3 := hk q hq
      have h4 := h2 q hq
      unfold idxOf
      cases hx : trunc (C.dpTime n q *. fsKhz C.dt) with
      | none => rw [hx] at h4; simp [castInt] at h4
      | some i =>
        rw [hx] at h3
        simp only [castIdx] at h3
        split at h3
        · simpa using h3
        · simp at h3
    · right; exact h1

/-- C40, the image: let the number of points be a multiple of 64.  Whatever the device's schedule, if
the launch completes, the image read back is, pixel for pixel, the image of every complete run of the
threaded CPU driver. -/
theorem C40_das_image (h : C.Sized Im) (hr : C.Reads) (hg : C.ForGpu) (hty : C.ty = .signed)
    (hNo : C.No % 64 = 0) (fresh H : Nat → F) (hl : Launched 1 C.No C.clItems fresh H)
    (nth : Nat) (h1 : 1 ≤ nth) (as : List Act) (hab : Act.abort ∉ as) (s' : Sys F (Prog F SIRError))
    (hrun : C.drv.Run nth Im as s') (n : Nat) (hn : n < C.No) : H n = s'.mem.data n := by
  have hcol := fun i (hi : i < C.No) => launched_columns 1 C.No C.clItems fresh H hNo
    (fun i hi => by
      unfold itemOut
      rcases C.cl_run h hr hg i hi (fun j => fresh (1 * i + j)) with ⟨g, _⟩ | g <;> rw [g] <;> simp)
    hl i hi
  have hk : ∀ i, i < C.No → C.Index i (idxOf (fsKhz C.dt) (C.dpTime i)) := by
    intro i hi q hq
    obtain ⟨c, hc, _⟩ := hcol i hi
    unfold itemOut at hc
    rcases C.cl_run h hr hg i hi (fun j => fresh (1 * i + j)) with ⟨_, g⟩ | g
    · rw [hty]; exact castIdx_of_castInt (g q hq)
    · rw [g] at hc; simp at hc
  rw [C30_image h hr (fun n => idxOf (fsKhz C.dt) (C.dpTime n)) hk (.inl (oobErr_eq C.level ▸ nonstop hg.level)) nth h1 as hab
    s' hrun n hn]
  obtain ⟨c, hc, hH⟩ := hcol n hn
  unfold itemOut at hc
  rcases C.cl_run h hr hg n hn (fun j => fresh (1 * n + j)) with ⟨g, _⟩ | g
  · rw [g] at hc
    simp only [Outcome.ok.injEq, Prod.mk.injEq] at hc
    have := hH 0 (by omega)
    rw [← hc.1] at this
    simpa using this
  · rw [g] at hc; simp at hc

/-! ### Non-vacuity -/

section Example

attribute [local instance] toyArith

/-- Total focusing with two transmitters at (3,0,0), (0,3,0), one receiver at the origin, and 64 image
points at (0,0,4): the paths have length 5 + 4, so sample 9000 of each A-scan is used. -/
def exGpuDas : DasCall Int where
  Y := ⟨20000, fun i => i⟩
  len := 10000
  ty := .signed
  level := .ignore
  dasType := .tfm
  Gt := ⟨6, fun i => if i = 0 ∨ i = 3 then 3 else 0⟩
  nt := 2
  Gr := ⟨3, fun _ => 0⟩
  nr := 1
  Ro := ⟨192, fun i => if i < 128 then 0 else 4⟩
  No := 64
  dt := 1
  cp := 1
  delayType := .single
  delay := ⟨1, fun _ => 0⟩

def exGpuDasIm : Buf Int := ⟨64, fun _ => 0⟩

theorem exGpuDas_for : exGpuDas.ForGpu :=
  ⟨⟨by decide, by decide, by decide⟩, rfl, .inl rfl, by decide, .inr (.inl rfl)⟩

theorem exGpuDas_sized : exGpuDas.Sized exGpuDasIm := ⟨Nat.le_refl _, rfl, rfl, rfl, rfl, rfl⟩

theorem exGpuDas_reads : exGpuDas.Reads := by
  unfold DasCall.Reads; exact .inr (.inl rfl)

theorem exGpuDas_point (n : Nat) (hn : n < 64) :
    exGpuDas.xo n = 0 ∧ exGpuDas.yo n = 0 ∧ exGpuDas.zo n = 4 := by
  show (if n < 128 then (0 : Int) else 4) = 0 ∧ (if n + 64 < 128 then (0 : Int) else 4) = 0 ∧
    (if n + 2 * 64 < 128 then (0 : Int) else 4) = 4
  rw [if_pos (by omega), if_pos (by omega), if_neg (by omega)]
  exact ⟨rfl, rfl, rfl⟩

theorem exGpuDas_item (n : Nat) (hn : n < 64) (c : Nat → Int) :
    (exGpuDas.clItems n).runCol 1 c = .ok ((fun i => if i = 0 then 28000 else c i), ()) := by
  obtain ⟨hx, hy, hz⟩ := exGpuDas_point n hn
  show (clTfm exGpuDas.cl n).runCol 1 c = _
  unfold clTfm
  rw [DasCall.cl_point exGpuDas_sized exGpuDas_for.small n hn, hx, hy, hz]
  rfl

-- a launch exists, and all of them leave the sum of samples 9000 and 10000 + 9000 in every pixel
example : ∃ H, Launched 1 exGpuDas.No exGpuDas.clItems (fun _ => 9) H :=
  launch_exists _ _ _ _ fun i hi => ⟨_, exGpuDas_item i hi _⟩

example (H : Nat → Int) (h : Launched 1 exGpuDas.No exGpuDas.clItems (fun _ => 9) H) (n : Nat)
    (hn : n < 64) : H n = 28000 := by
  obtain ⟨c, hc, hH⟩ := launched_columns 1 64 exGpuDas.clItems (fun _ => 9) H rfl
    (fun i hi g => by unfold itemOut at g; rw [exGpuDas_item i hi] at g; simp at g) h n hn
  unfold itemOut at hc
  rw [exGpuDas_item n hn] at hc
  simp only [Outcome.ok.injEq, Prod.mk.injEq] at hc
  have := hH 0 (by omega)
  rw [← hc.1] at this
  simpa using this

end Example

end Dream
