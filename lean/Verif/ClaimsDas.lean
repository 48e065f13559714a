import Verif.Das
import Verif.ErrSpec
import Verif.ProgBad
import Verif.ClaimsConv
import Verif.Toy
import Mathlib.Algebra.BigOperators.Group.Finset.Basic
import Mathlib.Algebra.BigOperators.Intervals
import Mathlib.Data.Real.Sqrt

/-
C30, C31, C32: delay-and-sum imaging (extra_src/das.cc).
-/

namespace Dream
open Arith

section General
variable {F : Type} [Arith F]

namespace DasCall

/-! ### Specification: which A-scan sample belongs to a pixel -/

/-- Coordinates of image point `n` (Ro is stored column by column). -/
def xo (C : DasCall F) (n : Nat) : F := C.Ro.data n
def yo (C : DasCall F) (n : Nat) : F := C.Ro.data (n + C.No)
def zo (C : DasCall F) (n : Nat) : F := C.Ro.data (n + 2 * C.No)

/-- System delay that applies to image point `n`. -/
def delayAt (C : DasCall F) (n : Nat) : F :=
  match C.delayType with
  | .single => C.delay.data 0
  | .multiple => C.delay.data n

/-- One-way time from transmit element `i` to image point `n`. -/
def tTime (C : DasCall F) (n i : Nat) : F :=
  elemVal C.Gt C.nt i (C.xo n) (C.yo n) (C.zo n) (oneOver C.cp)

/-- One-way time from receive element `j` to image point `n`. -/
def rTime (C : DasCall F) (n j : Nat) : F :=
  elemVal C.Gr C.nr j (C.xo n) (C.yo n) (C.zo n) (oneOver C.cp)

/-- One-way time from column stripe `i`, for stripe limits `lo`, `hi` in y. -/
def colT (C : DasCall F) (lo hi : F) (n i : Nat) : F :=
  travel (C.Gt.data i -. C.xo n) (edge lo hi (C.yo n)) (C.Gt.data (i + 2 * C.nt) -. C.zo n)
    (oneOver C.cp)

/-- One-way time from row stripe `j`, for stripe limits `lo`, `hi` in x. -/
def rowT (C : DasCall F) (lo hi : F) (n j : Nat) : F :=
  travel (edge lo hi (C.xo n)) (C.Gr.data (j + C.nr) -. C.yo n) (C.Gr.data (j + 2 * C.nr) -. C.zo n)
    (oneOver C.cp)

/-- Double-path time of A-scan `q` for image point `n`, given the stripe limits (`ylo`, `yhi`,
`xlo`, `xhi`) of the row-column methods.  SAFT: A-scan `q` belongs to element `q`.  TFM: A-scan
`i*nr + j` belongs to the pair (`i`, `j`).  Column transmit: the same with columns and rows; row
transmit: A-scan `j*nt + i`. -/
def pathTime (C : DasCall F) (ylo yhi xlo xhi : F) (n q : Nat) : F :=
  match C.method with
  | .saft => lit 2 *. (C.tTime n q +. delayMs (C.delayAt n))
  | .tfm => (C.tTime n (q / C.nr) +. delayMs (C.delayAt n)) +. C.rTime n (q % C.nr)
  | .rcaColtx => (C.colT ylo yhi n (q / C.nr) +. delayMs (C.delayAt n)) +. C.rowT xlo xhi n (q % C.nr)
  | .rcaRowtx => (C.colT ylo yhi n (q % C.nt) +. delayMs (C.delayAt n)) +. C.rowT xlo xhi n (q / C.nt)

/-- The time with the limits the source reads. -/
def dpTime (C : DasCall F) (n q : Nat) : F :=
  C.pathTime (C.Gr.data C.nt) (C.Gr.data (2 * C.nt - 1)) (C.Gt.data 0) (C.Gt.data (C.nr - 1)) n q

/-- The reads of the stripe limits are inside the grids. -/
def limitsOk (C : DasCall F) : Prop := 1 ≤ C.nt ∧ 2 * C.nt ≤ 3 * C.nr ∧ C.nr ≤ 3 * C.nt

/-- Methods and shapes for which the grids are read inside. -/
def Reads (C : DasCall F) : Prop := C.method = .saft ∨ C.method = .tfm ∨ C.limitsOk

/-- The sample index of A-scan `q` for image point `n` is defined and equal to `k q`. -/
def Index (C : DasCall F) (n : Nat) (k : Nat → Int) : Prop :=
  C.toDasData.Idx (fsKhz C.dt) (C.dpTime n) k C.scans

variable {C : DasCall F} {Im : Buf F}

theorem inputs_ok (h : C.Shaped) (n : Nat) (hn : n < C.No) :
    C.inputs n = .ok (C.xo n, C.yo n, C.zo n, C.delayAt n) := by
  have hro := h.ro
  have hd := h.delay
  unfold inputs
  rw [Buf.read_nat _ _ (by omega), Outcome.ok_bind, Buf.read_nat _ _ (by omega), Outcome.ok_bind,
    Buf.read_nat _ _ (by omega), Outcome.ok_bind, Nat.one_mul]
  unfold delayAt
  cases hT : C.delayType with
  | single =>
    rw [hT] at hd
    have := Buf.read_nat C.delay 0 (by simp only [] at hd; omega)
    simp only [Nat.cast_zero, Int.natCast_zero] at this
    simp only []
    rw [show (0 : Int) = ((0 : Nat) : Int) from rfl, Buf.read_nat _ _ (by simp only [] at hd; omega)]
    rfl
  | multiple =>
    rw [hT] at hd
    simp only []
    rw [Buf.read_nat _ _ (by simp only [] at hd; omega)]
    rfl

theorem limits_ok (h : C.Shaped) (hl : C.limitsOk) : rcaLimits C.Gt C.nt C.Gr C.nr =
    .ok (C.Gr.data C.nt, C.Gr.data (2 * C.nt - 1), C.Gt.data 0, C.Gt.data (C.nr - 1)) := by
  obtain ⟨h1, h2, h3⟩ := hl
  have hg := h.gt
  have hr := h.gr
  unfold rcaLimits
  rw [Buf.read_nat _ _ (by omega), Outcome.ok_bind,
    show ((C.nt : Int) - 1 + 1 * C.nt) = ((2 * C.nt - 1 : Nat) : Int) by omega,
    Buf.read_nat _ _ (by omega), Outcome.ok_bind,
    show (0 : Int) = ((0 : Nat) : Int) from rfl, Buf.read_nat _ _ (by omega), Outcome.ok_bind,
    show ((C.nr : Int) - 1) = ((C.nr - 1 : Nat) : Int) by omega,
    Buf.read_nat _ _ (by omega), Outcome.ok_bind, Nat.zero_add, Nat.one_mul]

theorem colTime_ok (h : C.Shaped) (lo hi : F) (n i : Nat) (hi' : i < C.nt) :
    colTime C.Gt C.nt i lo hi (C.xo n) (C.yo n) (C.zo n) (oneOver C.cp) =
      .ok (C.colT lo hi n i) := by
  have hg := h.gt
  unfold colTime
  rw [Buf.read_nat _ _ (by omega), Outcome.ok_bind, Buf.read_nat _ _ (by omega), Outcome.ok_bind]
  rfl

theorem rowTime_ok (h : C.Shaped) (lo hi : F) (n j : Nat) (hj : j < C.nr) :
    rowTime C.Gr C.nr j lo hi (C.xo n) (C.yo n) (C.zo n) (oneOver C.cp) =
      .ok (C.rowT lo hi n j) := by
  have hg := h.gr
  unfold rowTime
  rw [Buf.read_nat _ _ (by omega), Outcome.ok_bind, Buf.read_nat _ _ (by omega), Outcome.ok_bind,
    Nat.one_mul]
  rfl

theorem nr_pos (hm : C.method ≠ .saft) : 1 ≤ C.nr := by
  unfold method at hm
  by_cases h : C.nr = 0
  · rw [if_pos h] at hm; exact absurd rfl hm
  · omega

/-- Every method is one loop over the A-scans. -/
theorem prog_flat (h : C.Shaped) (hr : C.Reads) (n : Nat) (hn : n < C.No) :
    C.prog n = flatScan C.toDasData (fsKhz C.dt) (C.dpTime n) C.scans := by
  unfold prog
  rw [inputs_ok h n hn]
  simp only [Prog.lift, Prog.bind]
  have hp := nr_pos (C := C)
  unfold dpTime pathTime scans
  unfold Reads at hr
  cases hm : C.method with
  | saft =>
    simp only [if_true]
    exact dasSaft_flat C.toDasData C.Gt C.nt _ _ _ _ _ _ h.gt
  | tfm =>
    simp only [reduceCtorEq, if_false]
    exact dasTfm_flat C.toDasData C.Gt C.nt C.Gr C.nr (hp (by rw [hm]; simp)) _ _ _ _ _ _ h.gt h.gr
  | rcaColtx =>
    rw [hm] at hr
    have hl : C.limitsOk := by simpa using hr
    simp only [reduceCtorEq, if_false]
    unfold dasColtx flatScan
    rw [limits_ok h hl]
    simp only [Prog.lift, Prog.bind]
    congr 1
    exact nested_flat C.toDasData (fsKhz C.dt) C.nt C.nr (hp (by rw [hm]; simp)) _ _ _ _
      (fun a b => (a +. delayMs (C.delayAt n)) +. b)
      (fun i hi => colTime_ok h _ _ n i hi) (fun j hj => rowTime_ok h _ _ n j hj)
  | rcaRowtx =>
    rw [hm] at hr
    have hl : C.limitsOk := by simpa using hr
    simp only [reduceCtorEq, if_false]
    unfold dasRowtx flatScan
    rw [limits_ok h hl]
    simp only [Prog.lift, Prog.bind]
    congr 1
    rw [Nat.mul_comm C.nt C.nr]
    exact nested_flat C.toDasData (fsKhz C.dt) C.nr C.nt hl.1 _ _ _ _
      (fun a b => (b +. delayMs (C.delayAt n)) +. a)
      (fun j hj => rowTime_ok h _ _ n j hj) (fun i hi => colTime_ok h _ _ n i hi)

end DasCall

/-! ### Safety -/

theorem DasData.scan_safe (D : DasData F) (fs : F) (q : Nat) (t : F) (e : SIRError) (n : Nat)
    (hq : q < n) (hY : n * D.len ≤ D.Y.size) : (D.scan fs q t e).Safe 1 (fun _ => True) := by
  unfold DasData.scan
  refine Prog.Safe.bind (Q := fun _ => True) (Prog.Safe.lift (castIdx_ne_oob _ _) fun _ _ => trivial) ?_
  intro k _
  by_cases h : k < (D.len : Int) ∧ 0 ≤ k
  · rw [if_pos h]
    have h1 : (q + 1) * D.len ≤ n * D.len := Nat.mul_le_mul_right _ hq
    rw [Nat.add_mul, Nat.one_mul] at h1
    refine Prog.Safe.bind (Q := fun _ => True) (Prog.Safe.lift ?_ fun _ _ => trivial) ?_
    · unfold Buf.read
      rw [if_pos (by omega)]
      simp
    · intro v _
      exact ⟨by omega, fun z => ⟨by omega, trivial⟩⟩
  · rw [if_neg h]; trivial

theorem DasData.loop_safe (D : DasData F) (fs : F) (t : Nat → F) (n : Nat)
    (hY : n * D.len ≤ D.Y.size) : ∀ (m q : Nat), q + m ≤ n → ∀ e,
    (scanLoop (fun q e => D.scan fs q (t q) e) m q e).Safe 1 (fun _ => True) := by
  intro m
  induction m with
  | zero => intro q _ e; trivial
  | succ m ih =>
    intro q hq e
    simp only [scanLoop]
    split
    · trivial
    · exact Prog.Safe.bind (Q := fun _ => True) (D.scan_safe fs q (t q) e n (by omega) hY)
        fun e' _ => ih (q + 1) (by omega) e'

namespace DasCall
variable {C : DasCall F} {Im : Buf F}

theorem prog_safe (h : C.Sized Im) (hr : C.Reads) (n : Nat) (hn : n < C.No) :
    (C.prog n).Safe 1 (fun _ => True) := by
  rw [prog_flat h.shaped hr n hn]
  exact ⟨by omega, C.toDasData.loop_safe _ _ _ h.y _ _ (by omega) _⟩

theorem run_pixel (h : C.Sized Im) (hr : C.Reads) (n : Nat) (hn : n < C.No) (k : Nat → Int)
    (hk : C.Index n k) (c : Nat → F) :
    (C.prog n).runCol 1 c =
      .ok ((fun i => if i = 0 then (C.toDasData.fold k C.scans 0 (lit 0) .none).1 else c i),
        (C.toDasData.fold k C.scans 0 (lit 0) .none).2) := by
  rw [prog_flat h.shaped hr n hn]
  exact flatScan_run C.toDasData _ _ k _ hk h.y c

theorem progOk (h : C.Sized Im) (hr : C.Reads) (hk : ∀ n, n < C.No → ∃ k, C.Index n k) :
    ProgOk C.No 1 (fun n => n) C.level C.prog Im where
  inside n hn := by have := h.im; omega
  disj i j _ _ hij := by omega
  safe n hn := ((prog_safe h hr n hn).run _).1
  code n hn r hr' := by
    obtain ⟨k, hk⟩ := hk n hn
    rw [run_pixel h hr n hn k hk] at hr'
    rw [← Outcome.ok.inj hr']
    exact C.toDasData.fold_code k _ _ _ _ (.inl rfl)

theorem faithful (h : C.Sized Im) (hr : C.Reads) (hk : ∀ n, n < C.No → ∃ k, C.Index n k) :
    C.drv.Faithful Im := Drv.ofProg_faithful (progOk h hr hk)

theorem defined (h : C.Sized Im) (hr : C.Reads) (hk : ∀ n, n < C.No → ∃ k, C.Index n k) :
    C.drv.Defined Im :=
  Drv.ofProg_defined (progOk h hr hk) fun n hn => by
    obtain ⟨k, hk⟩ := hk n hn
    exact ⟨_, run_pixel h hr n hn k hk _⟩

theorem serial (h : C.Sized Im) (hr : C.Reads) (n : Nat) (hn : n < C.No) (k : Nat → Int)
    (hk : C.Index n k) (fuel : Nat) : C.drv.serialAt n fuel Im =
      .ok (Im.setCol n 1 (fun i => if i = 0 then (C.toDasData.fold k C.scans 0 (lit 0) .none).1
          else Im.getCol n 1 i), (C.toDasData.fold k C.scans 0 (lit 0) .none).2) := by
  show (C.prog n).runBuf n Im = _
  rw [Prog.runBuf_col n 1 Im (by have := h.im; omega) (C.prog n)
    ((prog_safe h hr n hn).run _).1, run_pixel h hr n hn k hk]
  rfl

end DasCall

/-! ### C30 for every arithmetic -/

section C30
variable {C : DasCall F} {Im : Buf F}

/-- C30: for every geometry, delay and data, whatever the travel times come out to be, no worker of
any schedule reads or writes outside the buffers, for SAFT, TFM and row-column arrays whose limits
are inside. -/
theorem C30_no_oob (h : C.Sized Im) (hr : C.Reads) (nth : Nat) (h1 : 1 ≤ nth) (as : List Act) :
    exec C.drv.task as (initSys C.No nth Im) ≠ .ub .oob :=
  Drv.ofProg_no_oob (fun n hn => by have := h.im; omega) (DasCall.prog_safe h hr) nth h1 as

/-- C30: the image value of point `n` in a serial call. -/
theorem C30_pixel (h : C.Sized Im) (hr : C.Reads) (n : Nat) (hn : n < C.No) (k : Nat → Int)
    (hk : C.Index n k) (fuel : Nat) :
    ∃ Im' e, C.drv.serialAt n fuel Im = .ok (Im', e) ∧ Im'.size = Im.size ∧
      (∀ i, i ≠ n → Im'.data i = Im.data i) ∧
      -- all indices inside: the sum and no error
      ((∀ q, q < C.scans → C.toDasData.hit k q) → Im'.data n = C.toDasData.acc k C.scans ∧ e = .none) ∧
      -- otherwise, below the stop level: the sum over the indices inside and the level's code
      (codeOf C.level ≠ .outOfBounds → (∃ q, q < C.scans ∧ ¬ C.toDasData.hit k q) →
        Im'.data n = C.toDasData.acc k C.scans ∧ e = codeOf C.level) ∧
      -- at the stop level: the sum up to the first index outside
      (codeOf C.level = .outOfBounds → ∀ q, q < C.scans → ¬ C.toDasData.hit k q →
        (∀ i, i < q → C.toDasData.hit k i) →
        Im'.data n = C.toDasData.acc k q ∧ e = .outOfBounds) := by
  simp only [← oobErr_eq]
  refine ⟨_, _, DasCall.serial h hr n hn k hk fuel, rfl, ?_, ?_, ?_, ?_⟩
  · intro i hi
    simp only [Buf.setCol]
    rw [if_neg (by omega)]
  all_goals
    have hd : ∀ c : Nat → F, (Im.setCol n 1 c).data n = c 0 := by
      intro c
      simp only [Buf.setCol]
      rw [if_pos (by omega), Nat.sub_self]
    rw [hd]
    simp only [if_true]
  · intro ha
    have := C.toDasData.fold_hits k C.scans 0 (fun i _ hi => ha i (by omega))
    simp only [Nat.zero_add, DasData.acc] at this
    rw [this]
    exact ⟨rfl, rfl⟩
  · rintro hl ⟨q, hq, hm⟩
    have := C.toDasData.fold_below k hl C.scans 0 .none (.inl rfl)
    simp only [Nat.zero_add, DasData.acc] at this
    rw [this, if_neg (fun g => hm (g q hq))]
    exact ⟨rfl, rfl⟩
  · intro hl q hq hm hb
    rw [C.toDasData.fold_stop k hl C.scans q hq hm hb]
    exact ⟨rfl, rfl⟩

/-- Code of point `n`. -/
theorem DasCall.pointErr (h : C.Sized Im) (hr : C.Reads) (n : Nat) (hn : n < C.No) (k : Nat → Int)
    (hk : C.Index n k) : C.drv.PointErr Im n
      (if ∀ q, q < C.scans → C.toDasData.hit k q then .none else codeOf C.level) := by
  obtain ⟨Im', e, h1, _, _, h2, h3, h4⟩ := C30_pixel h hr n hn k hk 0
  refine ⟨0, Im', ?_⟩
  rw [h1]
  congr 2
  by_cases ha : ∀ q, q < C.scans → C.toDasData.hit k q
  · rw [if_pos ha]; exact (h2 ha).2
  · rw [if_neg ha]
    have hex : ∃ q, q < C.scans ∧ ¬ C.toDasData.hit k q := by
      by_contra hne
      exact ha fun q hq => by
        by_contra hh
        exact hne ⟨q, hq, hh⟩
    by_cases hl : codeOf C.level = .outOfBounds
    · -- first miss
      have hmin : ∃ q, q < C.scans ∧ ¬ C.toDasData.hit k q ∧ ∀ i, i < q → C.toDasData.hit k i := by
        refine ⟨Nat.find hex, (Nat.find_spec hex).1, (Nat.find_spec hex).2, ?_⟩
        intro i hi
        by_contra hh
        exact Nat.find_min hex hi ⟨by have := (Nat.find_spec hex).1; omega, hh⟩
      obtain ⟨q, g1, g2, g3⟩ := hmin
      rw [(h4 hl q g1 g2 g3).2, hl]
    · exact (h3 hl hex).2

/-- C30: the image of every complete run, for every thread count and schedule, when no point stops
it. -/
theorem C30_image (h : C.Sized Im) (hr : C.Reads) (k : Nat → Nat → Int)
    (hk : ∀ n, n < C.No → C.Index n (k n))
    (hok : codeOf C.level ≠ .outOfBounds ∨ ∀ n, n < C.No → ∀ q, q < C.scans → C.toDasData.hit (k n) q)
    (nth : Nat) (h1 : 1 ≤ nth) (as : List Act) (hab : Act.abort ∉ as) (s' : Sys F (Prog F SIRError))
    (hrun : C.drv.Run nth Im as s') (n : Nat) (hn : n < C.No) :
    s'.mem.data n = C.toDasData.acc (k n) C.scans := by
  have hkk : ∀ n, n < C.No → ∃ k, C.Index n k := fun n hn => ⟨_, hk n hn⟩
  have hs := DasCall.faithful h hr hkk
  have hd := DasCall.defined h hr hkk
  have hno : ∀ n, n < C.drv.No → ¬ C.drv.PointErr Im n .outOfBounds := by
    intro n hn hp
    have := Drv.PointErr.unique hs hd hn hp (DasCall.pointErr h hr n hn _ (hk n hn))
    by_cases ha : ∀ q, q < C.scans → C.toDasData.hit (k n) q
    · rw [if_pos ha] at this; simp at this
    · rw [if_neg ha] at this
      rcases hok with g | g
      · exact g this.symm
      · exact ha (g n hn)
  obtain ⟨Im', e, g1, _, _, g2, g3, _⟩ := C30_pixel h hr n hn (k n) (hk n hn) 0
  have := Drv.columns hs hd nth h1 as hab hno s' hrun n hn 0 Im' e g1 0 (by show 0 < 1; omega)
  change s'.mem.data (n + 0) = Im'.data (n + 0) at this
  rw [Nat.add_zero] at this
  rw [this]
  by_cases ha : ∀ q, q < C.scans → C.toDasData.hit (k n) q
  · exact (g2 ha).1
  · rcases hok with g | g
    · refine (g3 g ?_).1
      by_contra hne
      exact ha fun q hq => by
        by_contra hh
        exact hne ⟨q, hq, hh⟩
    · exact absurd (g n hn) ha

/-- C30: what the call reports.  Without an abort the run flag is down at the end iff some A-scan
index of some point is outside at the stop level, and with two or more workers the returned code is
the error level's iff some index of some point is outside. -/
theorem C30_reported (h : C.Sized Im) (hr : C.Reads) (k : Nat → Nat → Int)
    (hk : ∀ n, n < C.No → C.Index n (k n)) (nth : Nat) (h1 : 1 ≤ nth) (as : List Act)
    (hab : Act.abort ∉ as) (s' : Sys F (Prog F SIRError)) (hrun : C.drv.Run nth Im as s') :
    (s'.running = false ↔ codeOf C.level = .outOfBounds ∧
      ∃ n, n < C.No ∧ ∃ q, q < C.scans ∧ ¬ C.toDasData.hit (k n) q) ∧
    (2 ≤ nth → (∃ n, n < C.No ∧ ∃ q, q < C.scans ∧ ¬ C.toDasData.hit (k n) q) →
      returned nth s' = codeOf C.level) ∧
    ((∀ n, n < C.No → ∀ q, q < C.scans → C.toDasData.hit (k n) q) →
      returned nth s' = .none) := by
  have hkk : ∀ n, n < C.No → ∃ k, C.Index n k := fun n hn => ⟨_, hk n hn⟩
  have hs := DasCall.faithful h hr hkk
  have hd := DasCall.defined h hr hkk
  have hpe := fun n hn => DasCall.pointErr h hr n hn _ (hk n hn)
  have hmiss : ∀ n, n < C.No → (∃ q, q < C.scans ∧ ¬ C.toDasData.hit (k n) q) →
      C.drv.PointErr Im n (codeOf C.level) := by
    rintro n hn ⟨q, hq, hm⟩
    have := hpe n hn
    rwa [if_neg (fun g => hm (g q hq))] at this
  refine ⟨?_, ?_, ?_⟩
  · rw [Drv.flag_iff hs hd nth h1 as hab s' hrun]
    constructor
    · rintro ⟨n, hn, hp⟩
      have := Drv.PointErr.unique hs hd hn hp (hpe n hn)
      by_cases ha : ∀ q, q < C.scans → C.toDasData.hit (k n) q
      · rw [if_pos ha] at this; simp at this
      · rw [if_neg ha] at this
        refine ⟨this.symm, n, hn, ?_⟩
        by_contra hne
        exact ha fun q hq => by
          by_contra hh
          exact hne ⟨q, hq, hh⟩
    · rintro ⟨hl, n, hn, hq⟩
      exact ⟨n, hn, hl ▸ hmiss n hn hq⟩
  · rintro h2 ⟨n, hn, hq⟩
    by_cases hne : codeOf C.level = .none
    · -- level `none`: no code differs from `none`
      have hall : ∀ n, n < C.drv.No → C.drv.PointErr Im n .none := by
        intro n hn
        have := hpe n hn
        rw [hne] at this
        simpa using this
      rw [hne]
      exact (Drv.join_many hs hd nth h2 as hab s' hrun).2 hall
    · rw [← oobErr_eq]
      exact (Drv.join_many hs hd nth h2 as hab s' hrun).1 ⟨n, hn, _, hne, hmiss n hn hq⟩
  · intro hall
    by_cases h2 : 2 ≤ nth
    · refine (Drv.join_many hs hd nth h2 as hab s' hrun).2 fun n hn => ?_
      have := hpe n hn
      rwa [if_pos (hall n hn)] at this
    · have : nth = 1 := by omega
      subst this
      rfl

/-- C30: every schedule ends. -/
theorem C30_terminates (h : C.Sized Im) (hr : C.Reads)
    (hk : ∀ n, n < C.No → ∃ k, C.Index n k) (nth : Nat) :
    (∀ as, ∃ s', exec C.drv.task as (initSys C.No nth Im) = .ok s') ∧
    (∃ B : Nat → Nat, ∀ as s', exec C.drv.task as (initSys C.No nth Im) = .ok s' →
      ∀ w, w < nth → B w ≤ as.count (.step w) → s'.isDone w) ∧
    ∃ as s', Act.abort ∉ as ∧ C.drv.Run nth Im as s' := by
  have hs := DasCall.faithful h hr hk
  have hd := DasCall.defined h hr hk
  obtain ⟨kk, s', g1, g2⟩ := Drv.run_exists hs hd nth
  exact ⟨(Drv.terminates hs hd nth).1, (Drv.terminates hs hd nth).2, _, s', g1, g2⟩

end C30

/-! ### C32 for every arithmetic -/

section C32
variable {C : DasCall F} {Im : Buf F}

/-- Coordinate `axis` (0, 1, 2 for x, y, z) of element `i` of a grid with `num` elements. -/
def coord (G : Buf F) (num axis i : Nat) : F := G.data (i + axis * num)

/-- The times with the stripe limits the comments of the source describe: the y-coordinates of the
first and the last row, the x-coordinates of the first and the last column. -/
def DasCall.rightTime (C : DasCall F) (n q : Nat) : F :=
  C.pathTime (coord C.Gr C.nr 1 0) (coord C.Gr C.nr 1 (C.nr - 1)) (coord C.Gt C.nt 0 0)
    (coord C.Gt C.nt 0 (C.nt - 1)) n q

/-- C32: with as many rows as columns the grids are read inside and the limits are the right ones,
for every method. -/
theorem C32_square (hsq : C.nt = C.nr) (hpos : 1 ≤ C.nt) :
    C.Reads ∧ ∀ n q, C.dpTime n q = C.rightTime n q := by
  refine ⟨.inr (.inr ⟨hpos, by omega, by omega⟩), fun n q => ?_⟩
  unfold DasCall.dpTime DasCall.rightTime coord
  rw [hsq]
  congr 2 <;> omega

/-- C32: hence the image of a square array is the sum of the right samples, for all threads and
schedules. -/
theorem C32_square_image (h : C.Sized Im) (hsq : C.nt = C.nr) (hpos : 1 ≤ C.nt)
    (k : Nat → Nat → Int)
    (hk : ∀ n, n < C.No → ∀ q, q < C.scans →
      castIdx C.ty (trunc (C.rightTime n q *. fsKhz C.dt)) = .ok (k n q))
    (hok : codeOf C.level ≠ .outOfBounds ∨ ∀ n, n < C.No → ∀ q, q < C.scans → C.toDasData.hit (k n) q)
    (nth : Nat) (h1 : 1 ≤ nth) (as : List Act) (hab : Act.abort ∉ as) (s' : Sys F (Prog F SIRError))
    (hrun : C.drv.Run nth Im as s') (n : Nat) (hn : n < C.No) :
    s'.mem.data n = C.toDasData.acc (k n) C.scans := by
  obtain ⟨g1, g2⟩ := C32_square (C := C) hsq hpos
  refine C30_image h g1 k ?_ hok nth h1 as hab s' hrun n hn
  intro n hn q hq
  rw [g2]
  exact hk n hn q hq

omit [Arith F] in
/-- The stripe limits of a shape that does not fit are read outside the grids. -/
theorem rcaLimits_outside (h : C.Sized Im) (_ : 1 ≤ C.nr) (hl : ¬ C.limitsOk) :
    rcaLimits C.Gt C.nt C.Gr C.nr = .ub .oob := by
  have hg := h.gt
  have hgr := h.gr
  have hout : ∀ (B : Buf F) (i : Int), (i < 0 ∨ (B.size : Int) ≤ i) → B.read i = .ub .oob := by
    intro B i hi
    unfold Buf.read
    rw [if_neg (by omega)]
  unfold DasCall.limitsOk at hl
  unfold rcaLimits
  by_cases h1 : C.nt < 3 * C.nr
  · rw [Buf.read_nat _ _ (by omega), Outcome.ok_bind]
    by_cases h2 : 1 ≤ C.nt ∧ 2 * C.nt ≤ 3 * C.nr
    · rw [show ((C.nt : Int) - 1 + 1 * C.nt) = ((2 * C.nt - 1 : Nat) : Int) by omega,
        Buf.read_nat _ _ (by omega), Outcome.ok_bind,
        show (0 : Int) = ((0 : Nat) : Int) from rfl, Buf.read_nat _ _ (by omega), Outcome.ok_bind,
        hout _ _ (.inr (by omega))]
      rfl
    · rw [hout _ ((C.nt : Int) - 1 + 1 * C.nt) (by omega)]
      rfl
  · rw [hout _ _ (.inr (by omega))]
    rfl

theorem DasCall.prog_outside (h : C.Sized Im) (hm : C.method = .rcaColtx ∨ C.method = .rcaRowtx)
    (hl : ¬ C.limitsOk) (n : Nat) (hn : n < C.No) : C.prog n = .bad .oob := by
  have hp := DasCall.nr_pos (C := C) (by rcases hm with g | g <;> rw [g] <;> simp)
  unfold DasCall.prog
  rw [DasCall.inputs_ok h.shaped n hn]
  simp only [Prog.lift, Prog.bind]
  rcases hm with g | g
  · rw [g]
    simp only []
    unfold dasColtx
    rw [rcaLimits_outside h hp hl]
    rfl
  · rw [g]
    simp only []
    unfold dasRowtx
    rw [rcaLimits_outside h hp hl]
    rfl

/-- C32: with correctly sized buffers but more than 3/2 as many columns as rows, more than three
times as many rows as columns, or no columns, every row-column call reads outside the element
grids: the kernel has no defined result for any point, every worker that has a point runs into it
at its second step, and no schedule that is not aborted completes. -/
theorem C32_outside (h : C.Sized Im) (hm : C.method = .rcaColtx ∨ C.method = .rcaRowtx)
    (hl : C.nt = 0 ∨ 3 * C.nr < 2 * C.nt ∨ 3 * C.nt < C.nr) :
    (∀ n, n < C.No → ∀ fuel, C.drv.serialAt n fuel Im = .ub .oob) ∧
    (∀ nth w as, w < nth → rangeStart C.No nth w < rangeStop C.No nth w →
      exec C.drv.task (.step w :: .step w :: as) (initSys C.No nth Im) = .ub .oob) ∧
    (∀ nth as s', 1 ≤ C.No → 1 ≤ nth → Act.abort ∉ as → ¬ C.drv.Run nth Im as s') := by
  have hl' : ¬ C.limitsOk := by unfold DasCall.limitsOk; omega
  refine ⟨?_, ?_, ?_⟩
  · intro n hn fuel
    show (C.prog n).runBuf n Im = _
    rw [DasCall.prog_outside h hm hl' n hn]
    rfl
  · intro nth w as hw hne
    refine Drv.ofProg_hits_bad Im nth w hw hne .oob ?_ as
    refine DasCall.prog_outside h hm hl' _ ?_
    have : rangeStop C.No nth w ≤ C.No := by
      unfold rangeStop
      refine Nat.div_le_of_le_mul ?_
      exact Nat.mul_le_mul_right _ (by omega)
    omega
  · intro nth as s' hNo h1 hab
    refine Drv.ofProg_stuck Im 0 (by omega) ?_ ?_ nth h1 as hab s'
    · rw [DasCall.prog_outside h hm hl' 0 (by omega)]
      trivial
    · intro n hn
      rw [DasCall.prog_outside h hm hl' n hn]
      trivial

/-- C32: which grid entries stand in for the limits when there are fewer columns than rows: x of a
row and y of a column. -/
theorem C32_entries_few_columns (h1 : 1 ≤ C.nt) (h2 : C.nt < C.nr) (h3 : C.nr ≤ 2 * C.nt) (n q : Nat) :
    C.dpTime n q = C.pathTime (coord C.Gr C.nr 0 C.nt)
      (if 2 * C.nt = C.nr then coord C.Gr C.nr 0 (2 * C.nt - 1) else coord C.Gr C.nr 1 (2 * C.nt - 1 - C.nr))
      (coord C.Gt C.nt 0 0) (coord C.Gt C.nt 1 (C.nr - 1 - C.nt)) n q := by
  unfold DasCall.dpTime coord
  by_cases h : 2 * C.nt = C.nr
  · rw [if_pos h]
    congr 2 <;> omega
  · rw [if_neg h]
    congr 2 <;> omega

/-- C32: and when there are more columns than rows (but at most 3/2 as many): y of a later row, z of
a row and x of an inner column. -/
theorem C32_entries_many_columns (h1 : C.nr < C.nt) (h2 : 2 * C.nt ≤ 3 * C.nr) (n q : Nat) :
    C.dpTime n q = C.pathTime (coord C.Gr C.nr 1 (C.nt - C.nr))
      (coord C.Gr C.nr 2 (2 * C.nt - 1 - 2 * C.nr))
      (coord C.Gt C.nt 0 0) (coord C.Gt C.nt 0 (C.nr - 1)) n q := by
  unfold DasCall.dpTime coord
  congr 2 <;> omega

end C32

end General

/-! ### Exact arithmetic -/

section Exact

/-- Distance between grid element `i` (grid stored column by column, `num` elements) and a point. -/
noncomputable def gridDist (G : ℕ → ℝ) (num i : ℕ) (x y z : ℝ) : ℝ :=
  Real.sqrt ((G i - x) ^ 2 + (G (i + num) - y) ^ 2 + (G (i + 2 * num) - z) ^ 2)

/-- Sample of A-scan `q` (of `len` samples each) at index `k`, zero outside the A-scan. -/
noncomputable def sampleAt (Y : ℕ → ℝ) (len q : ℕ) (k : ℤ) : ℝ :=
  if 0 ≤ k ∧ k < (len : ℤ) then Y (q * len + k.toNat) else 0

theorem DasData.acc_real (D : DasData ℝ) (k : ℕ → ℤ) (n : ℕ) :
    D.acc k n = ∑ q ∈ Finset.range n, sampleAt D.Y.data D.len q (k q) := by
  induction n with
  | zero => simp [DasData.acc]
  | succ n ih =>
    rw [Finset.sum_range_succ, ← ih]
    simp only [DasData.acc, sampleAt]
    by_cases h : D.hit k n
    · have h' : 0 ≤ k n ∧ k n < (D.len : ℤ) := h
      simp only [if_pos h, if_pos h']
      rfl
    · have h' : ¬ (0 ≤ k n ∧ k n < (D.len : ℤ)) := h
      simp only [if_neg h, if_neg h', add_zero]

variable {C : DasCall ℝ} {Im : Buf ℝ}

theorem elemVal_real (G : Buf ℝ) (num i : ℕ) (x y z cp : ℝ) :
    elemVal G num i x y z (oneOver cp) = gridDist G.data num i x y z / cp := by
  unfold elemVal travel gridDist oneOver
  simp only [r_sqrt, r_add, r_mul, r_sub, r_div, r_lit]
  rw [← sq, ← sq, ← sq]
  simp [div_eq_mul_inv]

/-- Sample index of SAFT: sampling frequency 1000/dt kHz times twice the sum of the one-way time
and the delay (given in microseconds). -/
noncomputable def saftIndex (dt cp d dist : ℝ) : ℤ := truncR (2 * (dist / cp + d / 1000) * (1000 / dt))

/-- Sample index of TFM: the delay counts once. -/
noncomputable def tfmIndex (dt cp d dist₁ dist₂ : ℝ) : ℤ :=
  truncR ((dist₁ / cp + d / 1000 + dist₂ / cp) * (1000 / dt))

theorem DasCall.dpTime_saft (hm : C.method = .saft) (n q : ℕ) :
    truncR (C.dpTime n q * fsKhz C.dt) = saftIndex C.dt C.cp (C.delayAt n)
      (gridDist C.Gt.data C.nt q (C.xo n) (C.yo n) (C.zo n)) := by
  unfold DasCall.dpTime DasCall.pathTime DasCall.tTime saftIndex fsKhz delayMs
  rw [hm]
  simp only [elemVal_real, r_add, r_mul, r_div, r_lit]
  congr 1
  push_cast
  ring

theorem DasCall.dpTime_tfm (hm : C.method = .tfm) (n q : ℕ) :
    truncR (C.dpTime n q * fsKhz C.dt) = tfmIndex C.dt C.cp (C.delayAt n)
      (gridDist C.Gt.data C.nt (q / C.nr) (C.xo n) (C.yo n) (C.zo n))
      (gridDist C.Gr.data C.nr (q % C.nr) (C.xo n) (C.yo n) (C.zo n)) := by
  unfold DasCall.dpTime DasCall.pathTime DasCall.tTime DasCall.rTime tfmIndex fsKhz delayMs
  rw [hm]
  simp only [elemVal_real, r_add, r_mul, r_div, r_lit]
  congr 1
  push_cast
  ring

/-- The conversions of the sample indices to the index type are defined. -/
def DasCall.Fits (C : DasCall ℝ) : Prop :=
  ∀ n, n < C.No → ∀ q, q < C.scans → C.ty.fits (truncR (C.dpTime n q * fsKhz C.dt)) = true

theorem DasCall.index_of_fits (hf : C.Fits) (n : ℕ) (hn : n < C.No) :
    C.Index n (fun q => truncR (C.dpTime n q * fsKhz C.dt)) := by
  intro q hq
  simp only [r_mul, r_trunc, castIdx]
  rw [if_pos (hf n hn q hq)]

/-- C30: the SAFT image in exact arithmetic. -/
theorem C30_saft_exact (h : C.Sized Im) (hm : C.method = .saft) (hf : C.Fits)
    (hl : codeOf C.level ≠ .outOfBounds) (nth : ℕ) (h1 : 1 ≤ nth) (as : List Act)
    (hab : Act.abort ∉ as) (s' : Sys ℝ (Prog ℝ SIRError)) (hrun : C.drv.Run nth Im as s')
    (n : ℕ) (hn : n < C.No) :
    s'.mem.data n = ∑ i ∈ Finset.range C.nt, sampleAt C.Y.data C.len i
      (saftIndex C.dt C.cp (C.delayAt n)
        (gridDist C.Gt.data C.nt i (C.xo n) (C.yo n) (C.zo n))) := by
  rw [C30_image h (.inl hm) _ (fun n hn => DasCall.index_of_fits hf n hn) (.inl hl) nth h1 as hab s'
    hrun n hn, DasData.acc_real]
  unfold DasCall.scans
  rw [if_pos hm]
  simp only [DasCall.dpTime_saft hm]

/-- A sum over all A-scans is a sum over all pairs. -/
theorem sum_pairs (f : ℕ → ℕ → ℝ) (n m : ℕ) (hm : 1 ≤ m) :
    ∑ q ∈ Finset.range (n * m), f (q / m) (q % m) =
      ∑ i ∈ Finset.range n, ∑ j ∈ Finset.range m, f i j := by
  induction n with
  | zero => simp
  | succ n ih =>
    rw [Nat.add_mul, Nat.one_mul, Finset.sum_range_add, ih, Finset.sum_range_succ]
    congr 1
    refine Finset.sum_congr rfl fun j hj => ?_
    rw [Finset.mem_range] at hj
    rw [Nat.mul_comm n m, Nat.mul_add_div (by omega), Nat.mul_add_mod, Nat.div_eq_of_lt hj,
      Nat.mod_eq_of_lt hj, Nat.add_zero]

/-- C30: the TFM image in exact arithmetic. -/
theorem C30_tfm_exact (h : C.Sized Im) (hm : C.method = .tfm) (hf : C.Fits)
    (hl : codeOf C.level ≠ .outOfBounds) (nth : ℕ) (h1 : 1 ≤ nth) (as : List Act)
    (hab : Act.abort ∉ as) (s' : Sys ℝ (Prog ℝ SIRError)) (hrun : C.drv.Run nth Im as s')
    (n : ℕ) (hn : n < C.No) :
    s'.mem.data n = ∑ i ∈ Finset.range C.nt, ∑ j ∈ Finset.range C.nr,
      sampleAt C.Y.data C.len (i * C.nr + j) (tfmIndex C.dt C.cp (C.delayAt n)
        (gridDist C.Gt.data C.nt i (C.xo n) (C.yo n) (C.zo n))
        (gridDist C.Gr.data C.nr j (C.xo n) (C.yo n) (C.zo n))) := by
  have hp := DasCall.nr_pos (C := C) (by rw [hm]; simp)
  rw [C30_image h (.inr (.inl hm)) _ (fun n hn => DasCall.index_of_fits hf n hn) (.inl hl) nth h1
    as hab s' hrun n hn, DasData.acc_real, ← sum_pairs _ C.nt C.nr hp]
  unfold DasCall.scans
  rw [if_neg (by rw [hm]; simp)]
  refine Finset.sum_congr rfl fun q hq => ?_
  rw [DasCall.dpTime_tfm hm]
  congr 1
  rw [Nat.mul_comm, Nat.div_add_mod]

/-! ### C31 -/

/-- The same TFM call with the two arrays exchanged and the data transposed. -/
structure Swapped (C C' : DasCall ℝ) : Prop where
  gt : C'.Gt = C.Gr
  nt : C'.nt = C.nr
  gr : C'.Gr = C.Gt
  nr : C'.nr = C.nt
  len : C'.len = C.len
  ro : C'.Ro = C.Ro
  no : C'.No = C.No
  dt : C'.dt = C.dt
  cp : C'.cp = C.cp
  delayType : C'.delayType = C.delayType
  delay : C'.delay = C.delay
  data : ∀ i, i < C.nt → ∀ j, j < C.nr → ∀ s, s < C.len →
    C'.Y.data ((j * C.nt + i) * C.len + s) = C.Y.data ((i * C.nr + j) * C.len + s)

/-- C31: exchanging transmitters and receivers (and the data accordingly) leaves the TFM image
unchanged in exact arithmetic, for all thread counts and schedules of the two calls. -/
theorem C31_tfm_reciprocity {C C' : DasCall ℝ} {Im Im' : Buf ℝ} (hsw : Swapped C C')
    (h : C.Sized Im) (h' : C'.Sized Im') (hm : C.method = .tfm) (hm' : C'.method = .tfm)
    (hf : C.Fits) (hf' : C'.Fits) (hl : codeOf C.level ≠ .outOfBounds)
    (hl' : codeOf C'.level ≠ .outOfBounds)
    (nth nth' : ℕ) (h1 : 1 ≤ nth) (h1' : 1 ≤ nth') (as as' : List Act)
    (hab : Act.abort ∉ as) (hab' : Act.abort ∉ as') (s s' : Sys ℝ (Prog ℝ SIRError))
    (hrun : C.drv.Run nth Im as s) (hrun' : C'.drv.Run nth' Im' as' s') (n : ℕ) (hn : n < C.No) :
    s'.mem.data n = s.mem.data n := by
  rw [C30_tfm_exact h hm hf hl nth h1 as hab s hrun n hn,
    C30_tfm_exact h' hm' hf' hl' nth' h1' as' hab' s' hrun' n (by rw [hsw.no]; exact hn)]
  have e1 : C'.xo n = C.xo n := by unfold DasCall.xo; rw [hsw.ro]
  have e2 : C'.yo n = C.yo n := by unfold DasCall.yo; rw [hsw.ro, hsw.no]
  have e3 : C'.zo n = C.zo n := by unfold DasCall.zo; rw [hsw.ro, hsw.no]
  have e4 : C'.delayAt n = C.delayAt n := by
    unfold DasCall.delayAt; rw [hsw.delayType, hsw.delay]
  rw [e1, e2, e3, e4, hsw.gt, hsw.gr, hsw.nt, hsw.nr, hsw.dt, hsw.cp, hsw.len, Finset.sum_comm]
  refine Finset.sum_congr rfl fun i hi => Finset.sum_congr rfl fun j hj => ?_
  rw [Finset.mem_range] at hi hj
  have hidx : ∀ a b : ℝ, tfmIndex C.dt C.cp (C.delayAt n) a b = tfmIndex C.dt C.cp (C.delayAt n) b a := by
    intro a b
    unfold tfmIndex
    congr 1
    ring
  rw [hidx]
  unfold sampleAt
  split
  · next hk =>
    exact hsw.data i hi j hj _ (by omega)
  · rfl

/-- C31: SAFT samples where TFM of the same array samples its pulse-echo A-scans with twice the
delay. -/
theorem C31_saft_index (dt cp d r : ℝ) : saftIndex dt cp d r = tfmIndex dt cp (2 * d) r r := by
  unfold saftIndex tfmIndex
  congr 1
  ring

/-- C31: hence the SAFT image with delay `d` is the TFM image with delay `2 d` of data in which only
the pulse-echo A-scans are present, for every array, data and thread counts. -/
theorem C31_saft_is_diagonal_tfm {C C' : DasCall ℝ} {Im Im' : Buf ℝ}
    (hm : C.method = .saft) (hm' : C'.method = .tfm)
    (hgt : C'.Gt = C.Gt) (hgr : C'.Gr = C.Gt) (hnt : C'.nt = C.nt) (hnr : C'.nr = C.nt)
    (hlen : C'.len = C.len) (hro : C'.Ro = C.Ro) (hno : C'.No = C.No) (hdt : C'.dt = C.dt)
    (hcp : C'.cp = C.cp) (hdelay : ∀ n, n < C.No → C'.delayAt n = 2 * C.delayAt n)
    (hdiag : ∀ i, i < C.nt → ∀ s, s < C.len →
      C'.Y.data ((i * C.nt + i) * C.len + s) = C.Y.data (i * C.len + s))
    (hoff : ∀ i, i < C.nt → ∀ j, j < C.nt → i ≠ j → ∀ s, s < C.len →
      C'.Y.data ((i * C.nt + j) * C.len + s) = 0)
    (h : C.Sized Im) (h' : C'.Sized Im') (hf : C.Fits) (hf' : C'.Fits)
    (hl : codeOf C.level ≠ .outOfBounds) (hl' : codeOf C'.level ≠ .outOfBounds)
    (nth nth' : ℕ) (h1 : 1 ≤ nth) (h1' : 1 ≤ nth') (as as' : List Act)
    (hab : Act.abort ∉ as) (hab' : Act.abort ∉ as') (s s' : Sys ℝ (Prog ℝ SIRError))
    (hrun : C.drv.Run nth Im as s) (hrun' : C'.drv.Run nth' Im' as' s') (n : ℕ) (hn : n < C.No) :
    s'.mem.data n = s.mem.data n := by
  rw [C30_saft_exact h hm hf hl nth h1 as hab s hrun n hn,
    C30_tfm_exact h' hm' hf' hl' nth' h1' as' hab' s' hrun' n (by rw [hno]; exact hn)]
  have e1 : C'.xo n = C.xo n := by unfold DasCall.xo; rw [hro]
  have e2 : C'.yo n = C.yo n := by unfold DasCall.yo; rw [hro, hno]
  have e3 : C'.zo n = C.zo n := by unfold DasCall.zo; rw [hro, hno]
  rw [e1, e2, e3, hdelay n hn, hgt, hgr, hnt, hnr, hdt, hcp, hlen]
  refine Finset.sum_congr rfl fun i hi => ?_
  rw [Finset.mem_range] at hi
  rw [Finset.sum_eq_single i]
  · rw [← C31_saft_index]
    unfold sampleAt
    split
    · next hk => exact hdiag i hi _ (by omega)
    · rfl
  · intro j hj hji
    rw [Finset.mem_range] at hj
    unfold sampleAt
    split
    · next hk => exact hoff i hi j hj (Ne.symm hji) _ (by omega)
    · rfl
  · intro hni
    exact absurd (Finset.mem_range.mpr hi) hni

/-- C31: with a delay that is not zero the two methods sample different instants: their indices
agree for every geometry and sampling interval iff the delay is zero. -/
theorem C31_delay_matters (d : ℝ) :
    (∀ dt cp r : ℝ, 0 < dt → 0 < cp → 0 ≤ r → saftIndex dt cp d r = tfmIndex dt cp d r r) ↔ d = 0 := by
  constructor
  · intro hall
    by_contra hd
    have h1 := hall |d| 1 0 (abs_pos.mpr hd) one_pos le_rfl
    unfold saftIndex tfmIndex at h1
    have hne : |d| ≠ 0 := abs_ne_zero.mpr hd
    rcases lt_or_gt_of_ne hd with hneg | hpos
    · rw [abs_of_neg hneg] at h1
      have e1 : 2 * (0 / 1 + d / 1000) * (1000 / -d) = ((-2 : ℤ) : ℝ) := by
        push_cast; field_simp; ring
      have e2 : ((0 : ℝ) / 1 + d / 1000 + 0 / 1) * (1000 / -d) = ((-1 : ℤ) : ℝ) := by
        push_cast; field_simp; ring
      rw [e1, e2] at h1
      unfold truncR at h1
      rw [if_neg (by norm_num), if_neg (by norm_num), Int.ceil_intCast, Int.ceil_intCast] at h1
      norm_num at h1
    · rw [abs_of_pos hpos] at h1
      have e1 : 2 * (0 / 1 + d / 1000) * (1000 / d) = ((2 : ℤ) : ℝ) := by
        push_cast; field_simp; ring
      have e2 : ((0 : ℝ) / 1 + d / 1000 + 0 / 1) * (1000 / d) = ((1 : ℤ) : ℝ) := by
        push_cast; field_simp; ring
      rw [e1, e2] at h1
      unfold truncR at h1
      rw [if_pos (by norm_num), if_pos (by norm_num), Int.floor_intCast, Int.floor_intCast] at h1
      norm_num at h1
  · rintro rfl dt cp r _ _ _
    rw [C31_saft_index, mul_zero]

/-! ### A non-square array (C32) -/

/-- One column stripe at the origin, two row stripes at y = -9 and y = 6, image point (0, 6, 8),
sound speed 1 m/s, sampling interval such that indices are the times; A-scan sample = its position
in the data. -/
noncomputable def exRca : DasCall ℝ where
  Y := ⟨60, fun i => i⟩
  len := 30
  ty := .signed
  level := .ignore
  dasType := .rcaColtx
  Gt := ⟨3, fun _ => 0⟩
  nt := 1
  Gr := ⟨6, fun i => if i = 2 then -9 else if i = 3 then 6 else 0⟩
  nr := 2
  Ro := ⟨3, fun i => if i = 0 then 0 else if i = 1 then 6 else 8⟩
  No := 1
  dt := 1000
  cp := 1
  delayType := .single
  delay := ⟨1, fun _ => 0⟩

theorem exRca_method : exRca.method = .rcaColtx := by simp [exRca, DasCall.method]

theorem exRca_sized : exRca.Sized ⟨1, fun _ => 0⟩ := by
  refine ⟨?_, ?_, ?_, ?_, ?_, ?_⟩ <;> simp [exRca, DasCall.scans, DasCall.method]

theorem sqrt_of_sq {a b : ℝ} (hb : 0 ≤ b) (h : a = b ^ 2) : Real.sqrt a = b := by
  rw [h, Real.sqrt_sq hb]

theorem exRca_times : exRca.dpTime 0 0 = 27 ∧ exRca.dpTime 0 1 = 18 ∧
    exRca.rightTime 0 0 = 25 ∧ exRca.rightTime 0 1 = 16 := by
  have q1 : Real.sqrt 100 = 10 := sqrt_of_sq (by norm_num) (by norm_num)
  have q2 : Real.sqrt 289 = 17 := sqrt_of_sq (by norm_num) (by norm_num)
  have q3 : Real.sqrt 64 = 8 := sqrt_of_sq (by norm_num) (by norm_num)
  refine ⟨?_, ?_, ?_, ?_⟩
  all_goals
    simp only [DasCall.dpTime, DasCall.rightTime, DasCall.pathTime, exRca_method]
    simp [exRca, DasCall.colT, DasCall.rowT, travel, edge, DasCall.xo, DasCall.yo, DasCall.zo,
      DasCall.delayAt, delayMs, oneOver, coord]
    norm_num [q1, q2, q3]

theorem exRca_fs : fsKhz exRca.dt = 1 := by
  simp [exRca, fsKhz]

/-- C32: a correctly sized call with one column and two rows whose image is wrong: every complete
run, for all thread counts and schedules, delivers 75, but the samples that the stripe limits
described in the source select sum up to 71. -/
theorem C32_nonsquare_wrong : ∃ (C : DasCall ℝ) (Im : Buf ℝ), C.Sized Im ∧ C.Reads ∧
    C.method = .rcaColtx ∧ C.No = 1 ∧
    (∀ nth as s', 1 ≤ nth → Act.abort ∉ as → C.drv.Run nth Im as s' → s'.mem.data 0 = 75) ∧
    C.toDasData.acc (fun q => truncR (C.rightTime 0 q * fsKhz C.dt)) C.scans = 71 := by
  have hReads : exRca.Reads := .inr (.inr ⟨by simp [exRca], by simp [exRca], by simp [exRca]⟩)
  obtain ⟨t0, t1, r0, r1⟩ := exRca_times
  have tr : ∀ m : ℕ, truncR ((m : ℝ) * 1) = (m : ℤ) := by
    intro m
    rw [mul_one]
    unfold truncR
    rw [if_pos (by positivity)]
    exact Int.floor_natCast m
  have k27 := tr 27
  have k18 := tr 18
  have k25 := tr 25
  have k16 := tr 16
  norm_num at k27 k18 k25 k16
  have hscans : exRca.scans = 2 := by simp [exRca, DasCall.scans, DasCall.method]
  refine ⟨exRca, ⟨1, fun _ => 0⟩, exRca_sized, hReads, exRca_method, rfl, ?_, ?_⟩
  · intro nth as s' h1 hab hrun
    have hfits : exRca.Fits := by
      intro n hn q hq
      have hn0 : n = 0 := by
        have : n < 1 := hn
        omega
      subst hn0
      rw [hscans] at hq
      rw [exRca_fs, mul_one]
      have : q = 0 ∨ q = 1 := by omega
      rcases this with rfl | rfl
      · rw [t0, k27]; simp [exRca, IdxTy.fits]
      · rw [t1, k18]; simp [exRca, IdxTy.fits]
    rw [C30_image exRca_sized hReads _ (fun n hn => DasCall.index_of_fits hfits n hn)
      (.inl (by simp [exRca, codeOf])) nth h1 as hab s' hrun 0 (by simp [exRca]),
      DasData.acc_real, hscans, Finset.sum_range_succ, Finset.sum_range_succ, Finset.sum_range_zero]
    rw [exRca_fs, mul_one, mul_one, t0, t1, k27, k18]
    simp [sampleAt, exRca]
    norm_num
  · rw [DasData.acc_real, hscans, Finset.sum_range_succ, Finset.sum_range_succ,
      Finset.sum_range_zero, exRca_fs, mul_one, mul_one, r0, r1, k25, k16]
    simp [sampleAt, exRca]
    norm_num

/-! ### Concrete calls that meet the hypotheses -/

/-- A two-element array at (0,0,0), (6,0,0), one image point (0,0,8), delay `d` microseconds. -/
noncomputable def exDas (m : DASType) (scans : ℕ) (Y : ℕ → ℝ) (nr : ℕ) (d : ℝ) : DasCall ℝ where
  Y := ⟨scans * 30, Y⟩
  len := 30
  ty := .signed
  level := .ignore
  dasType := m
  Gt := ⟨6, fun i => if i = 1 then 6 else 0⟩
  nt := 2
  Gr := ⟨3 * nr, fun i => if i = 1 then 6 else 0⟩
  nr := nr
  Ro := ⟨3, fun i => if i = 2 then 8 else 0⟩
  No := 1
  dt := 1000
  cp := 1
  delayType := .single
  delay := ⟨1, fun _ => d⟩

theorem exDas_saft_method (Y : ℕ → ℝ) (m : DASType) (d : ℝ) : (exDas m 2 Y 0 d).method = .saft := by
  simp [exDas, DasCall.method]

theorem exDas_tfm_method (Y : ℕ → ℝ) (d : ℝ) : (exDas .tfm 4 Y 2 d).method = .tfm := by
  simp [exDas, DasCall.method]

theorem exDas_saft_sized (Y : ℕ → ℝ) (m : DASType) (d : ℝ) :
    (exDas m 2 Y 0 d).Sized ⟨1, fun _ => 9⟩ := by
  refine ⟨?_, ?_, ?_, ?_, ?_, ?_⟩ <;> simp [exDas, DasCall.scans, DasCall.method]

theorem exDas_tfm_sized (Y : ℕ → ℝ) (d : ℝ) : (exDas .tfm 4 Y 2 d).Sized ⟨1, fun _ => 9⟩ := by
  refine ⟨?_, ?_, ?_, ?_, ?_, ?_⟩ <;> simp [exDas, DasCall.scans, DasCall.method]

theorem exDas_dist (i : ℕ) (hi : i < 2) :
    gridDist (fun i => if i = 1 then 6 else 0) 2 i 0 0 8 = if i = 0 then 8 else 10 := by
  have : i = 0 ∨ i = 1 := by omega
  rcases this with rfl | rfl
  · simp only [gridDist]
    norm_num
    exact sqrt_of_sq (by norm_num) (by norm_num)
  · simp only [gridDist]
    norm_num
    exact sqrt_of_sq (by norm_num) (by norm_num)

theorem truncR_nat {x : ℝ} (m : ℕ) (h : x = m) : truncR x = m := by
  rw [h]
  unfold truncR
  rw [if_pos (by positivity)]
  exact Int.floor_natCast m

theorem exDas_saft_fits (Y : ℕ → ℝ) (m : DASType) : (exDas m 2 Y 0 0).Fits := by
  intro n hn q hq
  have hn0 : n = 0 := by
    have : n < 1 := hn
    omega
  subst hn0
  have hq2 : q < 2 := by
    unfold DasCall.scans at hq
    rw [if_pos (exDas_saft_method Y m 0)] at hq
    exact hq
  rw [DasCall.dpTime_saft (exDas_saft_method Y m 0)]
  have hd : gridDist (exDas m 2 Y 0 0).Gt.data (exDas m 2 Y 0 0).nt q ((exDas m 2 Y 0 0).xo 0)
      ((exDas m 2 Y 0 0).yo 0) ((exDas m 2 Y 0 0).zo 0) = if q = 0 then 8 else 10 := by
    rw [← exDas_dist q hq2]
    simp [exDas, DasCall.xo, DasCall.yo, DasCall.zo]
  rw [hd]
  by_cases h0 : q = 0
  · rw [if_pos h0]
    unfold saftIndex
    rw [truncR_nat 16 (by simp [exDas, DasCall.delayAt]; norm_num)]
    simp [exDas, IdxTy.fits]
  · rw [if_neg h0]
    unfold saftIndex
    rw [truncR_nat 20 (by simp [exDas, DasCall.delayAt]; norm_num)]
    simp [exDas, IdxTy.fits]

theorem exDas_tfm_fits (Y : ℕ → ℝ) : (exDas .tfm 4 Y 2 0).Fits := by
  intro n hn q hq
  have hn0 : n = 0 := by
    have : n < 1 := hn
    omega
  subst hn0
  have hq4 : q < 4 := by
    unfold DasCall.scans at hq
    rw [if_neg (by rw [exDas_tfm_method Y 0]; simp)] at hq
    exact hq
  rw [DasCall.dpTime_tfm (exDas_tfm_method Y 0)]
  have hd : ∀ i, i < 2 → gridDist (exDas .tfm 4 Y 2 0).Gt.data (exDas .tfm 4 Y 2 0).nt i
      ((exDas .tfm 4 Y 2 0).xo 0) ((exDas .tfm 4 Y 2 0).yo 0) ((exDas .tfm 4 Y 2 0).zo 0) =
      if i = 0 then 8 else 10 := by
    intro i hi
    rw [← exDas_dist i hi]
    simp [exDas, DasCall.xo, DasCall.yo, DasCall.zo]
  have hd' : ∀ i, i < 2 → gridDist (exDas .tfm 4 Y 2 0).Gr.data (exDas .tfm 4 Y 2 0).nr i
      ((exDas .tfm 4 Y 2 0).xo 0) ((exDas .tfm 4 Y 2 0).yo 0) ((exDas .tfm 4 Y 2 0).zo 0) =
      if i = 0 then 8 else 10 := by
    intro i hi
    rw [← exDas_dist i hi]
    simp [exDas, DasCall.xo, DasCall.yo, DasCall.zo]
  have hnr : (exDas .tfm 4 Y 2 0).nr = 2 := rfl
  rw [hnr] at hd' ⊢
  rw [hd _ (by omega), hd' _ (Nat.mod_lt _ (by omega))]
  unfold tfmIndex
  have : ∃ m : ℕ, m < 100 ∧
      ((if q / 2 = 0 then (8 : ℝ) else 10) / (exDas .tfm 4 Y 2 0).cp +
        (exDas .tfm 4 Y 2 0).delayAt 0 / 1000 + (if q % 2 = 0 then (8 : ℝ) else 10) /
        (exDas .tfm 4 Y 2 0).cp) * (1000 / (exDas .tfm 4 Y 2 0).dt) = m := by
    refine ⟨(if q / 2 = 0 then 8 else 10) + (if q % 2 = 0 then 8 else 10), ?_, ?_⟩
    · split <;> split <;> omega
    · simp [exDas, DasCall.delayAt]
  obtain ⟨m, hm, he⟩ := this
  rw [truncR_nat m he]
  simp only [exDas, IdxTy.fits, decide_eq_true_eq]
  omega

-- hypotheses of the C30 theorems, with a complete run and its image value 16 + 30 + 20
example : (exDas .tfm 2 (fun i => i) 0 0).Sized ⟨1, fun _ => 9⟩ ∧
    (exDas .tfm 2 (fun i => i) 0 0).method = .saft ∧ (exDas .tfm 2 (fun i => i) 0 0).Fits ∧
    ∃ as s', Act.abort ∉ as ∧ (exDas .tfm 2 (fun i => i) 0 0).drv.Run 2 ⟨1, fun _ => 9⟩ as s' ∧
      s'.mem.data 0 = 66 := by
  have hs := exDas_saft_sized (fun i => (i : ℝ)) .tfm 0
  have hm := exDas_saft_method (fun i => (i : ℝ)) .tfm 0
  have hf := exDas_saft_fits (fun i => (i : ℝ)) .tfm
  obtain ⟨_, _, as, s', g1, g2⟩ := C30_terminates hs (.inl hm)
    (fun n hn => ⟨_, DasCall.index_of_fits hf n hn⟩) 2
  refine ⟨hs, hm, hf, as, s', g1, g2, ?_⟩
  rw [C30_saft_exact hs hm hf (by simp [exDas, codeOf]) 2 (by omega) as g1 s' g2 0 (by simp [exDas])]
  have hnt : (exDas .tfm 2 (fun i => (i : ℝ)) 0 0).nt = 2 := rfl
  have hd : ∀ i, i < 2 → gridDist (exDas .tfm 2 (fun i => (i : ℝ)) 0 0).Gt.data 2 i
      ((exDas .tfm 2 (fun i => (i : ℝ)) 0 0).xo 0) ((exDas .tfm 2 (fun i => (i : ℝ)) 0 0).yo 0)
      ((exDas .tfm 2 (fun i => (i : ℝ)) 0 0).zo 0) = if i = 0 then 8 else 10 := by
    intro i hi
    rw [← exDas_dist i hi]
    simp [exDas, DasCall.xo, DasCall.yo, DasCall.zo]
  rw [hnt, Finset.sum_range_succ, Finset.sum_range_succ, Finset.sum_range_zero, hd 0 (by omega),
    hd 1 (by omega)]
  unfold saftIndex
  rw [truncR_nat 16 (by simp [exDas, DasCall.delayAt]; norm_num),
    truncR_nat 20 (by simp [exDas, DasCall.delayAt]; norm_num)]
  simp [sampleAt, exDas]
  norm_num

-- hypotheses of C31_tfm_reciprocity
example : Swapped (exDas .tfm 4 (fun i => if i < 60 then i else i) 2 0)
      (exDas .tfm 4 (fun i => if 30 ≤ i ∧ i < 60 then i + 30 else if 60 ≤ i ∧ i < 90 then i - 30 else i)
        2 0) ∧
    (∀ Y, (exDas .tfm 4 Y 2 0).Sized ⟨1, fun _ => 9⟩) ∧ (∀ Y, (exDas .tfm 4 Y 2 0).method = .tfm) ∧
    (∀ Y, (exDas .tfm 4 Y 2 0).Fits) := by
  refine ⟨⟨rfl, rfl, rfl, rfl, rfl, rfl, rfl, rfl, rfl, rfl, rfl, ?_⟩,
    fun Y => exDas_tfm_sized Y 0, fun Y => exDas_tfm_method Y 0, exDas_tfm_fits⟩
  intro i hi j hj t ht
  have hi' : i = 0 ∨ i = 1 := by simp only [exDas] at hi; omega
  have hj' : j = 0 ∨ j = 1 := by simp only [exDas] at hj; omega
  simp only [exDas] at ht ⊢
  rcases hi' with rfl | rfl <;> rcases hj' with rfl | rfl <;>
    (split_ifs <;> first | omega | (push_cast; ring_nf))

-- hypotheses of C31_saft_is_diagonal_tfm: SAFT and TFM of the same array, diagonal data
example : (∀ Y, (exDas .saft 2 Y 0 0).Sized ⟨1, fun _ => 9⟩) ∧
    (∀ Y, (exDas .saft 2 Y 0 0).method = .saft) ∧ (∀ Y, (exDas .saft 2 Y 0 0).Fits) ∧
    (∀ Y Y', (exDas .tfm 4 Y' 2 0).Gr = (exDas .saft 2 Y 0 0).Gt) ∧
    ∀ Y Y', (exDas .tfm 4 Y' 2 0).delayAt 0 = 2 * (exDas .saft 2 Y 0 0).delayAt 0 :=
  ⟨fun Y => exDas_saft_sized Y .saft 0, fun Y => exDas_saft_method Y .saft 0,
    fun Y => exDas_saft_fits Y .saft, fun _ _ => rfl, fun _ _ => by simp [exDas, DasCall.delayAt]⟩

-- hypotheses of C32_outside: three columns, one row, all buffers sized
example : ∃ C : DasCall ℝ, C.Sized ⟨1, fun _ => 9⟩ ∧ C.method = .rcaColtx ∧ 3 * C.nr < 2 * C.nt ∧
    1 ≤ C.No :=
  ⟨{ exDas .rcaColtx 2 (fun _ => 0) 1 0 with nt := 3, Gt := ⟨9, fun _ => 0⟩, Y := ⟨90, fun _ => 0⟩ },
    by refine ⟨?_, ?_, ?_, ?_, ?_, ?_⟩ <;> simp [exDas, DasCall.scans, DasCall.method],
    by simp [exDas, DasCall.method], by simp [exDas], by simp [exDas]⟩

end Exact

end Dream
