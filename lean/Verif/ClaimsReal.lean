import Verif.ClaimsKernel
import Verif.RealArith
import Mathlib.Algebra.BigOperators.Group.Finset.Basic
import Mathlib.Tactic.NormNum

/-
C11, C12, C13, C14: values of the responses, termination of the sampling loops, sign,
linearity, delay.
-/

namespace Dream
open Arith Finset

/-! ### Samples as sums -/

theorem foldl_contribution (i : ℕ) (ps : List (Pt ℝ)) (s : ℝ) :
    ps.foldl (contribution none i) s =
      s + (ps.map fun p => if p.idx = (i : ℤ) then p.ai else 0).sum := by
  induction ps generalizing s with
  | nil => simp
  | cons p ps ih =>
    simp only [List.foldl_cons, List.map_cons, List.sum_cons]
    rw [ih]
    simp only [contribution, r_add]
    split_ifs <;> ring

theorem sum_filter_inRange (nt i : ℕ) (hi : i < nt) (ps : List (Pt ℝ)) :
    ((ps.filter (Pt.inRange nt)).map fun p => if p.idx = (i : ℤ) then p.ai else 0).sum =
      (ps.map fun p => if p.idx = (i : ℤ) then p.ai else 0).sum := by
  induction ps with
  | nil => rfl
  | cons p ps ih =>
    by_cases h : p.inRange nt = true
    · rw [List.filter_cons_of_pos h]; simp only [List.map_cons, List.sum_cons, ih]
    · rw [List.filter_cons_of_neg h]; simp only [List.map_cons, List.sum_cons, ih]
      have : ¬ p.idx = (i : ℤ) := by
        intro h'; apply h; simp only [Pt.inRange, decide_eq_true_eq]; omega
      rw [if_neg this, zero_add]

/-- Every lossless kernel in exact arithmetic: sample `i` is its initial value plus the
amplitudes of the surface points arriving at `i`. -/
theorem kern_samples (k : Kern ℝ) (nt : ℕ) (ty : IdxTy) (level : ErrorLevel) (p : Par ℝ)
    (xo yo zo : ℝ) (fuel base : ℕ) (m : Buf ℝ) (hb : base + nt ≤ m.size) (ps : List (Pt ℝ))
    (hps : k.points p xo yo zo fuel = some ps) (hcast : ∀ q ∈ ps, q.castOk ty)
    (hl : (level = .ignore ∨ level = .warn ∨ level = .none) ∨ ps.all (Pt.inRange nt) = true) :
    ∃ m' e, k.serial nt ty level none p xo yo zo fuel base m = .ok (m', e) ∧
      ∀ i, i < nt → m'.data (base + i) = k.initial base m i +
        (ps.map fun q => if q.idx = (i : ℤ) then q.ai else 0).sum := by
  by_cases hl' : level = .ignore ∨ level = .warn ∨ level = .none
  · obtain ⟨m', h1, h2⟩ := C10_ignore_warn k nt ty level none p xo yo zo fuel base m hb ps hps
      hcast hl'
    refine ⟨m', _, h1, fun i hi => ?_⟩
    rw [h2 i hi, foldl_contribution, sum_filter_inRange nt i hi]
  · have hall := hl.resolve_left hl'
    have hst : level = .stop ∨ level = .parallelStop := by
      cases level <;> simp_all
    obtain ⟨m', h1, h2⟩ := C10_stop k nt ty level none p xo yo zo fuel base m hb ps hps
      hcast hst
    refine ⟨m', _, h1, fun i hi => ?_⟩
    have htake : ps.takeWhile (Pt.inRange nt) = ps := by
      clear h1 h2 hps hcast hl
      induction ps with
      | nil => rfl
      | cons x xs ih =>
        have h := List.all_eq_true.mp hall
        rw [List.takeWhile_cons, if_pos (h x (by simp)),
          ih (List.all_eq_true.mpr fun y hy => h y (by simp [hy]))]
    rw [h2 i hi, foldl_contribution, htake]

theorem list_range_sum (n : ℕ) (f : ℕ → ℝ) :
    ((List.range n).map f).sum = ∑ j ∈ range n, f j := by
  rw [Finset.sum_range]
  induction n with
  | zero => simp
  | succ n ih => rw [List.range_succ, List.map_append, List.sum_append, ih, Fin.sum_univ_castSucc]
                 simp

theorem flatMap_sum {α : Type} (n : ℕ) (N : ℕ → ℕ) (pt : ℕ → ℕ → α) (f : α → ℝ) :
    (((List.range n).flatMap fun q => (List.range (N q)).map (pt q)).map f).sum =
      ∑ q ∈ range n, ∑ j ∈ range (N q), f (pt q j) := by
  rw [List.map_flatMap, ← list_range_sum]
  induction n with
  | zero => simp
  | succ n ih =>
    rw [List.range_succ, List.flatMap_append, List.sum_append, ih, List.map_append,
      List.sum_append]
    simp [list_range_sum, List.map_map, Function.comp_def]

/-! ### C11 -/

/-- Centre of grid cell `j` of an aperture of width `a` sampled with step `d`. -/
noncomputable def cell (a d : ℝ) (j : ℕ) : ℝ := -a / 2 + d / 2 + (j : ℝ) * d

/-- Distance from the centre of cell `(j, q)` to the observation point. -/
noncomputable def cellDist (xo yo zo a b dx dy : ℝ) (j q : ℕ) : ℝ :=
  Real.sqrt ((xo - cell a dx j) ^ 2 + (yo - cell b dy q) ^ 2 + zo ^ 2)

/-- Sample at which a contribution from distance `r` (mm) arrives: sound speed `cp` (m/s),
delay and sampling interval in microseconds. -/
noncomputable def arrivalSample (r cp delay dt : ℝ) : ℤ := rintR ((r * 1000 / cp - delay) / dt)

theorem rect_points (p : Par ℝ) (w xo yo zo a b : ℝ) (hdx : 0 < p.dx) (hdy : 0 < p.dy)
    (fuel : ℕ) (hf : ⌊a / p.dx + 1 / 2⌋₊ < fuel ∧ ⌊b / p.dy + 1 / 2⌋₊ < fuel) :
    (Kern.rect w a b).points p xo yo zo fuel =
      some ((List.range ⌊b / p.dy + 1 / 2⌋₊).flatMap fun q =>
        (List.range ⌊a / p.dx + 1 / 2⌋₊).map fun j =>
          { r := cellDist xo yo zo a b p.dx p.dy j q
            ai := w * p.v * (p.dx * p.dy) /
              (2 * Real.pi * cellDist xo yo zo a b p.dx p.dy j q) / p.dt * 1000
            arg := (cellDist xo yo zo a b p.dx p.dy j q * 1000 / p.cp - p.delay) / p.dt }) := by
  have e1 : passes p.dy (b / 2) (-b / 2 + p.dy / 2) = ⌊b / p.dy + 1 / 2⌋₊ := passes_aperture hdy
  have e2 : passes p.dx (a / 2) (-a / 2 + p.dx / 2) = ⌊a / p.dx + 1 / 2⌋₊ := passes_aperture hdx
  have h := Sweep.points_real (rectSweep p w xo yo zo a b) hdx hdy fuel
    (by simp only [rectSweep, r_div, r_neg, r_add, r_lit]; push_cast; rw [e1]; exact hf.2)
    (by intro q _; simp only [rectSweep, r_div, r_neg, r_add, r_lit]; push_cast
        rw [e2]; exact hf.1)
  simp only [Kern.points]
  rw [h]
  simp only [rectSweep, r_div, r_neg, r_add, r_lit, r_mul, r_sub]
  push_cast
  rw [e1, e2]
  simp only [dist3, amp, arrival, cellDist, cell, r_div, r_add, r_lit, r_mul, r_sub, r_sqrt, r_pi]
  push_cast
  simp only [pow_two]

/-- C11: the rectangular response in exact arithmetic.  `m` is the output before the call,
`base` the start of the column; the conversions of the arrival indices are assumed defined
(`hfit`), and under error level stop all indices in range. -/
theorem C11_rayleigh_sum (nt : ℕ) (ty : IdxTy) (level : ErrorLevel) (p : Par ℝ)
    (w xo yo zo a b : ℝ) (hdx : 0 < p.dx) (hdy : 0 < p.dy) (base : ℕ) (m : Buf ℝ)
    (hb : base + nt ≤ m.size)
    (hfit : ∀ j < ⌊a / p.dx + 1 / 2⌋₊, ∀ q < ⌊b / p.dy + 1 / 2⌋₊,
      ty.fits (arrivalSample (cellDist xo yo zo a b p.dx p.dy j q) p.cp p.delay p.dt) = true)
    (hl : (level = .ignore ∨ level = .warn ∨ level = .none) ∨
      ∀ j < ⌊a / p.dx + 1 / 2⌋₊, ∀ q < ⌊b / p.dy + 1 / 2⌋₊,
        0 ≤ arrivalSample (cellDist xo yo zo a b p.dx p.dy j q) p.cp p.delay p.dt ∧
        arrivalSample (cellDist xo yo zo a b p.dx p.dy j q) p.cp p.delay p.dt < nt)
    (fuel : ℕ) (hf : ⌊a / p.dx + 1 / 2⌋₊ < fuel ∧ ⌊b / p.dy + 1 / 2⌋₊ < fuel) :
    ∃ m' e, dreamrectSerial nt ty level none p w xo yo zo a b fuel base m = .ok (m', e) ∧
      ∀ i, i < nt → m'.data (base + i) = m.data (base + i) +
        ∑ q ∈ range ⌊b / p.dy + 1 / 2⌋₊, ∑ j ∈ range ⌊a / p.dx + 1 / 2⌋₊,
          if arrivalSample (cellDist xo yo zo a b p.dx p.dy j q) p.cp p.delay p.dt = (i : ℤ) then
            w * p.v * (p.dx * p.dy) / (2 * Real.pi * cellDist xo yo zo a b p.dx p.dy j q)
              / p.dt * 1000
          else 0 := by
  have hps := rect_points p w xo yo zo a b hdx hdy fuel hf
  obtain ⟨m', e, h1, h2⟩ := kern_samples (Kern.rect w a b) nt ty level p xo yo zo fuel base m hb
    _ hps
    (by
      intro pt hpt
      simp only [List.mem_flatMap, List.mem_map, List.mem_range] at hpt
      obtain ⟨q, hq, j, hj, rfl⟩ := hpt
      exact ⟨_, rfl, hfit j hj q hq⟩)
    (by
      rcases hl with h | h
      · exact Or.inl h
      · right
        rw [List.all_eq_true]
        intro pt hpt
        simp only [List.mem_flatMap, List.mem_map, List.mem_range] at hpt
        obtain ⟨q, hq, j, hj, rfl⟩ := hpt
        simp only [Pt.inRange, decide_eq_true_eq]
        exact h j hj q hq)
  refine ⟨m', e, h1, fun i hi => ?_⟩
  rw [h2 i hi, flatMap_sum]
  rfl

-- a 3x2 grid, all arrival samples defined (4 mm away, sampling interval large)
example : ∃ p : Par ℝ, 0 < p.dx ∧ 0 < p.dy ∧ ⌊(3 : ℝ) / p.dx + 1 / 2⌋₊ = 3 ∧
    ⌊(2 : ℝ) / p.dy + 1 / 2⌋₊ = 2 ∧
    ∀ j < 3, ∀ q < 2, IdxTy.signed.fits
      (arrivalSample (cellDist 0 0 4 3 2 p.dx p.dy j q) p.cp p.delay p.dt) = true := by
  refine ⟨{ dx := 1, dy := 1, dt := 1, delay := 0, v := 1, cp := 1000 }, by norm_num, by norm_num,
    ?_, ?_, ?_⟩
  · rw [Nat.floor_eq_iff (by norm_num)]; norm_num
  · rw [Nat.floor_eq_iff (by norm_num)]; norm_num
  · intro j hj q hq
    have h0 : 0 ≤ cellDist 0 0 4 3 2 1 1 j q := Real.sqrt_nonneg _
    have h1 : cellDist 0 0 4 3 2 1 1 j q ≤ 10 := by
      unfold cellDist cell
      rw [Real.sqrt_le_left (by norm_num)]
      have h2 : (0 : ℝ) ≤ j := by positivity
      have h3 : (j : ℝ) ≤ 2 := by exact_mod_cast Nat.lt_succ_iff.mp hj
      have h4 : (0 : ℝ) ≤ q := by positivity
      have h5 : (q : ℝ) ≤ 1 := by exact_mod_cast Nat.lt_succ_iff.mp hq
      nlinarith
    have h2 := rintR_near ((cellDist 0 0 4 3 2 1 1 j q * 1000 / 1000 - 0) / 1)
    simp only [arrivalSample]
    generalize hz : rintR ((cellDist 0 0 4 3 2 1 1 j q * 1000 / 1000 - 0) / 1) = z at h2 ⊢
    rw [abs_le] at h2
    have hz1 : (-1 : ℝ) ≤ z := by linarith
    have hz2 : (z : ℝ) ≤ 11 := by linarith
    have hz1' : (-1 : ℤ) ≤ z := by exact_mod_cast hz1
    have hz2' : z ≤ 11 := by exact_mod_cast hz2
    simp only [IdxTy.fits, decide_eq_true_eq]
    constructor <;> norm_num <;> omega

/-! ### C12 -/

/-- C12: for positive steps the sampling loops of the rectangular kernel end, after visiting
exactly `floor(a/dx+1/2) * floor(b/dy+1/2)` points. -/
theorem C12_rect_terminates (p : Par ℝ) (w xo yo zo a b : ℝ) (hdx : 0 < p.dx) (hdy : 0 < p.dy) :
    ∃ fuel₀, ∀ fuel, fuel₀ ≤ fuel → ∃ ps, (Kern.rect w a b).points p xo yo zo fuel = some ps ∧
      ps.length = ⌊a / p.dx + 1 / 2⌋₊ * ⌊b / p.dy + 1 / 2⌋₊ := by
  refine ⟨⌊a / p.dx + 1 / 2⌋₊ + ⌊b / p.dy + 1 / 2⌋₊ + 1, fun fuel hf => ?_⟩
  refine ⟨_, rect_points p w xo yo zo a b hdx hdy fuel ⟨by omega, by omega⟩, ?_⟩
  rw [List.length_flatMap]
  simp [mul_comm]

/-- C12: the loops of every kernel end when `dx` and `dy` (for the cylindrical kernel: the
angular step) are positive. -/
theorem C12_all_terminate (k : Kern ℝ) (p : Par ℝ) (xo yo zo : ℝ) (hdx : 0 < p.dx)
    (hdy : 0 < p.dy) (hcyl : ∀ w a b Rc, k = .cylind w a b Rc → 0 < Real.arcsin (p.dy / |Rc|)) :
    ∃ fuel₀, ∀ fuel, fuel₀ ≤ fuel → ∃ ps, k.points p xo yo zo fuel = some ps := by
  have key : ∀ g : Sweep ℝ, 0 < g.dx → 0 < g.dy → ∃ fuel₀, ∀ fuel, fuel₀ ≤ fuel →
      ∃ ps, g.points fuel = some ps := by
    intro g h1 h2
    refine ⟨passes g.dy g.ymax g.y0 + 1 + ∑ q ∈ range (passes g.dy g.ymax g.y0),
      passes g.dx (g.row (g.y0 + (q : ℝ) * g.dy)).xmax (g.row (g.y0 + (q : ℝ) * g.dy)).x0,
      fun fuel hf => ⟨_, Sweep.points_real g h1 h2 fuel (by omega) ?_⟩⟩
    intro q hq
    have := Finset.single_le_sum (f := fun q : ℕ =>
      passes g.dx (g.row (g.y0 + (q : ℝ) * g.dy)).xmax (g.row (g.y0 + (q : ℝ) * g.dy)).x0)
      (fun _ _ => Nat.zero_le _) (Finset.mem_range.mpr hq)
    omega
  cases k with
  | rect w a b => exact key _ hdx hdy
  | circ w R => exact key _ hdx hdy
  | cylind w a b Rc => exact key (cylindSweep p w xo yo zo a b Rc) hdx (hcyl w a b Rc rfl)
  | line a =>
    refine ⟨passes p.dx (lineRow p xo yo zo a).xmax (lineRow p xo yo zo a).x0 + 1,
      fun fuel hf => ⟨_, Row.points_real (lineRow p xo yo zo a) hdx fuel (by omega)⟩⟩
  | rectF met f a b => exact key _ hdx hdy
  | circF met f R => exact key _ hdx hdy
  | sphere R Rc => exact key _ hdx hdy

/-- The inner loop of a kernel never ends when the step is zero and each pass continues. -/
theorem innerLoop_forever {M : Type} (c : Ctx ℝ M) (pt : ℝ → Pt ℝ) (xmax x : ℝ)
    (hx : x ≤ xmax) (I : M × SIRError → Prop)
    (hstep : ∀ s, I s → ∃ s', deposit c (pt x) s = .ok (.next s') ∧ I s') (fuel : ℕ)
    (s : M × SIRError) (hs : I s) : innerLoop c pt 0 xmax fuel x s = .fuel := by
  induction fuel generalizing s with
  | zero => rfl
  | succ n ih =>
    unfold innerLoop
    rw [if_pos (by simpa using hx)]
    obtain ⟨s', h1, h2⟩ := hstep s hs
    rw [h1]
    have : (x +. 0 : ℝ) = x := by simp
    simp only [Outcome.bind, this]
    exact ih s' h2

/-- C12: with `dx = 0` and a non-negative aperture whose first row is inside, the rectangular
kernel does not return with error level ignore or warn, however long it runs. -/
theorem C12_zero_step_hangs (nt : ℕ) (ty : IdxTy) (level : ErrorLevel)
    (att : Option (AttResp ℝ)) (p : Par ℝ) (w xo yo zo a b : ℝ) (hdx : p.dx = 0) (ha : 0 ≤ a)
    (hrow : p.dy ≤ 2 * b) (hl : level = .ignore ∨ level = .warn)
    (hfit : ty.fits (arrivalSample
      (Real.sqrt ((xo + a / 2) ^ 2 + (yo - (-b / 2 + p.dy / 2)) ^ 2 + zo ^ 2))
      p.cp p.delay p.dt) = true)
    (fuel base : ℕ) (m : Buf ℝ) (hb : base + nt ≤ m.size) :
    dreamrectSerial nt ty level att p w xo yo zo a b fuel base m = .fuel := by
  have hser : dreamrectSerial nt ty level att p w xo yo zo a b fuel base m =
      (Kern.rect w a b).serial nt ty level att p xo yo zo fuel base m := rfl
  rw [hser, Kern.serial_eq _ _ _ _ _ _ _ _ _ _ _ _ hb]
  have hl' : oobErr level ≠ .outOfBounds := by
    rcases hl with h | h <;> rw [h] <;> simp [oobErr]
  have h0 : (Kern.rect w a b).onCol nt ty level att p xo yo zo fuel (m.getCol base nt) = .fuel := by
    show runSweep _ (rectSweep p w xo yo zo a b) fuel _ = _
    unfold runSweep
    cases fuel with
    | zero => rfl
    | succ n =>
      unfold outerLoop
      have hy : le (rectSweep p w xo yo zo a b).y0 (rectSweep p w xo yo zo a b).ymax = true := by
        simp only [rectSweep, r_le, r_div, r_neg, r_add, r_lit]; push_cast; linarith
      rw [if_pos hy]
      have hxz : (rectSweep p w xo yo zo a b).dx = 0 := hdx
      rw [hxz]
      rw [innerLoop_forever _ _ _ _ ?_ (fun _ => True) ?_ _ _ trivial]
      · rfl
      · simp only [rectSweep, r_div, r_neg, r_add, r_lit, hdx]; push_cast; linarith
      · intro s _
        have hc : (((rectSweep p w xo yo zo a b).row (rectSweep p w xo yo zo a b).y0).pt
            ((rectSweep p w xo yo zo a b).row (rectSweep p w xo yo zo a b).y0).x0).castOk ty := by
          refine ⟨_, rfl, ?_⟩
          have e : ((((rectSweep p w xo yo zo a b).row (rectSweep p w xo yo zo a b).y0).pt
            ((rectSweep p w xo yo zo a b).row (rectSweep p w xo yo zo a b).y0).x0)).arg =
              (Real.sqrt ((xo + a / 2) ^ 2 + (yo - (-b / 2 + p.dy / 2)) ^ 2 + zo ^ 2) * 1000
                / p.cp - p.delay) / p.dt := by
            simp only [rectSweep, arrival, dist3, r_div, r_neg, r_add, r_lit, r_sub, r_mul,
              r_sqrt, hdx]
            push_cast
            congr 5
            ring_nf
          rw [e]
          exact hfit
        obtain ⟨c, e⟩ := s
        rw [deposit_col nt ty level att _ hc c e]
        split
        all_goals exact ⟨_, rfl, trivial⟩
  rw [h0]; rfl

-- the hypotheses of `C12_zero_step_hangs` are met, e.g. at the origin
example : (0 : ℝ) ≤ 1 ∧ (1 : ℝ) ≤ 2 * 1 ∧ IdxTy.signed.fits (arrivalSample
      (Real.sqrt ((-1 / 2 + 1 / 2) ^ 2 + (0 - (-1 / 2 + 1 / 2)) ^ 2 + 0 ^ 2)) 1 0 1) = true := by
  refine ⟨by norm_num, by norm_num, ?_⟩
  have : (Real.sqrt ((-1 / 2 + 1 / 2) ^ 2 + (0 - (-1 / 2 + 1 / 2)) ^ 2 + 0 ^ 2) * 1000 / 1 - 0) / 1
      = ((0 : ℤ) : ℝ) := by norm_num
  unfold arrivalSample
  rw [this, rintR_intCast]
  decide

/-! ### C13 -/

/-- Sign laws of an arithmetic: `nn` is closed under the operations the amplitudes are made of.
They hold for the reals with `nn x := 0 ≤ x`, and for IEEE arithmetic with
`nn x := x is NaN or its sign bit is clear` in every rounding mode. -/
structure SignLaws (F : Type) [Arith F] (nn : F → Prop) : Prop where
  lit : ∀ q : Rat, 0 ≤ q → nn (lit q)
  pi : nn pi
  add : ∀ a b, nn a → nn b → nn (a +. b)
  mul : ∀ a b, nn a → nn b → nn (a *. b)
  div : ∀ a b, nn a → nn b → nn (a /. b)
  sq : ∀ a, nn (a *. a)
  sqrt : ∀ a, nn a → nn (sqrt a)
  abs : ∀ a, nn (abs a)
  asin : ∀ a, nn a → nn (asin a)

theorem realSignLaws : SignLaws ℝ (fun x => 0 ≤ x) where
  lit q h := by simpa using h
  pi := Real.pi_pos.le
  add a b := add_nonneg
  mul a b := mul_nonneg
  div a b := div_nonneg
  sq a := mul_self_nonneg a
  sqrt a _ := Real.sqrt_nonneg a
  abs a := abs_nonneg a
  asin a h := Real.arcsin_nonneg.mpr h

section Sign
variable {F : Type} [Arith F] {nn : F → Prop}

theorem dist3_nn (L : SignLaws F nn) (x y z : F) : nn (dist3 x y z) :=
  L.sqrt _ (L.add _ _ (L.add _ _ (L.sq _) (L.sq _)) (L.sq _))

theorem amp_nn (L : SignLaws F nn) {w ds r dt : F} (hw : nn w) (hds : nn ds) (hr : nn r)
    (hdt : nn dt) : nn (amp w ds r dt) :=
  L.mul _ _ (L.div _ _ (L.div _ _ (L.mul _ _ hw hds)
    (L.mul _ _ (L.mul _ _ (L.lit 2 (by decide)) L.pi) hr)) hdt) (L.lit 1000 (by decide))

/-- The amplitudes of a kernel are non-negative. -/
def Kern.ampsNN (nn : F → Prop) (k : Kern F) (p : Par F) (xo yo zo : F) : Prop :=
  ∀ ys xs, nn (((k.geo p xo yo zo).row ys).pt xs).ai

theorem kern_amps (L : SignLaws F nn) (k : Kern F) (p : Par F) (xo yo zo : F)
    (hdx : nn p.dx) (hdy : nn p.dy) (hdt : nn p.dt) (hv : nn p.v)
    (hw : ∀ w, (∃ a b, k = .rect w a b) ∨ (∃ R, k = .circ w R) ∨ (∃ a b R, k = .cylind w a b R) →
      nn w) : k.ampsNN nn p xo yo zo := by
  intro ys xs
  cases k with
  | rect w a b =>
    exact amp_nn L (L.mul _ _ (hw w (Or.inl ⟨a, b, rfl⟩)) hv) (L.mul _ _ hdx hdy)
      (dist3_nn L _ _ _) hdt
  | circ w R =>
    exact amp_nn L (L.mul _ _ (hw w (Or.inr (Or.inl ⟨R, rfl⟩))) hv) (L.mul _ _ hdx hdy)
      (dist3_nn L _ _ _) hdt
  | cylind w a b R =>
    have h1 := hw w (Or.inr (Or.inr ⟨a, b, R, rfl⟩))
    have hr : nn (if le (lit 0) R then cylindF xs (abs R *. sin ys) R xo yo zo
            else cylindD xs (abs R *. sin ys) (abs R) xo yo zo) := by
      split
      · exact dist3_nn L _ _ _
      · exact dist3_nn L _ _ _
    exact L.mul _ _ (L.div _ _ (L.div _ _ (L.mul _ _ (L.mul _ _ (L.mul _ _ h1 hv)
      (L.mul _ _ (L.mul _ _ (L.abs _) hdx) (L.asin _ (L.div _ _ hdy (L.abs _)))))
      (L.lit 1 (by decide)))
      (L.mul _ _ (L.mul _ _ (L.lit 2 (by decide)) L.pi) hr)) hdt) (L.lit 1000 (by decide))
  | line a => exact amp_nn L hv (L.mul _ _ hdx hdy) (dist3_nn L _ _ _) hdt
  | rectF met f a b => exact amp_nn L hv (L.mul _ _ hdx hdy) (dist3_nn L _ _ _) hdt
  | circF met f R => exact amp_nn L hv (L.mul _ _ hdx hdy) (dist3_nn L _ _ _) hdt
  | sphere R Rc =>
    have hr : nn (if le (lit 0) Rc then sphereF xs ys Rc xo yo zo
            else sphereD xs ys (neg Rc) xo yo zo) := by
      split
      · exact dist3_nn L _ _ _
      · exact dist3_nn L _ _ _
    exact amp_nn L hv (L.mul _ _ hdx hdy) hr hdt

theorem deposit_nn (L : SignLaws F nn) (nt : ℕ) (ty : IdxTy) (level : ErrorLevel) (q : Pt F)
    (hq : nn q.ai) (s : (Nat → F) × SIRError) (hs : ∀ i, nn (s.1 i))
    (r : Ctl ((Nat → F) × SIRError)) (h : deposit (colCtx nt ty level none) q s = .ok r) :
    ∀ i, nn (r.val.1 i) := by
  unfold deposit at h
  cases hc : castIdx (colCtx nt ty level none : Ctx F (Nat → F)).ty (rint q.arg) with
  | ub e => rw [hc] at h; simp at h
  | fuel => rw [hc] at h; simp at h
  | ok it =>
    rw [hc] at h
    simp only [Outcome.bind] at h
    split at h
    · simp only [colCtx, Outcome.ok.injEq] at h
      subst h
      intro i
      simp only [Ctl.val, colAdd]
      split
      · exact L.add _ _ (hs i) hq
      · exact hs i
    · split at h <;> (simp only [Outcome.ok.injEq] at h; subst h; exact hs)

theorem inner_nn (L : SignLaws F nn) (nt : ℕ) (ty : IdxTy) (level : ErrorLevel) (pt : F → Pt F)
    (hpt : ∀ x, nn (pt x).ai) (dx xmax : F) (n : ℕ) (x : F) (s : (Nat → F) × SIRError)
    (hs : ∀ i, nn (s.1 i)) (r : Ctl ((Nat → F) × SIRError))
    (h : innerLoop (colCtx nt ty level none) pt dx xmax n x s = .ok r) : ∀ i, nn (r.val.1 i) := by
  induction n generalizing x s with
  | zero => simp [innerLoop] at h
  | succ n ih =>
    unfold innerLoop at h
    split at h
    · cases hd : deposit (colCtx nt ty level none) (pt x) s with
      | ok q =>
        rw [hd] at h
        have := deposit_nn L nt ty level _ (hpt x) s hs q hd
        cases q with
        | next s' => exact ih _ _ this h
        | ret s' => simp only [Outcome.bind, Outcome.ok.injEq] at h; subst h; exact this
      | ub e => rw [hd] at h; simp at h
      | fuel => rw [hd] at h; simp at h
    · simp only [Outcome.ok.injEq] at h; subst h; exact hs

theorem outer_nn (L : SignLaws F nn) (nt : ℕ) (ty : IdxTy) (level : ErrorLevel)
    (row : F → Row F) (hpt : ∀ y x, nn ((row y).pt x).ai) (dx dy ymax : F) (fuel n : ℕ) (y : F)
    (s : (Nat → F) × SIRError) (hs : ∀ i, nn (s.1 i)) (r : Ctl ((Nat → F) × SIRError))
    (h : outerLoop (colCtx nt ty level none) row dx dy ymax fuel n y s = .ok r) :
    ∀ i, nn (r.val.1 i) := by
  induction n generalizing y s with
  | zero => simp [outerLoop] at h
  | succ n ih =>
    unfold outerLoop at h
    split at h
    · cases hd : innerLoop (colCtx nt ty level none) (row y).pt dx (row y).xmax fuel
          (row y).x0 s with
      | ok q =>
        rw [hd] at h
        have := inner_nn L nt ty level _ (hpt y) _ _ _ _ s hs q hd
        cases q with
        | next s' => exact ih _ _ this h
        | ret s' => simp only [Outcome.bind, Outcome.ok.injEq] at h; subst h; exact this
      | ub e => rw [hd] at h; simp at h
      | fuel => rw [hd] at h; simp at h
    · simp only [Outcome.ok.injEq] at h; subst h; exact hs

/-- C13, sign: for every arithmetic with the sign laws, if `v`, the weight, `dx`, `dy`, `dt` and
the samples of the column are non-negative, then so are the samples when the (lossless) kernel
returns, with any error level and any geometry. -/
theorem C13_nonneg (L : SignLaws F nn) (k : Kern F) (nt : ℕ) (ty : IdxTy) (level : ErrorLevel)
    (p : Par F) (xo yo zo : F) (hdx : nn p.dx) (hdy : nn p.dy) (hdt : nn p.dt) (hv : nn p.v)
    (hw : ∀ w, (∃ a b, k = .rect w a b) ∨ (∃ R, k = .circ w R) ∨ (∃ a b R, k = .cylind w a b R) →
      nn w)
    (fuel base : ℕ) (m : Buf F) (hb : base + nt ≤ m.size)
    (hm : ∀ i, i < nt → nn (m.data (base + i))) (m' : Buf F) (e : SIRError)
    (h : k.serial nt ty level none p xo yo zo fuel base m = .ok (m', e)) :
    ∀ i, i < nt → nn (m'.data (base + i)) := by
  rw [Kern.serial_eq _ _ _ _ _ _ _ _ _ _ _ _ hb, Outcome.map_eq_ok] at h
  obtain ⟨q, hq, hr⟩ := h
  simp only [liftS, Prod.mk.injEq] at hr
  have hcol : ∀ i, nn (m.getCol base nt i) := by
    intro i
    simp only [Buf.getCol]
    split
    · next hi => exact hm i hi
    · exact L.lit 0 (by decide)
  have hz : ∀ i, nn (if i < nt then lit 0 else m.getCol base nt i) := by
    intro i
    split
    · exact L.lit 0 (by decide)
    · exact hcol i
  have ha := kern_amps L k p xo yo zo hdx hdy hdt hv hw
  have key : ∀ i, nn (q.1 i) := by
    cases k <;> simp only [Kern.onCol, runSweep, runRow] at hq <;>
      obtain ⟨c, hc, hcr⟩ := finish_ok hq <;> rw [← hcr]
    · exact outer_nn L nt ty level _ ha _ _ _ _ _ _ _ hcol _ hc
    · exact outer_nn L nt ty level _ ha _ _ _ _ _ _ _ hcol _ hc
    · exact outer_nn L nt ty level _ ha _ _ _ _ _ _ _ hcol _ hc
    · exact inner_nn L nt ty level _ (ha p.dx) _ _ _ _ _ hz _ hc
    · exact outer_nn L nt ty level _ ha _ _ _ _ _ _ _ hz _ hc
    · exact outer_nn L nt ty level _ ha _ _ _ _ _ _ _ hz _ hc
    · exact outer_nn L nt ty level _ ha _ _ _ _ _ _ _ hz _ hc
  intro i hi
  rw [← hr.1, Buf.setCol_data_in _ _ _ _ _ hi]
  exact key i

end Sign

/-- A surface point with its amplitude multiplied by `c`. -/
def Pt.scale (c : ℝ) (q : Pt ℝ) : Pt ℝ := { q with ai := c * q.ai }

/-- The same sweep with amplitudes scaled. -/
def Sweep.scale (c : ℝ) (g : Sweep ℝ) : Sweep ℝ :=
  { g with row := fun y => { g.row y with pt := fun x => ((g.row y).pt x).scale c } }

theorem Row.points_scale (c : ℝ) (row : Row ℝ) (dx : ℝ) (fuel : ℕ) :
    Row.points { row with pt := fun x => (row.pt x).scale c } dx fuel =
      (row.points dx fuel).map (List.map (Pt.scale c)) := by
  simp only [Row.points, Option.map_map]
  congr 1
  funext l
  simp [List.map_map, Function.comp_def]

theorem Sweep.points_scale (c : ℝ) (g : Sweep ℝ) (fuel : ℕ) :
    (g.scale c).points fuel = (g.points fuel).map (List.map (Pt.scale c)) := by
  have key : ∀ ys, rowsPoints (g.scale c).row g.dx fuel ys =
      (rowsPoints g.row g.dx fuel ys).map (List.map (Pt.scale c)) := by
    intro ys
    induction ys with
    | nil => rfl
    | cons y ys ih =>
      simp only [rowsPoints]
      rw [ih]
      have : ((g.scale c).row y).points g.dx fuel =
          ((g.row y).points g.dx fuel).map (List.map (Pt.scale c)) :=
        Row.points_scale c (g.row y) g.dx fuel
      rw [this]
      cases (g.row y).points g.dx fuel <;> cases rowsPoints g.row g.dx fuel ys <;> simp
  simp only [Sweep.points]
  show (visits g.dy g.ymax fuel g.y0).bind (rowsPoints (g.scale c).row g.dx fuel) = _
  cases visits g.dy g.ymax fuel g.y0 with
  | none => rfl
  | some ys => exact key ys

theorem amp_scale (c w ds r dt : ℝ) : amp (c * w) ds r dt = c * amp w ds r dt := by
  simp only [amp, r_mul, r_div]; ring

/-- Scaling the velocity scales the amplitudes and changes nothing else. -/
theorem Kern.points_scale (c : ℝ) (k : Kern ℝ) (p : Par ℝ) (xo yo zo : ℝ) (fuel : ℕ) :
    k.points { p with v := c * p.v } xo yo zo fuel =
      (k.points p xo yo zo fuel).map (List.map (Pt.scale c)) := by
  cases k with
  | rect w a b =>
    simp only [Kern.points]
    rw [← Sweep.points_scale]
    congr 1
    simp only [rectSweep, Sweep.scale, Pt.scale, r_mul]
    congr; funext ys; congr; funext xs; congr
    rw [← amp_scale]; congr 1; ring
  | circ w R =>
    simp only [Kern.points]
    rw [← Sweep.points_scale]
    congr 1
    simp only [circSweep, Sweep.scale, Pt.scale, r_mul]
    congr; funext ys; congr; funext xs; congr
    rw [← amp_scale]; congr 1; ring
  | cylind w a b Rc =>
    simp only [Kern.points]
    rw [← Sweep.points_scale]
    congr 1
    simp only [cylindSweep, Sweep.scale, Pt.scale, r_mul, r_div]
    congr; funext ys; congr; funext xs; congr 1
    ring
  | line a =>
    simp only [Kern.points]
    rw [← Row.points_scale]
    congr 1
    simp only [lineRow, Pt.scale]
    congr; funext xs; congr
    rw [← amp_scale]
  | rectF met f a b =>
    simp only [Kern.points]
    rw [← Sweep.points_scale]
    congr 1
    simp only [rectFSweep, Sweep.scale, Pt.scale]
    congr; funext ys; congr; funext xs; congr
    rw [← amp_scale]
  | circF met f R =>
    simp only [Kern.points]
    rw [← Sweep.points_scale]
    congr 1
    simp only [circFSweep, Sweep.scale, Pt.scale]
    congr; funext ys; congr; funext xs; congr
    rw [← amp_scale]
  | sphere R Rc =>
    simp only [Kern.points]
    rw [← Sweep.points_scale]
    congr 1
    simp only [sphereSweep, Sweep.scale, Pt.scale]
    congr; funext ys; congr; funext xs; congr
    rw [← amp_scale]

/-- C13, linearity: multiplying the normal velocity by `c` multiplies what each lossless kernel
adds to every sample by `c` (exact arithmetic; error level ignore or warn). -/
theorem C13_linear_in_v (k : Kern ℝ) (nt : ℕ) (ty : IdxTy) (level : ErrorLevel) (p : Par ℝ)
    (xo yo zo c : ℝ) (fuel base : ℕ) (m : Buf ℝ) (hb : base + nt ≤ m.size) (ps : List (Pt ℝ))
    (hps : k.points p xo yo zo fuel = some ps) (hcast : ∀ q ∈ ps, q.castOk ty)
    (hl : level = .ignore ∨ level = .warn) :
    ∃ m₁ e₁ m₂ e₂, k.serial nt ty level none p xo yo zo fuel base m = .ok (m₁, e₁) ∧
      k.serial nt ty level none { p with v := c * p.v } xo yo zo fuel base m = .ok (m₂, e₂) ∧
      e₁ = e₂ ∧
      ∀ i, i < nt → m₂.data (base + i) - k.initial base m i =
        c * (m₁.data (base + i) - k.initial base m i) := by
  have hps2 : k.points { p with v := c * p.v } xo yo zo fuel = some (ps.map (Pt.scale c)) := by
    rw [Kern.points_scale, hps]; rfl
  have hl3 : level = .ignore ∨ level = .warn ∨ level = .none := by tauto
  have hc2 : ∀ q ∈ ps.map (Pt.scale c), q.castOk ty := by
    intro q hq
    rw [List.mem_map] at hq
    obtain ⟨q', hq', rfl⟩ := hq
    exact hcast q' hq'
  obtain ⟨m₁, h1, h2⟩ := C10_ignore_warn k nt ty level none p xo yo zo fuel base m hb ps hps
    hcast hl3
  obtain ⟨m₂, h3, h4⟩ := C10_ignore_warn k nt ty level none { p with v := c * p.v } xo yo zo fuel
    base m hb _ hps2 hc2 hl3
  refine ⟨m₁, _, m₂, _, h1, h3, ?_, ?_⟩
  · rw [List.all_map]; rfl
  · intro i hi
    rw [h2 i hi, h4 i hi, foldl_contribution, foldl_contribution, sum_filter_inRange nt i hi,
      sum_filter_inRange nt i hi]
    have : ∀ l : List (Pt ℝ), ((l.map (Pt.scale c)).map
        fun q => if q.idx = (i : ℤ) then q.ai else 0).sum =
        c * (l.map fun q => if q.idx = (i : ℤ) then q.ai else 0).sum := by
      intro l
      induction l with
      | nil => simp
      | cons q l ih =>
        simp only [List.map_cons, List.sum_cons] at ih ⊢
        rw [ih]
        have e : (Pt.scale c q).idx = q.idx := rfl
        have e2 : (Pt.scale c q).ai = c * q.ai := rfl
        rw [e, e2]
        split_ifs <;> ring
    rw [this]
    ring

/-! ### C14 -/

/-- A surface point that arrives `n` samples earlier. -/
def Pt.early (n : ℤ) (q : Pt ℝ) : Pt ℝ := { q with arg := q.arg - n }

theorem arrival_delay (r cp delay dt : ℝ) (n : ℤ) (hdt : dt ≠ 0) :
    arrival r cp (delay + n * dt) dt = arrival r cp delay dt - n := by
  simp only [arrival, r_mul, r_div, r_sub]
  field_simp; ring

theorem arrivalFoc_delay (r cp delay foc dt : ℝ) (n : ℤ) (hdt : dt ≠ 0) :
    arrivalFoc r cp (delay + n * dt) foc dt = arrivalFoc r cp delay foc dt - n := by
  simp only [arrivalFoc, r_mul, r_div, r_sub, r_add]
  field_simp; ring

/-- The same sweep arriving earlier. -/
def Sweep.mapPt (f : Pt ℝ → Pt ℝ) (g : Sweep ℝ) : Sweep ℝ :=
  { g with row := fun y => { g.row y with pt := fun x => f ((g.row y).pt x) } }

theorem Row.points_map (f : Pt ℝ → Pt ℝ) (row : Row ℝ) (dx : ℝ) (fuel : ℕ) :
    Row.points { row with pt := fun x => f (row.pt x) } dx fuel =
      (row.points dx fuel).map (List.map f) := by
  simp only [Row.points, Option.map_map]
  congr 1
  funext l
  simp [List.map_map, Function.comp_def]

theorem Sweep.points_map (f : Pt ℝ → Pt ℝ) (g : Sweep ℝ) (fuel : ℕ) :
    (g.mapPt f).points fuel = (g.points fuel).map (List.map f) := by
  have key : ∀ ys, rowsPoints (g.mapPt f).row g.dx fuel ys =
      (rowsPoints g.row g.dx fuel ys).map (List.map f) := by
    intro ys
    induction ys with
    | nil => rfl
    | cons y ys ih =>
      simp only [rowsPoints]
      rw [ih]
      have : ((g.mapPt f).row y).points g.dx fuel =
          ((g.row y).points g.dx fuel).map (List.map f) :=
        Row.points_map f (g.row y) g.dx fuel
      rw [this]
      cases (g.row y).points g.dx fuel <;> cases rowsPoints g.row g.dx fuel ys <;> simp
  simp only [Sweep.points]
  show (visits g.dy g.ymax fuel g.y0).bind (rowsPoints (g.mapPt f).row g.dx fuel) = _
  cases visits g.dy g.ymax fuel g.y0 with
  | none => rfl
  | some ys => exact key ys

/-- Increasing the delay by `n` samples moves every arrival argument down by `n`. -/
theorem Kern.points_early (n : ℤ) (k : Kern ℝ) (p : Par ℝ) (hdt : p.dt ≠ 0) (xo yo zo : ℝ)
    (fuel : ℕ) :
    k.points { p with delay := p.delay + n * p.dt } xo yo zo fuel =
      (k.points p xo yo zo fuel).map (List.map (Pt.early n)) := by
  cases k with
  | rect w a b =>
    simp only [Kern.points]
    rw [← Sweep.points_map]
    congr 1
    simp only [rectSweep, Sweep.mapPt, Pt.early, arrival_delay _ _ _ _ _ hdt]
  | circ w R =>
    simp only [Kern.points]
    rw [← Sweep.points_map]
    congr 1
    simp only [circSweep, Sweep.mapPt, Pt.early, arrival_delay _ _ _ _ _ hdt]
  | cylind w a b Rc =>
    simp only [Kern.points]
    rw [← Sweep.points_map]
    congr 1
    simp only [cylindSweep, Sweep.mapPt, Pt.early, arrival_delay _ _ _ _ _ hdt]
  | line a =>
    simp only [Kern.points]
    rw [← Row.points_map]
    congr 1
    simp only [lineRow, Pt.early, arrival_delay _ _ _ _ _ hdt]
  | rectF met f a b =>
    simp only [Kern.points]
    rw [← Sweep.points_map]
    congr 1
    simp only [rectFSweep, Sweep.mapPt, Pt.early, arrivalFoc_delay _ _ _ _ _ _ hdt]
  | circF met f R =>
    simp only [Kern.points]
    rw [← Sweep.points_map]
    congr 1
    simp only [circFSweep, Sweep.mapPt, Pt.early, arrivalFoc_delay _ _ _ _ _ _ hdt]
  | sphere R Rc =>
    simp only [Kern.points]
    rw [← Sweep.points_map]
    congr 1
    simp only [sphereSweep, Sweep.mapPt, Pt.early, arrival_delay _ _ _ _ _ hdt]

/-- C14: in exact arithmetic, increasing the delay by an even number `n` of samples shifts what
each lossless kernel adds by `n` samples: sample `i` of the new response is sample `i+n` of the
old one (error level ignore or warn, zeroed column). -/
theorem C14_even_shift (k : Kern ℝ) (nt : ℕ) (ty : IdxTy) (level : ErrorLevel) (p : Par ℝ)
    (xo yo zo : ℝ) (n : ℤ) (hn : Even n) (hdt : p.dt ≠ 0) (fuel base : ℕ) (m : Buf ℝ)
    (hb : base + nt ≤ m.size) (hzero : ∀ i, i < nt → m.data (base + i) = 0) (ps : List (Pt ℝ))
    (hps : k.points p xo yo zo fuel = some ps) (hcast : ∀ q ∈ ps, q.castOk ty)
    (hcast' : ∀ q ∈ ps, (q.early n).castOk ty)
    (hl : level = .ignore ∨ level = .warn) :
    ∃ m₁ e₁ m₂ e₂, k.serial nt ty level none p xo yo zo fuel base m = .ok (m₁, e₁) ∧
      k.serial nt ty level none { p with delay := p.delay + n * p.dt } xo yo zo fuel base m =
        .ok (m₂, e₂) ∧
      ∀ i j : ℕ, i < nt → j < nt → (j : ℤ) = i + n →
        m₂.data (base + i) = m₁.data (base + j) := by
  have hps2 := Kern.points_early n k p hdt xo yo zo fuel
  rw [hps] at hps2
  simp only [Option.map_some] at hps2
  have hl3 : level = .ignore ∨ level = .warn ∨ level = .none := by tauto
  have hc2 : ∀ q ∈ ps.map (Pt.early n), q.castOk ty := by
    intro q hq
    rw [List.mem_map] at hq
    obtain ⟨q', hq', rfl⟩ := hq
    exact hcast' q' hq'
  obtain ⟨m₁, e₁, h1, h2⟩ := kern_samples k nt ty level p xo yo zo fuel base m hb ps hps
    hcast (Or.inl hl3)
  obtain ⟨m₂, e₂, h3, h4⟩ := kern_samples k nt ty level _ xo yo zo fuel
    base m hb _ hps2 hc2 (Or.inl hl3)
  refine ⟨m₁, e₁, m₂, e₂, h1, h3, ?_⟩
  intro i j hi hj hij
  have hinit : ∀ i, i < nt → k.initial base m i = 0 := by
    intro i hi
    simp only [Kern.initial]
    split
    · simp
    · exact hzero i hi
  rw [h4 i hi, h2 j hj, hinit i hi, hinit j hj, List.map_map]
  congr 2
  apply List.map_congr_left
  intro q _
  have e : (q.early n).idx = q.idx - n := by
    simp only [Pt.idx, Pt.early, r_rint, Option.getD_some]
    exact rintR_sub_even _ _ hn
  have e2 : (q.early n).ai = q.ai := rfl
  simp only [Function.comp_apply, e, e2]
  have : (q.idx - n = (i : ℤ)) ↔ (q.idx = (j : ℤ)) := by omega
  simp only [this]

theorem rintR_half : rintR (1 / 2) = 0 := by
  have h : ⌊(1 / 2 : ℝ)⌋ = 0 := by rw [Int.floor_eq_iff]; norm_num
  unfold rintR; rw [h]; norm_num

theorem rintR_three_halves : rintR (3 / 2) = 2 := by
  have h : ⌊(3 / 2 : ℝ)⌋ = 1 := by rw [Int.floor_eq_iff]; norm_num
  unfold rintR; rw [h]; norm_num

/-- The parameters of the counterexample: one grid cell, 1 mm away, two microseconds per
sample. -/
noncomputable def oddPar (delay : ℝ) : Par ℝ :=
  { dx := 1, dy := 1, dt := 2, delay := delay, v := 1, cp := 1000 }

theorem odd_floor : ⌊(1 : ℝ) / 1 + 1 / 2⌋₊ = 1 := by
  rw [Nat.floor_eq_iff (by norm_num)]; norm_num

theorem odd_dist : cellDist 0 0 1 1 1 1 1 0 0 = 1 := by
  norm_num [cellDist, cell]

theorem odd_sample (delay : ℝ) (z : ℤ) (hz : rintR ((1 - delay) / 2) = z) (hfit : 0 ≤ z ∧ z < 4) :
    ∃ m' e, dreamrectSerial 4 .signed .ignore none (oddPar delay) 1 0 0 1 1 1 2 0
        { size := 4, data := fun _ => 0 } = .ok (m', e) ∧
      ∀ i, i < 4 → m'.data i = if z = (i : ℤ) then 1 / (2 * Real.pi) / 2 * 1000 else 0 := by
  have ha : arrivalSample 1 1000 delay 2 = z := by
    rw [← hz]; unfold arrivalSample; norm_num
  obtain ⟨m', e, h1, h2⟩ := C11_rayleigh_sum 4 .signed .ignore (oddPar delay) 1 0 0 1 1 1
    (by simp [oddPar]) (by simp [oddPar]) 0 { size := 4, data := fun _ => 0 } (by simp)
    (by
      simp only [oddPar]
      rw [odd_floor]
      intro j hj q hq
      have e1 : j = 0 := by omega
      have e2 : q = 0 := by omega
      subst e1 e2
      rw [odd_dist, ha]
      simp only [IdxTy.fits, decide_eq_true_eq]
      constructor
      · have : (-(2 : ℤ) ^ 63) ≤ 0 := by norm_num
        omega
      · have : (4 : ℤ) ≤ 2 ^ 63 := by norm_num
        omega)
    (Or.inl (Or.inl rfl)) 2 (by simp only [oddPar]; rw [odd_floor]; omega)
  refine ⟨m', e, h1, fun i hi => ?_⟩
  have := h2 i hi
  simp only [oddPar] at this
  rw [odd_floor] at this
  simp only [zero_add, sum_range_one, odd_dist, ha] at this
  rw [this]
  norm_num

/-- C14: for an odd number of samples the shift property can fail.  A single grid cell whose
arrival time is half a sample: with delay 0 it arrives at sample 0; with a delay one sample
smaller it arrives at sample 2, not 1. -/
theorem C14_odd_shift_fails :
    ∃ m₁ e₁ m₂ e₂,
      dreamrectSerial 4 .signed .ignore none (oddPar 0) 1 0 0 1 1 1 2 0
        { size := 4, data := fun _ => 0 } = .ok (m₁, e₁) ∧
      dreamrectSerial 4 .signed .ignore none (oddPar (0 - 1 * 2)) 1 0 0 1 1 1 2 0
        { size := 4, data := fun _ => 0 } = .ok (m₂, e₂) ∧
      m₁.data 0 ≠ 0 ∧ m₂.data 1 = 0 ∧ m₂.data 2 = m₁.data 0 := by
  obtain ⟨m₁, e₁, h1, h2⟩ := odd_sample 0 0 (by norm_num [rintR_half]) (by norm_num)
  obtain ⟨m₂, e₂, h3, h4⟩ := odd_sample (0 - 1 * 2) 2 (by norm_num [rintR_three_halves])
    (by norm_num)
  refine ⟨m₁, e₁, m₂, e₂, h1, h3, ?_, ?_, ?_⟩
  · rw [h2 0 (by norm_num)]
    have := Real.pi_pos
    simp only [Nat.cast_zero, if_true]
    positivity
  · rw [h4 1 (by norm_num)]; norm_num
  · rw [h4 2 (by norm_num), h2 0 (by norm_num)]; norm_num

end Dream
