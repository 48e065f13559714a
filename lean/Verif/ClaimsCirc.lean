import Verif.Analytic
import Verif.Circle
import Verif.RealArith
import Verif.Toy

/-
C33: the analytic circular response is the fraction of the circle cut out by the aperture.
-/

namespace Dream
open Arith

section Core

@[simp] theorem fle_real (a b : ℝ) : fle a b ↔ a ≤ b := r_le a b
@[simp] theorem flt_real (a b : ℝ) : flt a b ↔ a < b := r_lt a b

theorem cylR_real (x y : ℝ) : cylR x y = Real.sqrt (x ^ 2 + y ^ 2) := by
  simp [cylR, sq]

theorem nearR_real (z r rc : ℝ) : nearR z r rc = Real.sqrt (z ^ 2 + (r - rc) ^ 2) := by
  simp [nearR, sq]

theorem farR_real (z r rc : ℝ) : farR z r rc = Real.sqrt (z ^ 2 + (r + rc) ^ 2) := by
  simp [farR, sq]

theorem acosArg_real (z r rc cp t : ℝ) (h : z ^ 2 ≤ (cp * t) ^ 2) : acosArg z r rc cp t =
    ((Real.sqrt ((cp * t) ^ 2 - z ^ 2)) ^ 2 + rc ^ 2 - r ^ 2) /
      (2 * rc * Real.sqrt ((cp * t) ^ 2 - z ^ 2)) := by
  rw [Real.sq_sqrt (by linarith)]
  simp only [acosArg, r_sub, r_add, r_mul, r_div, r_sqrt, r_lit]
  push_cast
  rw [show cp * t * cp * t - z * z = (cp * t) ^ 2 - z ^ 2 by ring]
  congr 1
  ring

variable (z r x0 y0 v cp t : ℝ)

/-- Radius of the circle in the aperture plane at time `t`. -/
noncomputable def cutRadius (z cp t : ℝ) : ℝ := Real.sqrt ((cp * t) ^ 2 - z ^ 2)

theorem cutRadius_sq (hz : 0 ≤ z) (h : z ≤ cp * t) : cutRadius z cp t ^ 2 = (cp * t) ^ 2 - z ^ 2 := by
  unfold cutRadius
  rw [Real.sq_sqrt]
  nlinarith

theorem cutRadius_nonneg : 0 ≤ cutRadius z cp t := Real.sqrt_nonneg _

theorem lt_near (rc : ℝ) (hz : 0 ≤ z) (h : z ≤ cp * t) :
    cp * t < nearR z r rc ↔ cutRadius z cp t < |r - rc| := by
  have h1 := cutRadius_sq z cp t hz h
  rw [nearR_real, Real.lt_sqrt (by linarith),
    ← abs_of_nonneg (cutRadius_nonneg z cp t), ← sq_lt_sq, h1]
  constructor <;> intro g <;> linarith

theorem lt_far (rc : ℝ) (hz : 0 ≤ z) (hr : 0 ≤ r + rc) (h : z ≤ cp * t) :
    cp * t < farR z r rc ↔ cutRadius z cp t < r + rc := by
  have h1 := cutRadius_sq z cp t hz h
  rw [farR_real, Real.lt_sqrt (by linarith),
    ← abs_of_nonneg (cutRadius_nonneg z cp t), ← abs_of_nonneg hr, ← sq_lt_sq, h1,
    abs_of_nonneg hr]
  constructor <;> intro g <;> linarith

theorem near_ge (rc : ℝ) (hz : 0 ≤ z) : z ≤ nearR z r rc := by
  rw [nearR_real]
  exact Real.le_sqrt_of_sq_le (by nlinarith [sq_nonneg (r - rc)])

theorem near_le_far (rc : ℝ) (hr : 0 ≤ r) (hrc : 0 ≤ rc) : nearR z r rc ≤ farR z r rc := by
  rw [nearR_real, farR_real]
  exact Real.sqrt_le_sqrt (by nlinarith)

/-- One sample of the circular response is the fraction of the circle inside the disc. -/
theorem circ_core (hz : 0 ≤ z) (hr : 0 ≤ r)
    (hx : ¬ (r = Real.sqrt (x0 ^ 2 + y0 ^ 2) ∧ cp * t = z)) :
    (circStore z r (cylR x0 y0) v cp t).getD 0 =
      if cp * t < z then 0 else v * cp * circleFraction (disc r) x0 y0 (cutRadius z cp t) := by
  rw [cylR_real]
  have hrc : 0 ≤ Real.sqrt (x0 ^ 2 + y0 ^ 2) := Real.sqrt_nonneg _
  have hN := near_ge z r (Real.sqrt (x0 ^ 2 + y0 ^ 2)) hz
  have hNF := near_le_far z r (Real.sqrt (x0 ^ 2 + y0 ^ 2)) hr hrc
  have hs := cutRadius_nonneg z cp t
  -- the middle part
  have mid : z ≤ cp * t → ¬ cp * t < nearR z r (Real.sqrt (x0 ^ 2 + y0 ^ 2)) →
      cp * t < farR z r (Real.sqrt (x0 ^ 2 + y0 ^ 2)) →
      v * cp / Real.pi * Real.arccos (acosArg z r (Real.sqrt (x0 ^ 2 + y0 ^ 2)) cp t) =
        v * cp * circleFraction (disc r) x0 y0 (cutRadius z cp t) := by
    intro g0 g1 g2
    rw [lt_near z r cp t _ hz g0, not_lt] at g1
    rw [lt_far z r cp t _ hz (by linarith) g0] at g2
    have hrcpos : 0 < Real.sqrt (x0 ^ 2 + y0 ^ 2) := by
      rcases lt_or_eq_of_le hrc with h | h
      · exact h
      · rw [← h, sub_zero, abs_of_nonneg hr] at g1
        rw [← h] at g2
        linarith
    have hspos : 0 < cutRadius z cp t := by
      rcases lt_or_eq_of_le hs with h | h
      · exact h
      · exfalso
        apply hx
        rw [← h] at g1
        have h3 : r - Real.sqrt (x0 ^ 2 + y0 ^ 2) = 0 := abs_eq_zero.mp (le_antisymm g1 (abs_nonneg _))
        refine ⟨by linarith, ?_⟩
        have h4 := cutRadius_sq z cp t hz g0
        rw [← h] at h4
        nlinarith
    rw [fraction_part r x0 y0 _ hrcpos hspos g1 (le_of_lt g2), acosArg_real _ _ _ _ _ (by nlinarith)]
    unfold cutRadius
    ring
  unfold circStore
  simp only [flt_real, fle_real, r_mul, r_lit, r_div, r_acos, r_pi, Rat.cast_zero]
  by_cases h1 : Real.sqrt (x0 ^ 2 + y0 ^ 2) < r
  · rw [if_pos h1]
    by_cases h2 : cp * t < z
    · rw [if_pos h2, if_pos h2]; rfl
    · rw [if_neg h2, if_neg h2]
      push Not at h2
      by_cases h3 : cp * t < nearR z r (Real.sqrt (x0 ^ 2 + y0 ^ 2))
      · rw [if_pos ⟨h2, h3⟩]
        rw [lt_near z r cp t _ hz h2, abs_of_pos (by linarith)] at h3
        rw [fraction_full r x0 y0 _ hs (by linarith), mul_one]
        rfl
      · rw [if_neg (fun g => h3 g.2)]
        by_cases h4 : cp * t < farR z r (Real.sqrt (x0 ^ 2 + y0 ^ 2))
        · rw [if_pos ⟨not_lt.mp h3, h4⟩]
          exact mid h2 h3 h4
        · rw [if_neg (fun g => h4 g.2), if_pos (not_lt.mp h4)]
          rw [lt_far z r cp t _ hz (by linarith) h2, not_lt] at h4
          rw [fraction_none r x0 y0 _ hr hs (.inl (by linarith)), mul_zero]
          rfl
  · rw [if_neg h1]
    push Not at h1
    by_cases h3 : cp * t < nearR z r (Real.sqrt (x0 ^ 2 + y0 ^ 2))
    · rw [if_pos h3]
      by_cases h2 : cp * t < z
      · rw [if_pos h2]; rfl
      · rw [if_neg h2]
        push Not at h2
        rw [lt_near z r cp t _ hz h2, abs_of_nonpos (by linarith)] at h3
        rw [fraction_none r x0 y0 _ hr hs (.inr (by linarith)), mul_zero]
        rfl
    · rw [if_neg h3]
      have h2 : z ≤ cp * t := le_trans hN (not_lt.mp h3)
      rw [if_neg (not_lt.mpr h2)]
      by_cases h4 : cp * t < farR z r (Real.sqrt (x0 ^ 2 + y0 ^ 2))
      · rw [if_pos ⟨not_lt.mp h3, h4⟩]
        exact mid h2 h3 h4
      · rw [if_neg (fun g => h4 g.2), if_pos (not_lt.mp h4)]
        rw [lt_far z r cp t _ hz (by linarith) h2, not_lt] at h4
        rw [fraction_none r x0 y0 _ hr hs (.inl (by linarith)), mul_zero]
        rfl

theorem circleFraction_bounds (S : Set (ℝ × ℝ)) (x y s : ℝ)
    (hm : MeasurableSet {φ : ℝ | (x + s * Real.cos φ, y + s * Real.sin φ) ∈ S}) :
    0 ≤ circleFraction S x y s ∧ circleFraction S x y s ≤ 1 := by
  have hpi := Real.pi_pos
  unfold circleFraction
  have e : ∫ φ in (-Real.pi)..Real.pi, S.indicator (fun _ => (1 : ℝ)) (x + s * Real.cos φ, y + s * Real.sin φ)
      = MeasureTheory.volume.real (Set.Ioc (-Real.pi) Real.pi ∩
        {φ : ℝ | (x + s * Real.cos φ, y + s * Real.sin φ) ∈ S}) := by
    rw [intervalIntegral.integral_of_le (by linarith)]
    have : ∀ φ : ℝ, S.indicator (fun _ => (1 : ℝ)) (x + s * Real.cos φ, y + s * Real.sin φ) =
        ({φ : ℝ | (x + s * Real.cos φ, y + s * Real.sin φ) ∈ S}).indicator (fun _ => (1 : ℝ)) φ := by
      intro φ
      simp [Set.indicator]
    simp only [this]
    rw [MeasureTheory.setIntegral_indicator hm, MeasureTheory.setIntegral_const, smul_eq_mul, mul_one]
  rw [e]
  constructor
  · positivity
  · rw [div_le_one (by positivity)]
    refine le_trans (MeasureTheory.measureReal_mono Set.inter_subset_left
      (by rw [Real.volume_Ioc]; exact ENNReal.ofReal_ne_top)) ?_
    rw [Real.volume_real_Ioc_of_le (by linarith)]
    linarith

theorem disc_measurable (r x y s : ℝ) :
    MeasurableSet {φ : ℝ | (x + s * Real.cos φ, y + s * Real.sin φ) ∈ disc r} := by
  have : IsOpen {φ : ℝ | (x + s * Real.cos φ) ^ 2 + (y + s * Real.sin φ) ^ 2 < r ^ 2} :=
    isOpen_lt (by fun_prop) continuous_const
  exact this.measurableSet

end Core

section C33
variable {C : AnaCall ℝ} {H : Buf ℝ}

theorem toM_real (x : ℝ) : toM x = x / 1000 := by simp [toM]

theorem sampleTime_real (dt d : ℝ) (it : ℕ) : sampleTime dt d it = (it * dt + d) / 1000000 := by
  simp [sampleTime]

/-- Time of sample `it` at point `n` in seconds. -/
noncomputable def AnaCall.time (C : AnaCall ℝ) (n it : ℕ) : ℝ :=
  (it * C.dt + C.delayAt n) / 1000000

/-- C33: in exact arithmetic, for every thread count and schedule, sample `it` of the response of a
circular piston with radius `r` (mm) at a point in front of it is zero before the wave front
reaches the plane of the piston, and `v*cp` times the fraction of the circle, cut out of that plane
by the sphere of radius `cp*t` around the point, that lies on the piston. -/
theorem C33_circ_sir (r : ℝ) (hk : C.kind = .circ r) (h : C.Sized H) (hr : 0 ≤ r)
    (nth : ℕ) (h1 : 1 ≤ nth) (as : List Act) (hab : Act.abort ∉ as)
    (s' : Sys ℝ (Prog ℝ SIRError)) (hrun : C.drv.Run nth H as s')
    (n : ℕ) (hn : n < C.No) (it : ℕ) (hit : it < C.nt) (hz : 0 ≤ C.zo n)
    (hx : ¬ (r / 1000 = Real.sqrt ((C.xo n / 1000) ^ 2 + (C.yo n / 1000) ^ 2) ∧
      C.cp * C.time n it = C.zo n / 1000)) :
    s'.mem.data (n * C.nt + it) =
      if C.cp * C.time n it < C.zo n / 1000 then 0
      else C.v * C.cp * circleFraction (disc (r / 1000)) (C.xo n / 1000) (C.yo n / 1000)
        (Real.sqrt ((C.cp * C.time n it) ^ 2 - (C.zo n / 1000) ^ 2)) := by
  rw [AnaCall.run_samples h nth h1 as hab s' hrun n hn it hit]
  unfold AnaCall.sample
  rw [hk]
  simp only []
  unfold circSample
  rw [toM_real, toM_real, toM_real, toM_real, sampleTime_real, r_lit, Rat.cast_zero]
  exact circ_core (C.zo n / 1000) (r / 1000) (C.xo n / 1000) (C.yo n / 1000) C.v C.cp
    (C.time n it) (by positivity) (by positivity) hx

/-- C33: hence every sample is between 0 and `v*cp`. -/
theorem C33_bounded (r : ℝ) (hk : C.kind = .circ r) (h : C.Sized H) (hr : 0 ≤ r) (hv : 0 ≤ C.v)
    (hc : 0 ≤ C.cp) (nth : ℕ) (h1 : 1 ≤ nth) (as : List Act) (hab : Act.abort ∉ as)
    (s' : Sys ℝ (Prog ℝ SIRError)) (hrun : C.drv.Run nth H as s')
    (n : ℕ) (hn : n < C.No) (it : ℕ) (hit : it < C.nt) (hz : 0 ≤ C.zo n)
    (hx : ¬ (r / 1000 = Real.sqrt ((C.xo n / 1000) ^ 2 + (C.yo n / 1000) ^ 2) ∧
      C.cp * C.time n it = C.zo n / 1000)) :
    0 ≤ s'.mem.data (n * C.nt + it) ∧ s'.mem.data (n * C.nt + it) ≤ C.v * C.cp := by
  rw [C33_circ_sir r hk h hr nth h1 as hab s' hrun n hn it hit hz hx]
  have hvc : 0 ≤ C.v * C.cp := mul_nonneg hv hc
  split
  · exact ⟨le_rfl, hvc⟩
  · obtain ⟨g1, g2⟩ := circleFraction_bounds (disc (r / 1000)) (C.xo n / 1000) (C.yo n / 1000)
      (Real.sqrt ((C.cp * C.time n it) ^ 2 - (C.zo n / 1000) ^ 2)) (disc_measurable _ _ _ _)
    exact ⟨mul_nonneg hvc g1, by nlinarith⟩

/-- C33: the response is zero before the first and after the last arrival, and equal to `v*cp`
between the plane wave and the first edge wave for a point above the piston. -/
theorem C33_window (r : ℝ) (hk : C.kind = .circ r) (h : C.Sized H) (hr : 0 ≤ r)
    (nth : ℕ) (h1 : 1 ≤ nth) (as : List Act) (hab : Act.abort ∉ as)
    (s' : Sys ℝ (Prog ℝ SIRError)) (hrun : C.drv.Run nth H as s')
    (n : ℕ) (hn : n < C.No) (it : ℕ) (hit : it < C.nt) (hz : 0 ≤ C.zo n)
    (rc : ℝ) (hrc : rc = Real.sqrt ((C.xo n / 1000) ^ 2 + (C.yo n / 1000) ^ 2)) :
    -- first arrival: the nearest point of the piston
    (C.cp * C.time n it < Real.sqrt ((C.zo n / 1000) ^ 2 + max 0 (rc - r / 1000) ^ 2) →
      s'.mem.data (n * C.nt + it) = 0) ∧
    -- last arrival: the farthest point of the rim
    (Real.sqrt ((C.zo n / 1000) ^ 2 + (rc + r / 1000) ^ 2) < C.cp * C.time n it →
      s'.mem.data (n * C.nt + it) = 0) ∧
    -- plane wave part
    (rc < r / 1000 → C.zo n / 1000 ≤ C.cp * C.time n it →
      C.cp * C.time n it < Real.sqrt ((C.zo n / 1000) ^ 2 + (r / 1000 - rc) ^ 2) →
      s'.mem.data (n * C.nt + it) = C.v * C.cp) := by
  set ct := C.cp * C.time n it with hct
  set z := C.zo n / 1000 with hzz
  have hz' : 0 ≤ z := by positivity
  have hr' : 0 ≤ r / 1000 := by positivity
  have hrc0 : 0 ≤ rc := hrc ▸ Real.sqrt_nonneg _
  have main := fun hx => C33_circ_sir r hk h hr nth h1 as hab s' hrun n hn it hit hz hx
  rw [← hrc, ← hct, ← hzz] at main
  have hsq : z ≤ ct → Real.sqrt (ct ^ 2 - z ^ 2) ^ 2 = ct ^ 2 - z ^ 2 := fun g =>
    Real.sq_sqrt (by nlinarith)
  refine ⟨?_, ?_, ?_⟩
  · intro hfirst
    rw [main ?_]
    · by_cases g : ct < z
      · rw [if_pos g]
      · rw [if_neg g]
        push Not at g
        rw [Real.lt_sqrt (by linarith)] at hfirst
        have h2 := hsq g
        have hs := Real.sqrt_nonneg (ct ^ 2 - z ^ 2)
        rcases le_total rc (r / 1000) with g3 | g3
        · rw [max_eq_left (by linarith)] at hfirst
          nlinarith
        · rw [max_eq_right (by linarith)] at hfirst
          rw [fraction_none (r / 1000) _ _ _ hr' hs (.inr ?_), mul_zero]
          rw [← hrc]
          nlinarith
    · rintro ⟨g1, g2⟩
      rw [g1, sub_self, max_self] at hfirst
      norm_num at hfirst
      rw [Real.sqrt_sq hz'] at hfirst
      linarith
  · intro hlast
    have g : z ≤ ct := by
      refine le_of_lt (lt_of_le_of_lt ?_ hlast)
      exact Real.le_sqrt_of_sq_le (by nlinarith [sq_nonneg (rc + r / 1000)])
    rw [Real.sqrt_lt' ?_] at hlast
    · rw [main ?_, if_neg (not_lt.mpr g)]
      · have h2 := hsq g
        have hs := Real.sqrt_nonneg (ct ^ 2 - z ^ 2)
        rw [fraction_none (r / 1000) _ _ _ hr' hs (.inl ?_), mul_zero]
        rw [← hrc]
        nlinarith
      · rintro ⟨g1, g2⟩
        rw [g2] at hlast
        nlinarith [sq_nonneg (rc + r / 1000)]
    · exact lt_of_le_of_lt (Real.sqrt_nonneg _) hlast
  · intro g1 g2 g3
    rw [main (fun g => by linarith [g.1]), if_neg (not_lt.mpr g2)]
    rw [Real.lt_sqrt (by linarith)] at g3
    have h2 := hsq g2
    have hs := Real.sqrt_nonneg (ct ^ 2 - z ^ 2)
    rw [fraction_full (r / 1000) _ _ _ hs ?_, mul_one]
    rw [← hrc]
    nlinarith

/-- C33: the arc cosine is only evaluated inside its domain, unless the point is exactly above the
rim and the sample exactly at the plane wave arrival. -/
theorem C33_acos_domain (z r x0 y0 cp t : ℝ) (hz : 0 ≤ z) (hr : 0 ≤ r)
    (h1 : nearR z r (cylR x0 y0) ≤ cp * t) (h2 : cp * t < farR z r (cylR x0 y0))
    (hx : ¬ (r = cylR x0 y0 ∧ cp * t = z)) :
    0 < 2 * cylR x0 y0 * Real.sqrt (cp * t * cp * t - z * z) ∧
    -1 ≤ acosArg z r (cylR x0 y0) cp t ∧ acosArg z r (cylR x0 y0) cp t ≤ 1 := by
  have hrc : 0 ≤ cylR x0 y0 := by rw [cylR_real]; exact Real.sqrt_nonneg _
  have g0 : z ≤ cp * t := le_trans (near_ge z r _ hz) h1
  have g1 := h1
  rw [← not_lt, lt_near z r cp t _ hz g0, not_lt] at g1
  have g2 := h2
  rw [lt_far z r cp t _ hz (by linarith) g0] at g2
  have hs := cutRadius_nonneg z cp t
  have hrcpos : 0 < cylR x0 y0 := by
    rcases lt_or_eq_of_le hrc with h | h
    · exact h
    · rw [← h, sub_zero, abs_of_nonneg hr] at g1
      rw [← h] at g2
      linarith
  have hspos : 0 < cutRadius z cp t := by
    rcases lt_or_eq_of_le hs with h | h
    · exact h
    · exfalso
      apply hx
      rw [← h] at g1
      have h3 : r - cylR x0 y0 = 0 := abs_eq_zero.mp (le_antisymm g1 (abs_nonneg _))
      refine ⟨by linarith, ?_⟩
      have h4 := cutRadius_sq z cp t hz g0
      rw [← h] at h4
      nlinarith
  rw [acosArg_real _ _ _ _ _ (by nlinarith)]
  refine ⟨?_, arc_arg_range r (cylR x0 y0) _ hrcpos hspos g1 (le_of_lt g2)⟩
  rw [show cp * t * cp * t - z * z = (cp * t) ^ 2 - z ^ 2 by ring]
  exact mul_pos (by linarith) hspos

/-- C33: for a point behind the piston plane (`zo < 0`) within the piston's cylinder the response is
`v*cp` from the start, before any wave can have arrived: the source compares `cp*t` with `zo`
itself. -/
theorem C33_negative_zo (r : ℝ) (hk : C.kind = .circ r) (h : C.Sized H)
    (nth : ℕ) (h1 : 1 ≤ nth) (as : List Act) (hab : Act.abort ∉ as)
    (s' : Sys ℝ (Prog ℝ SIRError)) (hrun : C.drv.Run nth H as s')
    (n : ℕ) (hn : n < C.No) (it : ℕ) (hit : it < C.nt) (hz : C.zo n < 0)
    (hin : Real.sqrt ((C.xo n / 1000) ^ 2 + (C.yo n / 1000) ^ 2) < r / 1000)
    (ht : 0 ≤ C.cp * C.time n it) (ht2 : C.cp * C.time n it < |C.zo n / 1000|) :
    s'.mem.data (n * C.nt + it) = C.v * C.cp := by
  rw [AnaCall.run_samples h nth h1 as hab s' hrun n hn it hit]
  unfold AnaCall.sample
  rw [hk]
  simp only []
  unfold circSample
  rw [toM_real, toM_real, toM_real, toM_real, sampleTime_real, r_lit, Rat.cast_zero, cylR_real]
  change (circStore (C.zo n / 1000) (r / 1000) _ C.v C.cp (C.time n it)).getD 0 = _
  have hz' : C.zo n / 1000 < 0 := by linarith
  unfold circStore
  simp only [flt_real, fle_real, r_mul]
  rw [if_pos hin, if_neg (by linarith), if_pos]
  · rfl
  · refine ⟨by linarith, ?_⟩
    rw [nearR_real, Real.lt_sqrt ht]
    rw [abs_of_neg hz'] at ht2
    nlinarith [sq_nonneg (r / 1000 - Real.sqrt ((C.xo n / 1000) ^ 2 + (C.yo n / 1000) ^ 2))]

end C33

/-! ### C46: the sampled circular response -/

section C46

theorem acosClamp_real (c : ℝ) : acosClamp c = Real.arccos c := by
  unfold acosClamp
  simp only [fle_real, flt_real, r_lit, r_acos, r_pi]
  push_cast
  by_cases h1 : -1 ≤ c ∧ c ≤ 1
  · rw [if_pos h1]
  · rw [if_neg h1]
    by_cases h2 : c < -1
    · rw [if_pos h2, Real.arccos_eq_pi.mpr (le_of_lt h2)]
    · rw [if_neg h2, Real.arccos_eq_zero.mpr]
      by_contra h3
      exact h1 ⟨not_lt.mp h2, le_of_lt (not_le.mp h3)⟩

/-- Opening angle of the arc inside the disc at time `t`. -/
noncomputable def arcAngle (z r rc cp t : ℝ) : ℝ := Real.arccos (acosArg z r rc cp t)

/-- Composite trapezoidal rule. -/
noncomputable def trapezoid (f : ℝ → ℝ) (a b : ℝ) (n : ℕ) : ℝ :=
  ∑ i ∈ Finset.range n, (f (a + i * ((b - a) / n)) + f (a + (i + 1) * ((b - a) / n))) / 2 * ((b - a) / n)

theorem trapLoop_real (z r rc cp d : ℝ) (n : ℕ) : ∀ t y, trapLoop z r rc cp d n t y =
    y + ∑ i ∈ Finset.range n,
      (arcAngle z r rc cp (t + i * d) + arcAngle z r rc cp (t + (i + 1) * d)) / 2 * d := by
  induction n with
  | zero => intro t y; simp [trapLoop]
  | succ n ih =>
    intro t y
    simp only [trapLoop]
    rw [ih, Finset.sum_range_succ']
    simp only [acosClamp_real, r_add, r_mul, r_div, r_lit, arcAngle]
    push_cast
    have e : ∀ i : ℕ, t + d + (i : ℝ) * d = t + ((i : ℝ) + 1) * d := fun i => by ring
    have e2 : ∀ i : ℕ, t + d + ((i : ℝ) + 1) * d = t + ((i : ℝ) + 1 + 1) * d := fun i => by ring
    simp only [e, e2]
    rw [zero_mul, add_zero, zero_add, one_mul]
    ring

theorem trapInt_real (t1 t2 z r rc cp : ℝ) (n : ℕ) :
    trapInt t1 t2 z r rc cp n = trapezoid (arcAngle z r rc cp) t1 t2 n := by
  unfold trapInt trapezoid
  rw [trapLoop_real]
  simp

theorem trapezoid_bounds (f : ℝ → ℝ) (hf : ∀ t, 0 ≤ f t ∧ f t ≤ Real.pi) (a b : ℝ) (hab : a ≤ b)
    (n : ℕ) : 0 ≤ trapezoid f a b n ∧ trapezoid f a b n ≤ Real.pi * (b - a) := by
  unfold trapezoid
  have hpi := Real.pi_pos
  have hd : 0 ≤ (b - a) / n := div_nonneg (by linarith) (by positivity)
  constructor
  · refine Finset.sum_nonneg fun i _ => mul_nonneg ?_ hd
    have h1 := (hf (a + i * ((b - a) / n))).1
    have h2 := (hf (a + (i + 1) * ((b - a) / n))).1
    linarith
  · rcases Nat.eq_zero_or_pos n with rfl | hn
    · simp
      exact mul_nonneg hpi.le (by linarith)
    · calc ∑ i ∈ Finset.range n, (f (a + i * ((b - a) / n)) + f (a + (i + 1) * ((b - a) / n))) / 2 *
            ((b - a) / n)
          ≤ ∑ _i ∈ Finset.range n, Real.pi * ((b - a) / n) := by
            refine Finset.sum_le_sum fun i _ => mul_le_mul_of_nonneg_right ?_ hd
            have h1 := (hf (a + i * ((b - a) / n))).2
            have h2 := (hf (a + (i + 1) * ((b - a) / n))).2
            linarith
        _ = Real.pi * (b - a) := by
            rw [Finset.sum_const, Finset.card_range, nsmul_eq_mul]
            have : (n : ℝ) ≠ 0 := by positivity
            field_simp

theorem trapezoid_self (f : ℝ → ℝ) (a : ℝ) (n : ℕ) : trapezoid f a a n = 0 := by
  simp [trapezoid]

/-- Length of the part of `[t1, t2]` inside `[a, b]`. -/
noncomputable def overlap (t1 t2 a b : ℝ) : ℝ := max 0 (min t2 b - max t1 a)

/-- Trapezoidal rule over the part of `[t1, t2]` inside `[a, b]`. -/
noncomputable def trapOver (f : ℝ → ℝ) (t1 t2 a b : ℝ) (n : ℕ) : ℝ :=
  if max t1 a < min t2 b then trapezoid f (max t1 a) (min t2 b) n else 0

theorem overlap_eq {t1 t2 a b : ℝ} (x y : ℝ) (hx : max t1 a = x) (hy : min t2 b = y) (h : x ≤ y) :
    overlap t1 t2 a b = y - x := by
  unfold overlap
  rw [hx, hy, max_eq_right (by linarith)]

theorem overlap_zero {t1 t2 a b : ℝ} (x y : ℝ) (hx : max t1 a = x) (hy : min t2 b = y) (h : y ≤ x) :
    overlap t1 t2 a b = 0 := by
  unfold overlap
  rw [hx, hy, max_eq_left (by linarith)]

theorem trapOver_eq {f : ℝ → ℝ} {t1 t2 a b : ℝ} {n : ℕ} (x y : ℝ) (hx : max t1 a = x)
    (hy : min t2 b = y) (h : x ≤ y) : trapOver f t1 t2 a b n = trapezoid f x y n := by
  unfold trapOver
  rw [hx, hy]
  rcases lt_or_eq_of_le h with g | g
  · rw [if_pos g]
  · rw [if_neg (by linarith), g, trapezoid_self]

theorem trapOver_zero {f : ℝ → ℝ} {t1 t2 a b : ℝ} {n : ℕ} (x y : ℝ) (hx : max t1 a = x)
    (hy : min t2 b = y) (h : y ≤ x) : trapOver f t1 t2 a b n = 0 := by
  unfold trapOver
  rw [hx, hy, if_neg (by linarith)]

/-- The case distinction of the source is complete and consistent: it adds the plane wave part and
the arc part of the sampling interval. -/
theorem scirc_cases_real (z r rc v cp t1 t2 : ℝ) (n : ℕ) (hz : 0 ≤ z) (hr : 0 ≤ r) (hrc : 0 ≤ rc)
    (hcp : 0 < cp) (ht : t1 ≤ t2) :
    scircCases z r rc v cp n 0 t1 t2 =
      v * cp * (if rc < r then overlap t1 t2 (z / cp) (nearR z r rc / cp) else 0) +
      v * cp / Real.pi * trapOver (arcAngle z r rc cp) t1 t2 (nearR z r rc / cp) (farR z r rc / cp) n := by
  have hN := near_ge z r rc hz
  have hF := near_le_far z r rc hr hrc
  set N := nearR z r rc with hNdef
  set R := farR z r rc with hRdef
  have lz : ∀ t : ℝ, cp * t < z ↔ t < z / cp := fun t => by rw [lt_div_iff₀ hcp, mul_comm]
  have ln : ∀ t : ℝ, cp * t < N ↔ t < N / cp := fun t => by rw [lt_div_iff₀ hcp, mul_comm]
  have lr : ∀ t : ℝ, cp * t < R ↔ t < R / cp := fun t => by rw [lt_div_iff₀ hcp, mul_comm]
  have gz : ∀ t : ℝ, z ≤ cp * t ↔ z / cp ≤ t := fun t => by rw [div_le_iff₀ hcp, mul_comm]
  have gn : ∀ t : ℝ, N ≤ cp * t ↔ N / cp ≤ t := fun t => by rw [div_le_iff₀ hcp, mul_comm]
  have gr : ∀ t : ℝ, R ≤ cp * t ↔ R / cp ≤ t := fun t => by rw [div_le_iff₀ hcp, mul_comm]
  have grs : ∀ t : ℝ, R < cp * t ↔ R / cp < t := fun t => by rw [div_lt_iff₀ hcp, mul_comm]
  have nr : N < R ↔ N / cp < R / cp := by rw [div_lt_div_iff_of_pos_right hcp]
  have hN' : z / cp ≤ N / cp := div_le_div_of_nonneg_right hN hcp.le
  have hF' : N / cp ≤ R / cp := div_le_div_of_nonneg_right hF hcp.le
  have e1 : v * cp * (N - z) / cp = v * cp * (N / cp - z / cp) := by field_simp
  unfold scircCases addTrap
  simp only [flt_real, fle_real, r_mul, r_lit, r_div, r_pi, r_add, r_sub, Rat.cast_zero, trapInt_real]
  rw [← hNdef, ← hRdef]
  simp only [lz, ln, lr, gz, gn, gr, grs, nr, e1]
  generalize z / cp = a at *
  generalize N / cp = b at *
  generalize R / cp = c at *
  have mx1 : ∀ x y : ℝ, x ≤ y → max x y = y := fun _ _ h => max_eq_right h
  have mx2 : ∀ x y : ℝ, y ≤ x → max x y = x := fun _ _ h => max_eq_left h
  have mn1 : ∀ x y : ℝ, x ≤ y → min x y = x := fun _ _ h => min_eq_left h
  have mn2 : ∀ x y : ℝ, y ≤ x → min x y = y := fun _ _ h => min_eq_right h
  by_cases h : rc < r
  · simp only [if_pos h]
    rcases lt_or_ge t1 a with p | p
    · rcases lt_or_ge t2 a with q | q
      · rw [if_pos ⟨p, q⟩, overlap_zero a t2 (mx1 _ _ p.le) (mn1 _ _ (by linarith)) q.le,
          trapOver_zero b t2 (mx1 _ _ (by linarith)) (mn1 _ _ (by linarith)) (by linarith)]
        ring
      · rw [if_neg (fun g => absurd g.2 (not_lt.mpr q))]
        rcases lt_or_ge t2 b with u | u
        · rw [if_pos ⟨p, q, u⟩, overlap_eq a t2 (mx1 _ _ p.le) (mn1 _ _ u.le) q,
            trapOver_zero b t2 (mx1 _ _ (by linarith)) (mn1 _ _ (by linarith)) (by linarith)]
          ring
        · rw [if_neg (fun g => absurd g.2.2 (not_lt.mpr u))]
          rcases lt_or_ge t2 c with w | w
          · rw [if_pos ⟨p, u, w⟩, if_pos (by linarith), overlap_eq a b (mx1 _ _ p.le) (mn2 _ _ u) hN',
              trapOver_eq b t2 (mx1 _ _ (by linarith)) (mn1 _ _ w.le) u]
            ring
          · rw [if_neg (fun g => absurd g.2.2 (not_lt.mpr w)), if_pos ⟨p, w⟩,
              overlap_eq a b (mx1 _ _ p.le) (mn2 _ _ u) hN',
              trapOver_eq b c (mx1 _ _ (by linarith)) (mn2 _ _ w) hF']
            rcases lt_or_eq_of_le hF' with x | x
            · rw [if_pos x]
            · rw [if_neg (by linarith), x, trapezoid_self]
              ring
    · rw [if_neg (fun g => absurd g.1 (not_lt.mpr p)), if_neg (fun g => absurd g.1 (not_lt.mpr p)),
        if_neg (fun g => absurd g.1 (not_lt.mpr p)), if_neg (fun g => absurd g.1 (not_lt.mpr p))]
      rcases lt_or_ge t2 b with u | u
      · rw [if_pos ⟨p, u⟩, overlap_eq t1 t2 (mx2 _ _ p) (mn1 _ _ u.le) ht,
          trapOver_zero b t2 (mx1 _ _ (by linarith)) (mn1 _ _ (by linarith)) (by linarith)]
        ring
      · rw [if_neg (fun g => absurd g.2 (not_lt.mpr u))]
        rcases lt_or_ge t1 b with x | x
        · rcases lt_or_ge t2 c with w | w
          · rw [if_pos ⟨p, x, u, w⟩, if_pos (by linarith), overlap_eq t1 b (mx2 _ _ p) (mn2 _ _ u) x.le,
              trapOver_eq b t2 (mx1 _ _ x.le) (mn1 _ _ w.le) u]
          · rw [if_neg (fun g => absurd g.2.2.2 (not_lt.mpr w)), if_pos ⟨p, x, w⟩,
              overlap_eq t1 b (mx2 _ _ p) (mn2 _ _ u) x.le,
              trapOver_eq b c (mx1 _ _ x.le) (mn2 _ _ w) hF']
            rcases lt_or_eq_of_le hF' with y | y
            · rw [if_pos y]
            · rw [if_neg (by linarith), y, trapezoid_self]
              ring
        · rw [if_neg (fun g => absurd g.2.1 (not_lt.mpr x)), if_neg (fun g => absurd g.2.1 (not_lt.mpr x)),
            overlap_zero t1 b (mx2 _ _ p) (mn2 _ _ u) x]
          rcases lt_or_ge t2 c with w | w
          · rw [if_pos ⟨x, w⟩, if_pos (by linarith), trapOver_eq t1 t2 (mx2 _ _ x) (mn1 _ _ w.le) ht]
            ring
          · rw [if_neg (fun g => absurd g.2 (not_lt.mpr w))]
            rcases lt_or_ge t1 c with y | y
            · rw [if_pos ⟨x, y, w⟩, if_pos (by linarith),
                trapOver_eq t1 c (mx2 _ _ x) (mn2 _ _ w) y.le]
              ring
            · rw [if_neg (fun g => absurd g.2.1 (not_lt.mpr y)),
                trapOver_zero t1 c (mx2 _ _ x) (mn2 _ _ w) y]
              simp
  · simp only [if_neg h]
    rcases lt_or_ge t2 b with u | u
    · rw [if_pos u,
        trapOver_zero b t2 (mx1 _ _ (by linarith)) (mn1 _ _ (by linarith)) (by linarith)]
      ring
    · rw [if_neg (not_lt.mpr u)]
      rcases lt_or_ge t1 b with x | x
      · rcases lt_or_ge t2 c with w | w
        · rw [if_pos ⟨x, u, w⟩, if_pos (by linarith),
            trapOver_eq b t2 (mx1 _ _ x.le) (mn1 _ _ w.le) u]
          ring
        · rw [if_neg (fun g => absurd g.2.2 (not_lt.mpr w)), if_pos ⟨x, w⟩,
            trapOver_eq b c (mx1 _ _ x.le) (mn2 _ _ w) hF']
          rcases lt_or_eq_of_le hF' with y | y
          · rw [if_pos y]; ring
          · rw [if_neg (by linarith), y, trapezoid_self]
            ring
      · rw [if_neg (fun g => absurd g.1 (not_lt.mpr x)), if_neg (fun g => absurd g.1 (not_lt.mpr x))]
        rcases lt_or_ge t2 c with w | w
        · rw [if_pos ⟨x, w⟩, if_pos (by linarith), trapOver_eq t1 t2 (mx2 _ _ x) (mn1 _ _ w.le) ht]
          ring
        · rw [if_neg (fun g => absurd g.2 (not_lt.mpr w))]
          rcases lt_or_ge t1 c with y | y
          · rw [if_pos ⟨x, y, w⟩, if_pos (by linarith),
              trapOver_eq t1 c (mx2 _ _ x) (mn2 _ _ w) y.le]
            ring
          · rw [if_neg (fun g => absurd g.2.1 (not_lt.mpr y)),
              trapOver_zero t1 c (mx2 _ _ x) (mn2 _ _ w) y]
            simp

variable {C : AnaCall ℝ} {H : Buf ℝ}

/-- Start and end of the sampling interval of sample `it` (half a sampling interval on both sides,
cut off at time zero). -/
noncomputable def AnaCall.tLo (C : AnaCall ℝ) (n it : ℕ) : ℝ :=
  max 0 (C.time n it - C.dt / 1000000 / 2)
noncomputable def AnaCall.tHi (C : AnaCall ℝ) (n it : ℕ) : ℝ := C.time n it + C.dt / 1000000 / 2

/-- C46: sample `it` of the sampled circular response is the mean over the sampling interval of
length `dt` of: `v*cp` during the part of the interval that falls into the plane wave window (only
for points above the piston), and `v*cp` times the trapezoidal rule for the arc fraction during the
part that falls between the nearest and the farthest rim arrival. -/
theorem C46_scirc_sir (r : ℝ) (k : ℕ) (hk : C.kind = .scirc r k) (h : C.Sized H) (hr : 0 ≤ r)
    (hcp : 0 < C.cp) (hdt : 0 < C.dt)
    (nth : ℕ) (h1 : 1 ≤ nth) (as : List Act) (hab : Act.abort ∉ as)
    (s' : Sys ℝ (Prog ℝ SIRError)) (hrun : C.drv.Run nth H as s')
    (n : ℕ) (hn : n < C.No) (it : ℕ) (hit : it < C.nt) (hz : 0 ≤ C.zo n) (hd : 0 ≤ C.delayAt n)
    (z ρ rc near far : ℝ) (hzz : z = C.zo n / 1000) (hρ : ρ = r / 1000)
    (hrc : rc = Real.sqrt ((C.xo n / 1000) ^ 2 + (C.yo n / 1000) ^ 2))
    (hnear : near = Real.sqrt (z ^ 2 + (ρ - rc) ^ 2)) (hfar : far = Real.sqrt (z ^ 2 + (ρ + rc) ^ 2)) :
    s'.mem.data (n * C.nt + it) =
      (C.v * C.cp * (if rc < ρ then overlap (C.tLo n it) (C.tHi n it) (z / C.cp) (near / C.cp) else 0) +
        C.v * C.cp / Real.pi *
          trapOver (arcAngle z ρ rc C.cp) (C.tLo n it) (C.tHi n it) (near / C.cp) (far / C.cp) k) /
      (C.dt / 1000000) := by
  rw [AnaCall.run_samples h nth h1 as hab s' hrun n hn it hit]
  unfold AnaCall.sample
  rw [hk]
  simp only []
  have hlo : scircT1 C.dt (C.delayAt n) it = C.tLo n it := by
    unfold scircT1 AnaCall.tLo AnaCall.time
    simp only [flt_real, sampleTime_real, r_sub, r_div, r_lit, Rat.cast_zero]
    push_cast
    split
    · next g => rw [max_eq_left (le_of_lt g)]
    · next g => rw [max_eq_right (not_lt.mp g)]
  have hhi : scircT2 C.dt (C.delayAt n) it = C.tHi n it := by
    unfold scircT2 AnaCall.tHi AnaCall.time
    simp only [sampleTime_real, r_sub, r_div, r_lit, r_add]
    push_cast
    ring
  have hle : C.tLo n it ≤ C.tHi n it := by
    unfold AnaCall.tLo AnaCall.tHi
    have ht : 0 ≤ C.time n it := by
      unfold AnaCall.time
      have : 0 ≤ (it : ℝ) * C.dt := mul_nonneg (by positivity) hdt.le
      positivity
    have hq : 0 < C.dt / 1000000 / 2 := by positivity
    exact max_le (by linarith) (by linarith)
  unfold scircUpd
  rw [hlo, hhi, toM_real, toM_real, toM_real, toM_real, cylR_real, ← hzz, ← hρ, ← hrc]
  simp only [r_div, r_lit, Rat.cast_zero]
  rw [scirc_cases_real z ρ rc C.v C.cp _ _ k (by rw [hzz]; positivity) (by rw [hρ]; positivity)
    (by rw [hrc]; exact Real.sqrt_nonneg _) hcp hle, nearR_real, farR_real, ← hnear, ← hfar]
  push_cast
  rfl

theorem overlap_bounds (t1 t2 a b : ℝ) : 0 ≤ overlap t1 t2 a b := le_max_left _ _

/-- C46: every sample is between 0 and `v*cp`. -/
theorem C46_bounded (r : ℝ) (k : ℕ) (hk : C.kind = .scirc r k) (h : C.Sized H) (hr : 0 ≤ r)
    (hcp : 0 < C.cp) (hdt : 0 < C.dt) (hv : 0 ≤ C.v)
    (nth : ℕ) (h1 : 1 ≤ nth) (as : List Act) (hab : Act.abort ∉ as)
    (s' : Sys ℝ (Prog ℝ SIRError)) (hrun : C.drv.Run nth H as s')
    (n : ℕ) (hn : n < C.No) (it : ℕ) (hit : it < C.nt) (hz : 0 ≤ C.zo n) (hd : 0 ≤ C.delayAt n) :
    0 ≤ s'.mem.data (n * C.nt + it) ∧ s'.mem.data (n * C.nt + it) ≤ C.v * C.cp := by
  rw [C46_scirc_sir r k hk h hr hcp hdt nth h1 as hab s' hrun n hn it hit hz hd _ _ _ _ _ rfl rfl rfl
    rfl rfl]
  set z := C.zo n / 1000
  set ρ := r / 1000
  set rc := Real.sqrt ((C.xo n / 1000) ^ 2 + (C.yo n / 1000) ^ 2)
  have hz' : 0 ≤ z := by positivity
  have hρ' : 0 ≤ ρ := by positivity
  have hrc' : 0 ≤ rc := Real.sqrt_nonneg _
  have hN := near_ge z ρ rc hz'
  have hF := near_le_far z ρ rc hρ' hrc'
  rw [nearR_real] at hN hF
  rw [farR_real] at hF
  set N := Real.sqrt (z ^ 2 + (ρ - rc) ^ 2)
  set R := Real.sqrt (z ^ 2 + (ρ + rc) ^ 2)
  have hpi := Real.pi_pos
  have hq : 0 < C.dt / 1000000 := by positivity
  have hvc : 0 ≤ C.v * C.cp := mul_nonneg hv hcp.le
  set t1 := C.tLo n it with ht1
  set t2 := C.tHi n it with ht2
  have hwidth : t2 - t1 ≤ C.dt / 1000000 := by
    rw [ht1, ht2]
    unfold AnaCall.tLo AnaCall.tHi
    have := le_max_right 0 (C.time n it - C.dt / 1000000 / 2)
    linarith
  have ht : t1 ≤ t2 := by
    rw [ht1, ht2]
    unfold AnaCall.tLo AnaCall.tHi
    have ht : 0 ≤ C.time n it := by
      unfold AnaCall.time
      have : 0 ≤ (it : ℝ) * C.dt := mul_nonneg (by positivity) hdt.le
      positivity
    exact max_le (by linarith) (by linarith)
  have hab' : z / C.cp ≤ N / C.cp := div_le_div_of_nonneg_right hN hcp.le
  have hbc : N / C.cp ≤ R / C.cp := div_le_div_of_nonneg_right hF hcp.le
  generalize z / C.cp = a at *
  generalize N / C.cp = b at *
  generalize R / C.cp = c at *
  -- the two parts of the interval
  have harc : ∀ t, 0 ≤ arcAngle z ρ rc C.cp t ∧ arcAngle z ρ rc C.cp t ≤ Real.pi := fun t =>
    ⟨Real.arccos_nonneg _, Real.arccos_le_pi _⟩
  have htrap : 0 ≤ trapOver (arcAngle z ρ rc C.cp) t1 t2 b c k ∧
      trapOver (arcAngle z ρ rc C.cp) t1 t2 b c k ≤ Real.pi * max 0 (min t2 c - max t1 b) := by
    unfold trapOver
    split
    · next g =>
      rw [max_eq_right (show (0:ℝ) ≤ min t2 c - max t1 b by linarith)]
      exact trapezoid_bounds _ harc _ _ g.le k
    · exact ⟨le_rfl, mul_nonneg hpi.le (le_max_left _ _)⟩
  have hov : 0 ≤ (if rc < ρ then overlap t1 t2 a b else 0) ∧
      (if rc < ρ then overlap t1 t2 a b else 0) ≤ max 0 (min t2 b - max t1 a) := by
    split
    · exact ⟨le_max_left _ _, le_rfl⟩
    · exact ⟨le_rfl, le_max_left _ _⟩
  have hsum : max 0 (min t2 b - max t1 a) + max 0 (min t2 c - max t1 b) ≤ t2 - t1 := by
    have m1 := min_le_left t2 b
    have m2 := min_le_right t2 b
    have m3 := min_le_left t2 c
    have m5 := le_max_left t1 a
    have m6 := le_max_left t1 b
    have m7 := le_max_right t1 b
    rcases max_cases 0 (min t2 b - max t1 a) with g | g <;>
      rcases max_cases 0 (min t2 c - max t1 b) with g' | g' <;> rw [g.1, g'.1] <;> linarith
  set A := (if rc < ρ then overlap t1 t2 a b else 0)
  set B := trapOver (arcAngle z ρ rc C.cp) t1 t2 b c k
  have e : C.v * C.cp * A + C.v * C.cp / Real.pi * B = C.v * C.cp * (A + B / Real.pi) := by ring
  have hB : B / Real.pi ≤ max 0 (min t2 c - max t1 b) := by
    rw [div_le_iff₀ hpi, mul_comm]
    exact htrap.2
  have hB0 : 0 ≤ B / Real.pi := div_nonneg htrap.1 hpi.le
  rw [e]
  constructor
  · exact div_nonneg (mul_nonneg hvc (by linarith [hov.1])) hq.le
  · rw [div_le_iff₀ hq]
    exact mul_le_mul_of_nonneg_left (by linarith [hov.2]) hvc

/-- C46: away from the response window the sample is zero. -/
theorem C46_window (r : ℝ) (k : ℕ) (hk : C.kind = .scirc r k) (h : C.Sized H) (hr : 0 ≤ r)
    (hcp : 0 < C.cp) (hdt : 0 < C.dt)
    (nth : ℕ) (h1 : 1 ≤ nth) (as : List Act) (hab : Act.abort ∉ as)
    (s' : Sys ℝ (Prog ℝ SIRError)) (hrun : C.drv.Run nth H as s')
    (n : ℕ) (hn : n < C.No) (it : ℕ) (hit : it < C.nt) (hz : 0 ≤ C.zo n) (hd : 0 ≤ C.delayAt n)
    (rc : ℝ) (hrc : rc = Real.sqrt ((C.xo n / 1000) ^ 2 + (C.yo n / 1000) ^ 2))
    (hout : C.cp * C.tHi n it ≤ C.zo n / 1000 ∨
      Real.sqrt ((C.zo n / 1000) ^ 2 + (r / 1000 + rc) ^ 2) ≤ C.cp * C.tLo n it) :
    s'.mem.data (n * C.nt + it) = 0 := by
  rw [C46_scirc_sir r k hk h hr hcp hdt nth h1 as hab s' hrun n hn it hit hz hd _ _ _ _ _ rfl rfl rfl
    rfl rfl, ← hrc]
  set z := C.zo n / 1000
  set ρ := r / 1000
  have hz' : 0 ≤ z := by positivity
  have hρ' : 0 ≤ ρ := by positivity
  have hrc' : 0 ≤ rc := hrc ▸ Real.sqrt_nonneg _
  have hN := near_ge z ρ rc hz'
  have hF := near_le_far z ρ rc hρ' hrc'
  rw [nearR_real] at hN hF
  rw [farR_real] at hF
  set N := Real.sqrt (z ^ 2 + (ρ - rc) ^ 2)
  set R := Real.sqrt (z ^ 2 + (ρ + rc) ^ 2)
  have hab' : z / C.cp ≤ N / C.cp := div_le_div_of_nonneg_right hN hcp.le
  have hbc : N / C.cp ≤ R / C.cp := div_le_div_of_nonneg_right hF hcp.le
  have hout' : C.tHi n it ≤ z / C.cp ∨ R / C.cp ≤ C.tLo n it := by
    rcases hout with g | g
    · left; rw [le_div_iff₀ hcp, mul_comm]; exact g
    · right; rw [div_le_iff₀ hcp, mul_comm]; exact g
  have o : overlap (C.tLo n it) (C.tHi n it) (z / C.cp) (N / C.cp) = 0 := by
    refine overlap_zero _ _ rfl rfl ?_
    rcases hout' with g | g
    · exact le_trans (min_le_left _ _) (le_trans g (le_max_right _ _))
    · exact le_trans (min_le_right _ _) (le_trans (le_trans hbc g) (le_max_left _ _))
  have t : trapOver (arcAngle z ρ rc C.cp) (C.tLo n it) (C.tHi n it) (N / C.cp) (R / C.cp) k = 0 := by
    refine trapOver_zero _ _ rfl rfl ?_
    rcases hout' with g | g
    · exact le_trans (min_le_left _ _) (le_trans (le_trans g hab') (le_max_right _ _))
    · exact le_trans (min_le_right _ _) (le_trans g (le_max_left _ _))
  rw [o, t]
  simp

end C46

/-! ### A concrete call -/

section Examples

/-- One point at (0, 0, `z`) mm, `cp = 1000` m/s, samples every microsecond. -/
noncomputable def exAna (kind : AnaKind ℝ) (z : ℝ) (nt : ℕ) : AnaCall ℝ where
  kind := kind
  Ro := ⟨3, fun i => if i = 2 then z else 0⟩
  No := 1
  dt := 1
  nt := nt
  delayType := .single
  delay := ⟨1, fun _ => 0⟩
  v := 1
  cp := 1000

theorem exAna_sized (kind : AnaKind ℝ) (z : ℝ) (nt : ℕ) :
    (exAna kind z nt).Sized ⟨nt, fun _ => 9⟩ := by
  refine ⟨?_, ?_, ?_⟩ <;> simp [exAna]

-- a piston of radius 10 mm seen from 5 mm above its centre: sample 6 is v*cp, sample 4 is 0
example : ∃ as s', Act.abort ∉ as ∧
    (exAna (.circ 10) 5 20).drv.Run 2 ⟨20, fun _ => 9⟩ as s' ∧
    s'.mem.data 6 = 1000 ∧ s'.mem.data 4 = 0 := by
  have hs := exAna_sized (.circ 10) 5 20
  obtain ⟨_, as, s', g1, g2⟩ := AnaCall.terminates hs 2
  refine ⟨as, s', g1, g2, ?_, ?_⟩
  · have := (C33_window 10 rfl hs (by norm_num) 2 (by omega) as g1 s' g2 0 (by simp [exAna]) 6
      (by simp [exAna]) (by simp [exAna, AnaCall.zo]) _ rfl).2.2
    simp only [exAna, AnaCall.zo, AnaCall.xo, AnaCall.yo, AnaCall.time, AnaCall.delayAt] at this
    norm_num at this
    refine this ?_
    rw [← Real.sqrt_inv, Real.lt_sqrt (by norm_num)]
    norm_num
  · have := (C33_window 10 rfl hs (by norm_num) 2 (by omega) as g1 s' g2 0 (by simp [exAna]) 4
      (by simp [exAna]) (by simp [exAna, AnaCall.zo]) _ rfl).1
    simp only [exAna, AnaCall.zo, AnaCall.xo, AnaCall.yo, AnaCall.time, AnaCall.delayAt] at this
    norm_num at this
    refine this ?_
    rw [← Real.sqrt_inv, Real.lt_sqrt (by norm_num)]
    norm_num

-- hypotheses of C33_negative_zo
example : (exAna (.circ 10) (-5) 20).zo 0 < 0 ∧
    Real.sqrt (((exAna (.circ 10) (-5) 20).xo 0 / 1000) ^ 2 +
      ((exAna (.circ 10) (-5) 20).yo 0 / 1000) ^ 2) < 10 / 1000 ∧
    0 ≤ (exAna (.circ 10) (-5) 20).cp * (exAna (.circ 10) (-5) 20).time 0 3 ∧
    (exAna (.circ 10) (-5) 20).cp * (exAna (.circ 10) (-5) 20).time 0 3 <
      |(exAna (.circ 10) (-5) 20).zo 0 / 1000| := by
  simp only [exAna, AnaCall.zo, AnaCall.xo, AnaCall.yo, AnaCall.time, AnaCall.delayAt]
  norm_num

-- hypotheses of the C46 theorems
example : (exAna (.scirc 10 8) 5 20).Sized ⟨20, fun _ => 9⟩ ∧ 0 < (exAna (.scirc 10 8) 5 20).cp ∧
    0 < (exAna (.scirc 10 8) 5 20).dt ∧ 0 ≤ (exAna (.scirc 10 8) 5 20).zo 0 ∧
    0 ≤ (exAna (.scirc 10 8) 5 20).delayAt 0 ∧
    ∃ as s', Act.abort ∉ as ∧ (exAna (.scirc 10 8) 5 20).drv.Run 2 ⟨20, fun _ => 9⟩ as s' :=
  ⟨exAna_sized _ _ _, by simp [exAna], by simp [exAna], by simp [exAna, AnaCall.zo],
    by simp [exAna, AnaCall.delayAt], (AnaCall.terminates (exAna_sized (.scirc 10 8) 5 20) 2).2⟩

end Examples

end Dream
