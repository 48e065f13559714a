import Verif.Circle
import Mathlib.Analysis.SpecialFunctions.Trigonometric.Complex

/-
Fraction of a circle inside a rectangle: decomposition into four quarter rectangles.
-/

namespace Dream
open MeasureTheory Real

/-- Open rectangle with sides `a` and `b` around the origin. -/
def rectangle (a b : ℝ) : Set (ℝ × ℝ) := {p | -(a / 2) < p.1 ∧ p.1 < a / 2 ∧ -(b / 2) < p.2 ∧ p.2 < b / 2}

/-- Open rectangle with one corner in the origin and the opposite corner at `(s, l)`. -/
def quadrant (s l : ℝ) : Set (ℝ × ℝ) := {p | 0 < p.1 ∧ p.1 < s ∧ 0 < p.2 ∧ p.2 < l}

/-- Integral of the indicator of `quadrant s l` along the circle of radius `σ` around the origin. -/
theorem quadrant_integral (s l σ : ℝ) (hs : 0 ≤ s) (hl : 0 ≤ l) (hσ : 0 < σ) :
    ∫ φ in (-π)..π, (quadrant s l).indicator (fun _ => (1 : ℝ)) (σ * cos φ, σ * sin φ) =
      max 0 (π / 2 - arccos (s / σ) - arccos (l / σ)) := by
  have hpi := pi_pos
  have a0 := arccos_nonneg (s / σ)
  have b0 := arccos_nonneg (l / σ)
  have a1 : arccos (s / σ) ≤ π / 2 := arccos_le_pi_div_two.mpr (by positivity)
  have b1 : arccos (l / σ) ≤ π / 2 := arccos_le_pi_div_two.mpr (by positivity)
  have key : ∀ φ ∈ Set.Icc (-π) π, ((σ * cos φ, σ * sin φ) ∈ quadrant s l ↔
      φ ∈ Set.Ioo (arccos (s / σ)) (π / 2 - arccos (l / σ))) := by
    intro φ hφ
    simp only [quadrant, Set.mem_setOf_eq, Set.mem_Ioo]
    have e1 : 0 < σ * cos φ ↔ 0 < cos φ := by simp [hσ]
    have e2 : 0 < σ * sin φ ↔ 0 < sin φ := by simp [hσ]
    have e3 : σ * cos φ < s ↔ cos φ < s / σ := by rw [lt_div_iff₀ hσ, mul_comm]
    have e4 : σ * sin φ < l ↔ sin φ < l / σ := by rw [lt_div_iff₀ hσ, mul_comm]
    rw [e1, e2, e3, e4]
    have inner : 0 < φ → φ < π / 2 →
        ((cos φ < s / σ ↔ arccos (s / σ) < φ) ∧ (sin φ < l / σ ↔ φ < π / 2 - arccos (l / σ))) := by
      intro h1 h2
      constructor
      · rw [← sin_pi_div_two_sub, ← lt_arcsin_iff_sin_lt' ⟨by linarith, by linarith⟩]
        unfold arccos
        constructor <;> intro g <;> linarith
      · rw [← lt_arcsin_iff_sin_lt' ⟨by linarith, by linarith⟩]
        unfold arccos
        constructor <;> intro g <;> linarith
    constructor
    · rintro ⟨g1, g2, g3, g4⟩
      have p1 : 0 < φ := by
        by_contra hc
        push Not at hc
        have := sin_nonpos_of_nonpos_of_neg_pi_le hc hφ.1
        linarith
      have p2 : φ < π / 2 := by
        by_contra hc
        push Not at hc
        have := cos_nonpos_of_pi_div_two_le_of_le hc (by linarith [hφ.2])
        linarith
      obtain ⟨i1, i2⟩ := inner p1 p2
      exact ⟨i1.mp g2, i2.mp g4⟩
    · rintro ⟨g1, g2⟩
      have p1 : 0 < φ := by linarith
      have p2 : φ < π / 2 := by linarith
      obtain ⟨i1, i2⟩ := inner p1 p2
      exact ⟨cos_pos_of_mem_Ioo ⟨by linarith, p2⟩, i1.mpr g1,
        sin_pos_of_pos_of_lt_pi p1 (by linarith), i2.mpr g2⟩
  have hcong : ∫ φ in (-π)..π, (quadrant s l).indicator (fun _ => (1 : ℝ)) (σ * cos φ, σ * sin φ) =
      ∫ φ in (-π)..π, (Set.Ioo (arccos (s / σ)) (π / 2 - arccos (l / σ))).indicator
        (fun _ => (1 : ℝ)) φ := by
    refine intervalIntegral.integral_congr ?_
    intro φ hφ
    rw [Set.uIcc_of_le (by linarith)] at hφ
    have := key φ hφ
    simp only [Set.indicator]
    by_cases h : (σ * cos φ, σ * sin φ) ∈ quadrant s l
    · rw [if_pos h, if_pos (this.mp h)]
    · rw [if_neg h, if_neg (fun g => h (this.mpr g))]
  rw [hcong]
  by_cases h : arccos (s / σ) ≤ π / 2 - arccos (l / σ)
  · rw [integral_Ioo_ind _ _ (by linarith) h (by linarith), max_eq_right (by linarith)]
    ring
  · push Not at h
    rw [Set.Ioo_eq_empty (by linarith), max_eq_left (by linarith)]
    simp

/-- Fraction of the circle around the origin in a quarter rectangle. -/
theorem quadrant_fraction (s l σ : ℝ) (hs : 0 ≤ s) (hl : 0 ≤ l) (hσ : 0 < σ) :
    circleFraction (quadrant s l) 0 0 σ =
      max 0 (π / 2 - arccos (s / σ) - arccos (l / σ)) / (2 * π) := by
  unfold circleFraction
  simp only [zero_add]
  rw [quadrant_integral s l σ hs hl hσ]

/-- The angle is nonnegative up to the diagonal. -/
theorem diagonal_le (s l σ : ℝ) (hs : 0 ≤ s) (hl : 0 ≤ l) (hσ : 0 < σ) (h : σ ^ 2 ≤ s ^ 2 + l ^ 2) :
    0 ≤ π / 2 - arccos (s / σ) - arccos (l / σ) := by
  have hq : 0 ≤ l / σ := by positivity
  rw [arccos_eq_arcsin hq]
  have : √(1 - (l / σ) ^ 2) ≤ s / σ := by
    rw [sqrt_le_left (by positivity), div_pow, div_pow, sub_le_iff_le_add, ← add_div,
      le_div_iff₀ (by positivity)]
    linarith
  have := monotone_arcsin this
  unfold arccos
  linarith

theorem diagonal_ge (s l σ : ℝ) (hl : 0 ≤ l) (hσ : 0 < σ) (h : s ^ 2 + l ^ 2 ≤ σ ^ 2) :
    π / 2 - arccos (s / σ) - arccos (l / σ) ≤ 0 := by
  have hq : 0 ≤ l / σ := by positivity
  rw [arccos_eq_arcsin hq]
  have : s / σ ≤ √(1 - (l / σ) ^ 2) := by
    apply le_sqrt_of_sq_le
    rw [div_pow, div_pow, le_sub_iff_add_le, ← add_div, div_le_iff₀ (by positivity)]
    linarith
  have := monotone_arcsin this
  unfold arccos
  linarith

/-- Sign with `sg 0 = 1`. -/
noncomputable def sg (c : ℝ) : ℝ := if 0 ≤ c then 1 else -1

/-- Signed indicator of the interval between 0 and `c`. -/
noncomputable def stepInd (c u : ℝ) : ℝ :=
  if 0 ≤ c then (if 0 < u ∧ u < c then 1 else 0) else (if c < u ∧ u < 0 then -1 else 0)

noncomputable def posInd (s u : ℝ) : ℝ := if 0 < u ∧ u < s then 1 else 0

theorem stepInd_diff (x1 x2 u : ℝ) (h : x1 ≤ x2) (h0 : u ≠ 0) (h1 : u ≠ x1) (h2 : u ≠ x2) :
    (if x1 < u ∧ u < x2 then (1 : ℝ) else 0) = stepInd x2 u - stepInd x1 u := by
  unfold stepInd
  rcases lt_or_gt_of_ne h0 with g0 | g0 <;> rcases lt_or_gt_of_ne h1 with g1 | g1 <;>
    rcases lt_or_gt_of_ne h2 with g2 | g2 <;> split_ifs <;> grind

theorem stepInd_eq (c u : ℝ) : stepInd c u = sg c * posInd |c| (sg c * u) := by
  unfold stepInd sg posInd
  by_cases h : 0 ≤ c
  · simp only [if_pos h, one_mul, abs_of_nonneg h]
  · simp only [if_neg h, abs_of_neg (not_le.mp h)]
    by_cases g : c < u ∧ u < 0
    · rw [if_pos g, if_pos ⟨by linarith [g.2], by linarith [g.1]⟩]; norm_num
    · rw [if_neg g, if_neg (fun k => g ⟨by linarith [k.2], by linarith [k.1]⟩)]; norm_num

theorem posInd_mul (s l u w : ℝ) :
    posInd s u * posInd l w = (quadrant s l).indicator (fun _ => (1 : ℝ)) (u, w) := by
  unfold posInd quadrant
  simp only [Set.indicator, Set.mem_setOf_eq]
  split_ifs <;> first | (exfalso; tauto) | norm_num

theorem quadrant_measurable (s l p q : ℝ) :
    MeasurableSet {φ : ℝ | (p * cos φ, q * sin φ) ∈ quadrant s l} := by
  have h1 : IsOpen {φ : ℝ | 0 < p * cos φ} := isOpen_lt continuous_const (by fun_prop)
  have h2 : IsOpen {φ : ℝ | p * cos φ < s} := isOpen_lt (by fun_prop) continuous_const
  have h3 : IsOpen {φ : ℝ | 0 < q * sin φ} := isOpen_lt continuous_const (by fun_prop)
  have h4 : IsOpen {φ : ℝ | q * sin φ < l} := isOpen_lt (by fun_prop) continuous_const
  exact (h1.inter (h2.inter (h3.inter h4))).measurableSet

theorem rectangle_measurable (a b x y s : ℝ) :
    MeasurableSet {φ : ℝ | (x + s * cos φ, y + s * sin φ) ∈ rectangle a b} := by
  have h1 : IsOpen {φ : ℝ | -(a / 2) < x + s * cos φ} := isOpen_lt continuous_const (by fun_prop)
  have h2 : IsOpen {φ : ℝ | x + s * cos φ < a / 2} := isOpen_lt (by fun_prop) continuous_const
  have h3 : IsOpen {φ : ℝ | -(b / 2) < y + s * sin φ} := isOpen_lt continuous_const (by fun_prop)
  have h4 : IsOpen {φ : ℝ | y + s * sin φ < b / 2} := isOpen_lt (by fun_prop) continuous_const
  exact (h1.inter (h2.inter (h3.inter h4))).measurableSet

/-- An indicator along the circle is integrable. -/
theorem ind_integrable (T : Set ℝ) (hT : MeasurableSet T) (x y : ℝ) :
    IntervalIntegrable (T.indicator (fun _ => (1 : ℝ))) volume x y := by
  have h := (intervalIntegrable_const (c := (1 : ℝ)) (μ := volume) (a := x) (b := y))
  rw [intervalIntegrable_iff] at h ⊢
  exact h.indicator hT

theorem quadrant_integrable (s l p q x y : ℝ) :
    IntervalIntegrable (fun φ => (quadrant s l).indicator (fun _ => (1 : ℝ)) (p * cos φ, q * sin φ))
      volume x y := by
  have := ind_integrable _ (quadrant_measurable s l p q) x y
  refine this.congr ?_
  intro φ _
  simp [Set.indicator]

/-- Reflections of the circle. -/
theorem reflect_integral (f : ℝ → ℝ → ℝ) (c d : ℝ) :
    ∫ φ in (-π)..π, f (sg c * cos φ) (sg d * sin φ) = ∫ φ in (-π)..π, f (cos φ) (sin φ) := by
  have per : Function.Periodic (fun φ => f (cos φ) (sin φ)) (2 * π) := by
    intro φ
    simp only [cos_add_two_pi, sin_add_two_pi]
  unfold sg
  split_ifs
  · simp
  · rw [← integral_reflect _ per 0]
    simp
  · rw [← integral_reflect _ per π]
    simp
  · rw [← integral_shift _ per π]
    simp

/-- Signed quarter: the integral of the product of two signed indicators. -/
noncomputable def signedQuarter (c d σ : ℝ) : ℝ :=
  sg c * sg d * ∫ φ in (-π)..π, (quadrant |c| |d|).indicator (fun _ => (1 : ℝ)) (σ * cos φ, σ * sin φ)

theorem stepInd_mul (c d σ φ : ℝ) : stepInd c (σ * cos φ) * stepInd d (σ * sin φ) =
    sg c * sg d * (quadrant |c| |d|).indicator (fun _ => (1 : ℝ))
      ((sg c * σ) * cos φ, (sg d * σ) * sin φ) := by
  rw [stepInd_eq, stepInd_eq, ← posInd_mul, ← mul_assoc (sg c) σ, ← mul_assoc (sg d) σ]
  ring

theorem stepInd_integrable (c d σ x y : ℝ) :
    IntervalIntegrable (fun φ => stepInd c (σ * cos φ) * stepInd d (σ * sin φ)) volume x y := by
  simp only [stepInd_mul]
  exact (quadrant_integrable _ _ _ _ _ _).const_mul _

theorem stepInd_integral (c d σ : ℝ) :
    ∫ φ in (-π)..π, stepInd c (σ * cos φ) * stepInd d (σ * sin φ) = signedQuarter c d σ := by
  simp only [stepInd_mul]
  rw [intervalIntegral.integral_const_mul]
  unfold signedQuarter
  congr 1
  have := reflect_integral (fun u w => (quadrant |c| |d|).indicator (fun _ => (1 : ℝ)) (σ * u, σ * w)) c d
  rw [← this]
  congr 1
  funext φ
  congr 2 <;> ring

theorem cos_level_countable (σ c : ℝ) (hσ : σ ≠ 0) : {φ : ℝ | σ * cos φ = c}.Countable := by
  by_cases h : ∃ x0, σ * cos x0 = c
  · obtain ⟨x0, h0⟩ := h
    refine ((Set.countable_range (fun k : ℤ => 2 * (k : ℝ) * π + x0)).union
      (Set.countable_range (fun k : ℤ => 2 * (k : ℝ) * π - x0))).mono ?_
    intro φ hφ
    have e : cos x0 = cos φ := by
      have : σ * cos φ = σ * cos x0 := by rw [h0]; exact hφ
      exact (mul_left_cancel₀ hσ this).symm
    obtain ⟨k, hk | hk⟩ := cos_eq_cos_iff.mp e
    · exact Or.inl ⟨k, hk.symm⟩
    · exact Or.inr ⟨k, hk.symm⟩
  · have : {φ : ℝ | σ * cos φ = c} = ∅ := by
      ext φ
      simp only [Set.mem_setOf_eq, Set.mem_empty_iff_false, iff_false]
      exact fun g => h ⟨φ, g⟩
    rw [this]
    exact Set.countable_empty

theorem sin_level_countable (σ c : ℝ) (hσ : σ ≠ 0) : {φ : ℝ | σ * sin φ = c}.Countable := by
  have := (cos_level_countable σ c hσ).image (fun x => π / 2 - x)
  refine this.mono ?_
  intro φ hφ
  refine ⟨π / 2 - φ, ?_, by ring⟩
  simp only [Set.mem_setOf_eq, cos_pi_div_two_sub]
  exact hφ

theorem ind_and {S : Set (ℝ × ℝ)} (p : ℝ × ℝ) (P Q : Prop) [Decidable P] [Decidable Q]
    (h : p ∈ S ↔ P ∧ Q) :
    S.indicator (fun _ => (1 : ℝ)) p = (if P then (1 : ℝ) else 0) * (if Q then (1 : ℝ) else 0) := by
  by_cases hP : P <;> by_cases hQ : Q
  · rw [Set.indicator_of_mem (h.mpr ⟨hP, hQ⟩), if_pos hP, if_pos hQ, one_mul]
  · rw [Set.indicator_of_notMem (fun g => hQ (h.mp g).2), if_neg hQ, mul_zero]
  · rw [Set.indicator_of_notMem (fun g => hP (h.mp g).1), if_neg hP, zero_mul]
  · rw [Set.indicator_of_notMem (fun g => hP (h.mp g).1), if_neg hP, zero_mul]

/-- The fraction of the circle in a rectangle, by signed quarters. -/
theorem rectangle_fraction (a b x0 y0 σ : ℝ) (ha : 0 ≤ a) (hb : 0 ≤ b) (hσ : 0 < σ) :
    circleFraction (rectangle a b) x0 y0 σ =
      (signedQuarter (a / 2 - x0) (b / 2 - y0) σ - signedQuarter (a / 2 - x0) (-(b / 2) - y0) σ -
        signedQuarter (-(a / 2) - x0) (b / 2 - y0) σ +
        signedQuarter (-(a / 2) - x0) (-(b / 2) - y0) σ) / (2 * π) := by
  unfold circleFraction
  congr 1
  set x1 := -(a / 2) - x0
  set x2 := a / 2 - x0
  set y1 := -(b / 2) - y0
  set y2 := b / 2 - y0
  have hσ' := hσ.ne'
  have hx : x1 ≤ x2 := by simp only [x1, x2]; linarith
  have hy : y1 ≤ y2 := by simp only [y1, y2]; linarith
  have hae : ∀ᵐ φ ∂(volume : Measure ℝ), φ ∈ Set.uIoc (-π) π →
      (rectangle a b).indicator (fun _ => (1 : ℝ)) (x0 + σ * cos φ, y0 + σ * sin φ) =
      (stepInd x2 (σ * cos φ) * stepInd y2 (σ * sin φ) - stepInd x2 (σ * cos φ) * stepInd y1 (σ * sin φ) -
        stepInd x1 (σ * cos φ) * stepInd y2 (σ * sin φ)) +
        stepInd x1 (σ * cos φ) * stepInd y1 (σ * sin φ) := by
    filter_upwards [(cos_level_countable σ 0 hσ').ae_notMem volume,
      (cos_level_countable σ x1 hσ').ae_notMem volume, (cos_level_countable σ x2 hσ').ae_notMem volume,
      (sin_level_countable σ 0 hσ').ae_notMem volume,
      (sin_level_countable σ y1 hσ').ae_notMem volume, (sin_level_countable σ y2 hσ').ae_notMem volume]
      with φ c0 c1 c2 s0 s1 s2 _
    change σ * cos φ ≠ 0 at c0
    change σ * cos φ ≠ x1 at c1
    change σ * cos φ ≠ x2 at c2
    change σ * sin φ ≠ 0 at s0
    change σ * sin φ ≠ y1 at s1
    change σ * sin φ ≠ y2 at s2
    have hX := stepInd_diff x1 x2 (σ * cos φ) hx c0 c1 c2
    have hY := stepInd_diff y1 y2 (σ * sin φ) hy s0 s1 s2
    have e : (rectangle a b).indicator (fun _ => (1 : ℝ)) (x0 + σ * cos φ, y0 + σ * sin φ) =
        (if x1 < σ * cos φ ∧ σ * cos φ < x2 then (1 : ℝ) else 0) *
        (if y1 < σ * sin φ ∧ σ * sin φ < y2 then (1 : ℝ) else 0) := by
      have i : ((x0 + σ * cos φ, y0 + σ * sin φ) ∈ rectangle a b) ↔
          (x1 < σ * cos φ ∧ σ * cos φ < x2) ∧ (y1 < σ * sin φ ∧ σ * sin φ < y2) := by
        simp only [rectangle, Set.mem_setOf_eq, x1, x2, y1, y2]
        constructor
        · rintro ⟨g1, g2, g3, g4⟩
          exact ⟨⟨by linarith, by linarith⟩, by linarith, by linarith⟩
        · rintro ⟨⟨g1, g2⟩, g3, g4⟩
          exact ⟨by linarith, by linarith, by linarith, by linarith⟩
      exact ind_and _ _ _ i
    rw [e, hX, hY]
    ring
  rw [intervalIntegral.integral_congr_ae hae]
  have i22 := stepInd_integrable x2 y2 σ (-π) π
  have i21 := stepInd_integrable x2 y1 σ (-π) π
  have i12 := stepInd_integrable x1 y2 σ (-π) π
  have i11 := stepInd_integrable x1 y1 σ (-π) π
  rw [intervalIntegral.integral_add ((i22.sub i21).sub i12) i11,
    intervalIntegral.integral_sub (i22.sub i21) i12, intervalIntegral.integral_sub i22 i21]
  simp only [stepInd_integral]

end Dream
