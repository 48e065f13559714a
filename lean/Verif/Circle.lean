import Mathlib.MeasureTheory.Integral.IntervalIntegral.Periodic
import Mathlib.MeasureTheory.Integral.IntervalIntegral.Basic
import Mathlib.Analysis.SpecialFunctions.Trigonometric.Inverse
import Mathlib.Analysis.SpecialFunctions.Complex.Arg

/-
Fraction of a circle that lies inside a set of the plane: the specification of the spatial impulse
response of a baffled piston (the part of the sphere of radius c*t around the observation point
that cuts the aperture).
-/

namespace Dream
open MeasureTheory Real

/-- Fraction of the circle with centre `(x0, y0)` and radius `s` that lies in `S`. -/
noncomputable def circleFraction (S : Set (ℝ × ℝ)) (x0 y0 s : ℝ) : ℝ :=
  (∫ φ in (-π)..π, S.indicator (fun _ => (1 : ℝ)) (x0 + s * cos φ, y0 + s * sin φ)) / (2 * π)

/-- Open disc around the origin. -/
def disc (r : ℝ) : Set (ℝ × ℝ) := {p | p.1 ^ 2 + p.2 ^ 2 < r ^ 2}

/-- The integral of an indicator of an interval inside `[-π, π]`. -/
theorem integral_Ioo_ind (a b : ℝ) (ha : -π ≤ a) (hab : a ≤ b) (hb : b ≤ π) :
    ∫ φ in (-π)..π, (Set.Ioo a b).indicator (fun _ => (1 : ℝ)) φ = b - a := by
  rw [intervalIntegral.integral_of_le (by linarith [pi_pos]),
    setIntegral_indicator measurableSet_Ioo]
  have : Set.Ioc (-π) π ∩ Set.Ioo a b = Set.Ioo a b := by
    ext x
    constructor
    · exact fun h => h.2
    · exact fun h => ⟨⟨lt_of_le_of_lt ha h.1, le_of_lt (lt_of_lt_of_le h.2 hb)⟩, h⟩
  rw [this, setIntegral_const, smul_eq_mul, mul_one, Real.volume_real_Ioo_of_le hab]

/-- A 2π-periodic integrand may be shifted. -/
theorem integral_shift (f : ℝ → ℝ) (hf : Function.Periodic f (2 * π)) (d : ℝ) :
    ∫ φ in (-π)..π, f (φ + d) = ∫ φ in (-π)..π, f φ := by
  rw [intervalIntegral.integral_comp_add_right (fun x => f x) d]
  have := hf.intervalIntegral_add_eq (-π + d) (-π)
  rw [show -π + d + 2 * π = π + d by ring, show -π + 2 * π = π by ring] at this
  exact this

/-- A 2π-periodic integrand may be reflected. -/
theorem integral_reflect (f : ℝ → ℝ) (hf : Function.Periodic f (2 * π)) (d : ℝ) :
    ∫ φ in (-π)..π, f (d - φ) = ∫ φ in (-π)..π, f φ := by
  rw [intervalIntegral.integral_comp_sub_left (fun x => f x) d]
  have := hf.intervalIntegral_add_eq (d - π) (-π)
  rw [show d - π + 2 * π = d + π by ring, show -π + 2 * π = π by ring] at this
  rw [show d - -π = d + π by ring]
  exact this

/-- Polar coordinates. -/
theorem polar (x y : ℝ) : ∃ φ, x = sqrt (x ^ 2 + y ^ 2) * cos φ ∧ y = sqrt (x ^ 2 + y ^ 2) * sin φ := by
  refine ⟨Complex.arg ⟨x, y⟩, ?_, ?_⟩
  · have h := Complex.norm_mul_cos_arg ⟨x, y⟩
    rw [Complex.norm_def, Complex.normSq_mk] at h
    simp only [← sq] at h
    exact h.symm
  · have h := Complex.norm_mul_sin_arg ⟨x, y⟩
    rw [Complex.norm_def, Complex.normSq_mk] at h
    simp only [← sq] at h
    exact h.symm

/-- The circle around a point at distance `rc` from the centre, by angle from the centre. -/
theorem circleFraction_disc (r x0 y0 s : ℝ) :
    circleFraction (disc r) x0 y0 s =
      (∫ φ in (-π)..π, {φ : ℝ | (sqrt (x0 ^ 2 + y0 ^ 2)) ^ 2 + s ^ 2 -
        2 * sqrt (x0 ^ 2 + y0 ^ 2) * s * cos φ < r ^ 2}.indicator (fun _ => (1 : ℝ)) φ) / (2 * π) := by
  obtain ⟨φ0, hx, hy⟩ := polar x0 y0
  set rc := sqrt (x0 ^ 2 + y0 ^ 2) with hrc
  unfold circleFraction
  congr 1
  set f : ℝ → ℝ := {φ : ℝ | rc ^ 2 + s ^ 2 - 2 * rc * s * cos φ < r ^ 2}.indicator (fun _ => (1 : ℝ))
    with hf
  have hper : Function.Periodic f (2 * π) := by
    intro φ
    simp only [hf, Set.indicator, Set.mem_setOf_eq, cos_add_two_pi]
  rw [← integral_shift f hper (-φ0 + π)]
  congr 1
  funext φ
  simp only [hf, Set.indicator, Set.mem_setOf_eq, disc]
  have e : (x0 + s * cos φ) ^ 2 + (y0 + s * sin φ) ^ 2 =
      rc ^ 2 + s ^ 2 - 2 * rc * s * cos (φ + (-φ0 + π)) := by
    rw [hx, hy, show φ + (-φ0 + π) = φ - φ0 + π by ring, cos_add_pi, cos_sub]
    have h1 := sin_sq_add_cos_sq φ
    have h2 := sin_sq_add_cos_sq φ0
    have : rc ^ 2 = rc ^ 2 * (sin φ0 ^ 2 + cos φ0 ^ 2) := by rw [h2, mul_one]
    have h3 : s ^ 2 = s ^ 2 * (sin φ ^ 2 + cos φ ^ 2) := by rw [h1, mul_one]
    nlinarith [this, h3]
  simp only [e]

/-- The whole circle is inside. -/
theorem fraction_full (r x0 y0 s : ℝ) (hs : 0 ≤ s) (h : sqrt (x0 ^ 2 + y0 ^ 2) + s < r) :
    circleFraction (disc r) x0 y0 s = 1 := by
  rw [circleFraction_disc]
  set rc := sqrt (x0 ^ 2 + y0 ^ 2)
  have hrc : 0 ≤ rc := sqrt_nonneg _
  have : {φ : ℝ | rc ^ 2 + s ^ 2 - 2 * rc * s * cos φ < r ^ 2} = Set.univ := by
    ext φ
    simp only [Set.mem_setOf_eq, Set.mem_univ, iff_true]
    have := neg_one_le_cos φ
    nlinarith [mul_nonneg hrc hs]
  rw [this]
  simp only [Set.indicator_univ, intervalIntegral.integral_const, smul_eq_mul, mul_one]
  rw [show π - -π = 2 * π by ring]
  exact div_self (by positivity)

/-- The circle is outside: too large or too far away. -/
theorem fraction_none (r x0 y0 s : ℝ) (hr : 0 ≤ r) (hs : 0 ≤ s)
    (h : sqrt (x0 ^ 2 + y0 ^ 2) + r ≤ s ∨ s + r ≤ sqrt (x0 ^ 2 + y0 ^ 2)) :
    circleFraction (disc r) x0 y0 s = 0 := by
  rw [circleFraction_disc]
  set rc := sqrt (x0 ^ 2 + y0 ^ 2)
  have hrc : 0 ≤ rc := sqrt_nonneg _
  have : {φ : ℝ | rc ^ 2 + s ^ 2 - 2 * rc * s * cos φ < r ^ 2} = ∅ := by
    ext φ
    simp only [Set.mem_setOf_eq, Set.mem_empty_iff_false, iff_false, not_lt]
    have := cos_le_one φ
    have h2 := mul_nonneg hrc hs
    have h3 : rc * s * cos φ ≤ rc * s := by nlinarith
    rcases h with h | h
    · nlinarith
    · nlinarith
  rw [this]
  simp

/-- The argument of the arc cosine is in its domain. -/
theorem arc_arg_range (r rc s : ℝ) (hrc : 0 < rc) (hs : 0 < s) (h1 : |r - rc| ≤ s)
    (h2 : s ≤ r + rc) :
    -1 ≤ (s ^ 2 + rc ^ 2 - r ^ 2) / (2 * rc * s) ∧ (s ^ 2 + rc ^ 2 - r ^ 2) / (2 * rc * s) ≤ 1 := by
  have hpos : 0 < 2 * rc * s := by positivity
  obtain ⟨h3, h4⟩ := abs_le.mp h1
  rw [le_div_iff₀ hpos, div_le_iff₀ hpos]
  constructor
  · nlinarith
  · nlinarith

/-- Part of the circle is inside. -/
theorem fraction_part (r x0 y0 s : ℝ) (hrc : 0 < sqrt (x0 ^ 2 + y0 ^ 2)) (hs : 0 < s)
    (h1 : |r - sqrt (x0 ^ 2 + y0 ^ 2)| ≤ s) (h2 : s ≤ r + sqrt (x0 ^ 2 + y0 ^ 2)) :
    circleFraction (disc r) x0 y0 s =
      arccos ((s ^ 2 + (sqrt (x0 ^ 2 + y0 ^ 2)) ^ 2 - r ^ 2) / (2 * sqrt (x0 ^ 2 + y0 ^ 2) * s)) / π := by
  rw [circleFraction_disc]
  set rc := sqrt (x0 ^ 2 + y0 ^ 2)
  obtain ⟨g1, g2⟩ := arc_arg_range r rc s hrc hs h1 h2
  set x := (s ^ 2 + rc ^ 2 - r ^ 2) / (2 * rc * s) with hx
  have hpos : 0 < 2 * rc * s := by positivity
  have hxm : x * (2 * rc * s) = s ^ 2 + rc ^ 2 - r ^ 2 := by rw [hx]; field_simp
  have hθ0 := arccos_nonneg x
  have hθπ := arccos_le_pi x
  have hcong : ∫ φ in (-π)..π, {φ : ℝ | rc ^ 2 + s ^ 2 - 2 * rc * s * cos φ < r ^ 2}.indicator
        (fun _ => (1 : ℝ)) φ =
      ∫ φ in (-π)..π, (Set.Ioo (-arccos x) (arccos x)).indicator (fun _ => (1 : ℝ)) φ := by
    refine intervalIntegral.integral_congr ?_
    intro φ hφ
    rw [Set.uIcc_of_le (by linarith [pi_pos])] at hφ
    have habs : |φ| ≤ π := abs_le.mpr hφ
    have key : (rc ^ 2 + s ^ 2 - 2 * rc * s * cos φ < r ^ 2) ↔ (-arccos x < φ ∧ φ < arccos x) := by
      rw [← abs_lt]
      have e1 : (rc ^ 2 + s ^ 2 - 2 * rc * s * cos φ < r ^ 2) ↔ x < cos φ := by
        constructor
        · intro h
          by_contra hc
          push Not at hc
          nlinarith [mul_le_mul_of_nonneg_right hc hpos.le]
        · intro h
          nlinarith [mul_lt_mul_of_pos_right h hpos]
      rw [e1, ← cos_abs φ]
      conv_lhs => rw [← cos_arccos g1 g2]
      exact strictAntiOn_cos.lt_iff_gt ⟨hθ0, hθπ⟩ ⟨abs_nonneg φ, habs⟩
    simp only [Set.indicator, Set.mem_setOf_eq, Set.mem_Ioo]
    by_cases hk : rc ^ 2 + s ^ 2 - 2 * rc * s * cos φ < r ^ 2
    · rw [if_pos hk, if_pos (key.mp hk)]
    · rw [if_neg hk, if_neg (fun g => hk (key.mpr g))]
  rw [hcong, integral_Ioo_ind _ _ (by linarith) (by linarith) hθπ]
  rw [show arccos x - -arccos x = 2 * arccos x by ring, mul_div_mul_left _ _ two_ne_zero]

end Dream
