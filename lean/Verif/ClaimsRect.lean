import Verif.RectCircle
import Verif.ClaimsCirc

/-
C34: the analytic rectangular response.
-/

namespace Dream
open Arith

section Core
variable (z cp t : ℝ)

theorem tau_le (q : ℝ) (hcp : 0 < cp) (ht : 0 ≤ cp * t) :
    Real.sqrt q / cp ≤ t ↔ q ≤ (cp * t) ^ 2 := by
  rw [div_le_iff₀ hcp, mul_comm t cp, Real.sqrt_le_left ht]

theorem le_tau (q : ℝ) (hcp : 0 < cp) (hq : 0 ≤ q) (ht : 0 ≤ cp * t) :
    t ≤ Real.sqrt q / cp ↔ (cp * t) ^ 2 ≤ q := by
  rw [le_div_iff₀ hcp, mul_comm t cp, Real.le_sqrt ht hq]

theorem cut_eq (hcp : 0 < cp) :
    cp * Real.sqrt (t * t - z / cp * (z / cp)) = cutRadius z cp t := by
  unfold cutRadius
  have : (cp * t) ^ 2 - z ^ 2 = cp ^ 2 * (t * t - z / cp * (z / cp)) := by
    field_simp
  rw [this, Real.sqrt_mul (by positivity), Real.sqrt_sq hcp.le]

/-- Before the plane wave arrival a corner contributes nothing. -/
theorem corner_before (s l : ℝ) (hz : 0 ≤ z) (hcp : 0 < cp) (h : cp * t < z) :
    rectCorner z s l cp t = 0 := by
  have h1 : ¬ z / cp ≤ t := by
    rw [div_le_iff₀ hcp, mul_comm]; linarith
  have aux : ∀ q : ℝ, z * z ≤ q → ¬ Real.sqrt q / cp ≤ t := by
    intro q hq g
    apply h1
    refine le_trans (div_le_div_of_nonneg_right ?_ hcp.le) g
    apply Real.le_sqrt_of_sq_le
    rw [sq]; exact hq
  have h2 := aux (z * z + s * s) (by nlinarith [mul_self_nonneg s])
  have h3 := aux (z * z + l * l) (by nlinarith [mul_self_nonneg l])
  simp only [rectCorner, fle_real, r_div, r_mul, r_add, r_sqrt, r_lit, h1, h2, h3, false_and, if_false]
  simp

/-- After the plane wave arrival a corner contributes `cp` times the fraction of the circle in the
quarter rectangle. -/
theorem corner_after (s l : ℝ) (hz : 0 ≤ z) (hcp : 0 < cp) (hs : 0 ≤ s) (hl : 0 ≤ l) (h : z < cp * t) :
    rectCorner z s l cp t = cp * circleFraction (quadrant s l) 0 0 (cutRadius z cp t) := by
  have ht : 0 ≤ cp * t := by linarith
  have hσ2 := cutRadius_sq z cp t hz h.le
  have hσ : 0 < cutRadius z cp t := by
    unfold cutRadius
    apply Real.sqrt_pos.mpr
    nlinarith
  have e1 : z / cp ≤ t := by rw [div_le_iff₀ hcp, mul_comm]; exact h.le
  have e2 : Real.sqrt (z * z + s * s) / cp ≤ t ↔ s ≤ cutRadius z cp t := by
    rw [tau_le cp t _ hcp ht]
    constructor
    · intro g; exact le_of_sq_le_sq (by rw [hσ2]; nlinarith) hσ.le
    · intro g; nlinarith
  have e3 : Real.sqrt (z * z + l * l) / cp ≤ t ↔ l ≤ cutRadius z cp t := by
    rw [tau_le cp t _ hcp ht]
    constructor
    · intro g; exact le_of_sq_le_sq (by rw [hσ2]; nlinarith) hσ.le
    · intro g; nlinarith
  have e4 : t ≤ Real.sqrt (z * z + l * l + s * s) / cp ↔ cutRadius z cp t ^ 2 ≤ s ^ 2 + l ^ 2 := by
    rw [le_tau cp t _ hcp (by positivity) ht, hσ2]
    constructor <;> intro g <;> nlinarith
  rw [quadrant_fraction s l _ hs hl hσ]
  have hpi := Real.pi_pos
  simp only [rectCorner, fle_real, r_div, r_mul, r_add, r_sub, r_sqrt, r_lit, r_acos, r_pi, cut_eq z cp t hcp,
    e1, e2, e3, e4, true_and]
  set σ := cutRadius z cp t
  push_cast
  have za : ∀ x : ℝ, ¬ x ≤ σ → Real.arccos (x / σ) = 0 := by
    intro x hx
    apply Real.arccos_of_one_le
    rw [one_le_div hσ]
    linarith
  by_cases hd : σ ^ 2 ≤ s ^ 2 + l ^ 2
  · rw [max_eq_right (diagonal_le s l σ hs hl hσ hd)]
    simp only [hd, and_true, if_true]
    split_ifs with g1 g2 g2
    · field_simp; ring
    · rw [za s g2]; field_simp; ring
    · rw [za l g1]; field_simp; ring
    · rw [za s g2, za l g1]; field_simp; ring
  · rw [max_eq_left (diagonal_ge s l σ hl hσ (by linarith))]
    simp [hd]

/-- At the plane wave arrival. -/
theorem corner_at (s l : ℝ) (hz : 0 ≤ z) (hcp : 0 < cp) (hs : 0 < s) (hl : 0 < l) (h : cp * t = z) :
    rectCorner z s l cp t = cp / 4 := by
  have ht : 0 ≤ cp * t := by linarith
  have e1 : z / cp ≤ t := by rw [div_le_iff₀ hcp, mul_comm]; exact h.ge
  have e2 : ¬ Real.sqrt (z * z + s * s) / cp ≤ t := by
    rw [tau_le cp t _ hcp ht, h]; nlinarith
  have e3 : ¬ Real.sqrt (z * z + l * l) / cp ≤ t := by
    rw [tau_le cp t _ hcp ht, h]; nlinarith
  have e4 : t ≤ Real.sqrt (z * z + l * l + s * s) / cp := by
    rw [le_tau cp t _ hcp (by positivity) ht, h]; nlinarith
  simp only [rectCorner, fle_real, r_div, r_mul, r_add, r_sub, r_sqrt, r_lit, r_acos, r_pi,
    e1, e2, e3, e4, true_and, and_true, if_true, false_and, if_false]
  push_cast
  ring

end Core

section Geometry
open Real

/-- The rectangle is symmetric. -/
theorem rectangle_symm (a b x0 y0 σ : ℝ) :
    circleFraction (rectangle a b) x0 y0 σ = circleFraction (rectangle a b) |x0| |y0| σ := by
  unfold circleFraction
  congr 1
  have := reflect_integral (fun u w => (rectangle a b).indicator (fun _ => (1 : ℝ))
    (|x0| + σ * u, |y0| + σ * w)) x0 y0
  rw [← this]
  congr 1
  funext φ
  have i : ((x0 + σ * Real.cos φ, y0 + σ * Real.sin φ) ∈ rectangle a b) ↔
      ((|x0| + σ * (sg x0 * Real.cos φ), |y0| + σ * (sg y0 * Real.sin φ)) ∈ rectangle a b) := by
    have ax : ∀ x u c : ℝ, (-(c / 2) < x + σ * u ∧ x + σ * u < c / 2) ↔
        (-(c / 2) < |x| + σ * (sg x * u) ∧ |x| + σ * (sg x * u) < c / 2) := by
      intro x u c
      unfold sg
      by_cases hx : 0 ≤ x
      · rw [if_pos hx, abs_of_nonneg hx, one_mul]
      · rw [if_neg hx, abs_of_neg (not_le.mp hx)]
        constructor <;> rintro ⟨g1, g2⟩ <;> constructor <;> linarith
    have hx := ax x0 (Real.cos φ) a
    have hy := ax y0 (Real.sin φ) b
    constructor
    · rintro ⟨g1, g2, g3, g4⟩
      exact ⟨(hx.mp ⟨g1, g2⟩).1, (hx.mp ⟨g1, g2⟩).2, (hy.mp ⟨g3, g4⟩).1, (hy.mp ⟨g3, g4⟩).2⟩
    · rintro ⟨g1, g2, g3, g4⟩
      exact ⟨(hx.mpr ⟨g1, g2⟩).1, (hx.mpr ⟨g1, g2⟩).2, (hy.mpr ⟨g3, g4⟩).1, (hy.mpr ⟨g3, g4⟩).2⟩
  by_cases h : (x0 + σ * Real.cos φ, y0 + σ * Real.sin φ) ∈ rectangle a b
  · rw [Set.indicator_of_mem h, Set.indicator_of_mem (i.mp h)]
  · rw [Set.indicator_of_notMem h, Set.indicator_of_notMem (fun g => h (i.mpr g))]

theorem quadrant_zero_left (l σ : ℝ) : circleFraction (quadrant 0 l) 0 0 σ = 0 := by
  have : quadrant 0 l = ∅ := by
    ext p
    simp only [quadrant, Set.mem_setOf_eq, Set.mem_empty_iff_false, iff_false]
    rintro ⟨g1, g2, _⟩
    linarith
  simp [circleFraction, this]

theorem quadrant_zero_right (s σ : ℝ) : circleFraction (quadrant s 0) 0 0 σ = 0 := by
  have : quadrant s 0 = ∅ := by
    ext p
    simp only [quadrant, Set.mem_setOf_eq, Set.mem_empty_iff_false, iff_false]
    rintro ⟨_, _, g1, g2⟩
    linarith
  simp [circleFraction, this]

theorem signedQuarter_eq (c d σ : ℝ) :
    signedQuarter c d σ / (2 * π) = sg c * sg d * circleFraction (quadrant |c| |d|) 0 0 σ := by
  unfold signedQuarter circleFraction
  simp only [zero_add]
  ring

theorem sg_pos {c : ℝ} (h : 0 ≤ c) : sg c = 1 := if_pos h

/-- Signed quarters with the sign taken as negative at zero as well. -/
theorem signedQuarter_np (c d σ : ℝ) (hc : c ≤ 0) (hd : 0 ≤ d) :
    signedQuarter c d σ / (2 * π) = - circleFraction (quadrant |c| |d|) 0 0 σ := by
  rw [signedQuarter_eq, sg_pos hd]
  rcases lt_or_eq_of_le hc with h | h
  · rw [sg, if_neg (not_le.mpr h)]; ring
  · rw [h, abs_zero, quadrant_zero_left]; ring

theorem signedQuarter_pp (c d σ : ℝ) (hc : 0 ≤ c) (hd : 0 ≤ d) :
    signedQuarter c d σ / (2 * π) = circleFraction (quadrant |c| |d|) 0 0 σ := by
  rw [signedQuarter_eq, sg_pos hd, sg_pos hc]; ring

theorem signedQuarter_pn (c d σ : ℝ) (hc : 0 ≤ c) (hd : d ≤ 0) :
    signedQuarter c d σ / (2 * π) = - circleFraction (quadrant |c| |d|) 0 0 σ := by
  rw [signedQuarter_eq, sg_pos hc]
  rcases lt_or_eq_of_le hd with h | h
  · rw [sg, if_neg (not_le.mpr h)]; ring
  · rw [h, abs_zero, quadrant_zero_right]; ring

theorem signedQuarter_nn (c d σ : ℝ) (hc : c ≤ 0) (hd : d ≤ 0) :
    signedQuarter c d σ / (2 * π) = circleFraction (quadrant |c| |d|) 0 0 σ := by
  rw [signedQuarter_eq]
  rcases lt_or_eq_of_le hc with h | h
  · rcases lt_or_eq_of_le hd with h' | h'
    · rw [sg, if_neg (not_le.mpr h), sg, if_neg (not_le.mpr h')]; ring
    · rw [h', abs_zero, quadrant_zero_right]; ring
  · rw [h, abs_zero, quadrant_zero_left]; ring

/-- A circle of radius zero. -/
theorem circleFraction_zero (S : Set (ℝ × ℝ)) (x y : ℝ) :
    circleFraction S x y 0 = S.indicator (fun _ => (1 : ℝ)) (x, y) := by
  unfold circleFraction
  simp only [zero_mul, add_zero, intervalIntegral.integral_const, smul_eq_mul]
  have := pi_pos
  rw [show π - -π = 2 * π by ring]
  field_simp

end Geometry

section Sum
open Real

/-- The four contributions of the source for a point at `(X, Y)` with `X, Y ≥ 0` (in metres). -/
noncomputable def rectSum (X Y z a b cp t : ℝ) : ℝ :=
  (subRect X Y a b 1).2.2 * rectCorner z (subRect X Y a b 1).1 (subRect X Y a b 1).2.1 cp t +
  (subRect X Y a b 2).2.2 * rectCorner z (subRect X Y a b 2).1 (subRect X Y a b 2).2.1 cp t +
  (subRect X Y a b 3).2.2 * rectCorner z (subRect X Y a b 3).1 (subRect X Y a b 3).2.1 cp t +
  (subRect X Y a b 4).2.2 * rectCorner z (subRect X Y a b 4).1 (subRect X Y a b 4).2.1 cp t

theorem rectSum_before (X Y z a b cp t : ℝ) (hz : 0 ≤ z) (hcp : 0 < cp) (h : cp * t < z) :
    rectSum X Y z a b cp t = 0 := by
  unfold rectSum
  rw [corner_before z cp t _ _ hz hcp h, corner_before z cp t _ _ hz hcp h,
    corner_before z cp t _ _ hz hcp h, corner_before z cp t _ _ hz hcp h]
  ring

/-- What the source computes from a corner function `q`, by region. -/
noncomputable def rectCombine (q : ℝ → ℝ → ℝ) (X Y a b : ℝ) : ℝ :=
  if a / 2 < X then
    if b / 2 < Y then q |a/2 - X| |b/2 - Y| - q |a/2 + X| |b/2 - Y| + q |a/2 + X| |b/2 + Y|
      - q |a/2 - X| |b/2 + Y|
    else - q |a/2 - X| |b/2 - Y| + q |a/2 + X| |b/2 - Y| + q |a/2 + X| |b/2 + Y|
      - q |a/2 - X| |b/2 + Y|
  else
    if b / 2 < Y then - q |a/2 - X| |b/2 - Y| - q |a/2 + X| |b/2 - Y| + q |a/2 + X| |b/2 + Y|
      + q |a/2 - X| |b/2 + Y|
    else q |a/2 - X| |b/2 - Y| + q |a/2 + X| |b/2 - Y| + q |a/2 + X| |b/2 + Y|
      + q |a/2 - X| |b/2 - Y|

theorem rectSum_eq (X Y z a b cp t : ℝ) :
    rectSum X Y z a b cp t = rectCombine (fun s l => rectCorner z s l cp t) X Y a b := by
  unfold rectSum rectCombine subRect
  simp only [flt_real, fle_real, r_div, r_lit, r_abs, r_sub, r_add]
  push_cast
  by_cases hx : a / 2 < X <;> by_cases hy : b / 2 < Y
  · simp only [hx, hy, and_self, if_true]
    rw [abs_sub_comm X, abs_sub_comm Y, add_comm Y]
    ring
  · simp only [hx, hy, not_lt.mp hy, and_true, and_false, if_true, if_false]
    rw [abs_sub_comm X]
    ring
  · simp only [hx, hy, not_lt.mp hx, and_true, and_false, false_and, if_true, if_false]
    rw [abs_sub_comm Y]
    ring
  · simp only [hx, hy, not_lt.mp hx, not_lt.mp hy, and_true, and_false, if_true, if_false]
    rw [add_comm X, add_comm Y]
    ring

/-- The fraction of the circle on the rectangle, by region, for `X, Y ≥ 0`. -/
theorem rectangle_regions (a b X Y σ : ℝ) (ha : 0 ≤ a) (hb : 0 ≤ b) (hX : 0 ≤ X) (hY : 0 ≤ Y)
    (hσ : 0 < σ) (Q : ℝ → ℝ → ℝ) (hQ : Q = fun s l => circleFraction (quadrant s l) 0 0 σ) :
    circleFraction (rectangle a b) X Y σ =
      rectCombine Q X Y a b +
        (if X ≤ a / 2 ∧ Y ≤ b / 2 then
          Q |a / 2 - X| |b / 2 + Y| - Q |a / 2 - X| |b / 2 - Y| else 0) := by
  rw [rectangle_fraction a b X Y σ ha hb hσ, add_div, sub_div, sub_div]
  have n1 : -(a / 2) - X ≤ 0 := by linarith
  have n2 : -(b / 2) - Y ≤ 0 := by linarith
  have q1 : |-(a / 2) - X| = |a / 2 + X| := by
    rw [show -(a / 2) - X = -(a / 2 + X) by ring, abs_neg]
  have q2 : |-(b / 2) - Y| = |b / 2 + Y| := by
    rw [show -(b / 2) - Y = -(b / 2 + Y) by ring, abs_neg]
  unfold rectCombine
  rw [signedQuarter_nn _ _ _ n1 n2]
  by_cases hx : a / 2 < X <;> by_cases hy : b / 2 < Y
  · rw [signedQuarter_nn _ _ _ (by linarith) (by linarith),
      signedQuarter_nn _ _ _ (by linarith) n2, signedQuarter_nn _ _ _ n1 (by linarith), q1, q2,
      if_pos hx, if_pos hy, if_neg (fun g => by linarith [g.1]), hQ]
    ring
  · rw [signedQuarter_np _ _ _ (by linarith) (by linarith),
      signedQuarter_nn _ _ _ (by linarith) n2, signedQuarter_np _ _ _ n1 (by linarith), q1, q2,
      if_pos hx, if_neg hy, if_neg (fun g => by linarith [g.1]), hQ]
    ring
  · rw [signedQuarter_pn _ _ _ (by linarith) (by linarith),
      signedQuarter_pn _ _ _ (by linarith) n2, signedQuarter_nn _ _ _ n1 (by linarith), q1, q2,
      if_neg hx, if_pos hy, if_neg (fun g => by linarith [g.2]), hQ]
    ring
  · rw [signedQuarter_pp _ _ _ (by linarith) (by linarith),
      signedQuarter_pn _ _ _ (by linarith) n2, signedQuarter_np _ _ _ n1 (by linarith), q1, q2,
      if_neg hx, if_neg hy, if_pos ⟨by linarith, by linarith⟩, hQ]
    ring

/-- Fraction of the circle of radius `σ` around the origin in the quarter rectangle with corner
`(s, l)`. -/
noncomputable def quarterFraction (s l σ : ℝ) : ℝ := circleFraction (quadrant s l) 0 0 σ

theorem rectCombine_scale (q q' : ℝ → ℝ → ℝ) (c X Y a b : ℝ)
    (h : ∀ s l, 0 ≤ s → 0 ≤ l → q s l = c * q' s l) :
    rectCombine q X Y a b = c * rectCombine q' X Y a b := by
  unfold rectCombine
  simp only [h _ _ (abs_nonneg _) (abs_nonneg _)]
  split_ifs <;> ring

/-- The response computed by the source, after the plane wave arrival. -/
theorem rectSum_after (x0 y0 z a b cp t : ℝ) (hz : 0 ≤ z) (hcp : 0 < cp) (ha : 0 ≤ a) (hb : 0 ≤ b)
    (h : z < cp * t) :
    rectSum |x0| |y0| z a b cp t =
      cp * (circleFraction (rectangle a b) x0 y0 (cutRadius z cp t) +
        (if |x0| ≤ a / 2 ∧ |y0| ≤ b / 2 then
          quarterFraction (a / 2 - |x0|) (b / 2 - |y0|) (cutRadius z cp t) -
          quarterFraction (a / 2 - |x0|) (b / 2 + |y0|) (cutRadius z cp t) else 0)) := by
  have hσ : 0 < cutRadius z cp t := by
    unfold cutRadius
    apply Real.sqrt_pos.mpr
    nlinarith
  rw [rectSum_eq, rectCombine_scale _ (fun s l => circleFraction (quadrant s l) 0 0 (cutRadius z cp t)) cp
    _ _ _ _ (fun s l hs hl => corner_after z cp t s l hz hcp hs hl h),
    rectangle_symm, rectangle_regions a b |x0| |y0| _ ha hb (abs_nonneg _) (abs_nonneg _) hσ _ rfl]
  congr 1
  by_cases g : |x0| ≤ a / 2 ∧ |y0| ≤ b / 2
  · have e1 : (_root_.abs (a / 2 - |x0|)) = a / 2 - |x0| := abs_of_nonneg (by linarith [g.1])
    have e2 : (_root_.abs (b / 2 - |y0|)) = b / 2 - |y0| := abs_of_nonneg (by linarith [g.2])
    have e3 : (_root_.abs (b / 2 + |y0|)) = b / 2 + |y0| := abs_of_nonneg (by positivity)
    simp only [if_pos g, e1, e2, e3, quarterFraction]
    ring
  · simp only [if_neg g]
    ring

/-- At the plane wave arrival. -/
theorem rectSum_at (x0 y0 z a b cp t : ℝ) (hz : 0 ≤ z) (hcp : 0 < cp) (ha : 0 < a) (hb : 0 < b)
    (h : cp * t = z) (hx : |x0| ≠ a / 2) (hy : |y0| ≠ b / 2) :
    rectSum |x0| |y0| z a b cp t = cp * circleFraction (rectangle a b) x0 y0 (cutRadius z cp t) := by
  have hσ : cutRadius z cp t = 0 := by unfold cutRadius; rw [h]; simp
  have px : 0 < (_root_.abs (a / 2 - |x0|)) := abs_pos.mpr (fun g => hx (by linarith))
  have py : 0 < (_root_.abs (b / 2 - |y0|)) := abs_pos.mpr (fun g => hy (by linarith))
  have px' : 0 < (_root_.abs (a / 2 + |x0|)) := by positivity
  have py' : 0 < (_root_.abs (b / 2 + |y0|)) := by positivity
  rw [rectSum_eq, rectangle_symm, hσ, circleFraction_zero]
  unfold rectCombine
  simp only [corner_at z cp t _ _ hz hcp px py h, corner_at z cp t _ _ hz hcp px' py h,
    corner_at z cp t _ _ hz hcp px py' h, corner_at z cp t _ _ hz hcp px' py' h]
  have h1 := abs_nonneg x0
  have h2 := abs_nonneg y0
  by_cases hx' : a / 2 < |x0| <;> by_cases hy' : b / 2 < |y0|
  · rw [if_pos hx', if_pos hy', Set.indicator_of_notMem (fun g => by linarith [g.2.1])]; ring
  · rw [if_pos hx', if_neg hy', Set.indicator_of_notMem (fun g => by linarith [g.2.1])]; ring
  · rw [if_neg hx', if_pos hy', Set.indicator_of_notMem (fun g => by linarith [g.2.2.2])]; ring
  · have k1 : |x0| < a / 2 := lt_of_le_of_ne (not_lt.mp hx') hx
    have k2 : |y0| < b / 2 := lt_of_le_of_ne (not_lt.mp hy') hy
    rw [if_neg hx', if_neg hy', Set.indicator_of_mem (show (|x0|, |y0|) ∈ rectangle a b from
      ⟨by simp only; linarith, k1, by simp only; linarith, k2⟩)]; ring

end Sum

section C34
variable {C : AnaCall ℝ} {H : Buf ℝ}

theorem rectSample_real (a b : ℝ) (hk : C.kind = .rect a b) (n it : ℕ) :
    C.sample n it = rectSum |C.xo n / 1000| |C.yo n / 1000| (C.zo n / 1000) (a / 1000) (b / 1000)
      C.cp (C.time n it) := by
  unfold AnaCall.sample
  rw [hk]
  simp only []
  unfold rectSample rectTerm rectSum
  rw [toM_real, toM_real, toM_real, toM_real, toM_real, sampleTime_real, r_abs, r_abs, r_lit, Rat.cast_zero]
  have e : ∀ x : ℝ, |x| / 1000 = |x / 1000| := fun x => by rw [abs_div]; norm_num
  rw [e, e]
  simp only [r_add, r_mul, zero_add]
  rfl

/-- C34: for a point whose projection is outside the aperture, in exact arithmetic and for every
thread count and schedule, sample `it` of the rectangular response is zero before the wave front
reaches the aperture plane and then `cp` times the fraction of the circle, cut out of that plane by
the sphere of radius `cp*t` around the point, that lies on the aperture (no factor `v`). -/
theorem C34_outside (a b : ℝ) (hk : C.kind = .rect a b) (h : C.Sized H) (ha : 0 < a) (hb : 0 < b)
    (hcp : 0 < C.cp) (nth : ℕ) (h1 : 1 ≤ nth) (as : List Act) (hab : Act.abort ∉ as)
    (s' : Sys ℝ (Prog ℝ SIRError)) (hrun : C.drv.Run nth H as s')
    (n : ℕ) (hn : n < C.No) (it : ℕ) (hit : it < C.nt) (hz : 0 ≤ C.zo n)
    (hout : ¬ (|C.xo n| ≤ a / 2 ∧ |C.yo n| ≤ b / 2))
    (hx : ¬ (C.cp * C.time n it = C.zo n / 1000 ∧ (|C.xo n| = a / 2 ∨ |C.yo n| = b / 2))) :
    s'.mem.data (n * C.nt + it) =
      if C.cp * C.time n it < C.zo n / 1000 then 0
      else C.cp * circleFraction (rectangle (a / 1000) (b / 1000)) (C.xo n / 1000) (C.yo n / 1000)
        (Real.sqrt ((C.cp * C.time n it) ^ 2 - (C.zo n / 1000) ^ 2)) := by
  rw [AnaCall.run_samples h nth h1 as hab s' hrun n hn it hit, rectSample_real a b hk]
  have hz' : 0 ≤ C.zo n / 1000 := by positivity
  have e : ∀ x : ℝ, |x / 1000| = |x| / 1000 := fun x => by rw [abs_div]; norm_num
  split
  · next g => exact rectSum_before _ _ _ _ _ _ _ hz' hcp g
  · next g =>
    rcases lt_or_eq_of_le (not_lt.mp g) with g' | g'
    · rw [rectSum_after _ _ _ _ _ _ _ hz' hcp (by positivity) (by positivity) g', if_neg, add_zero]
      · rfl
      · rw [e, e]
        exact fun k => hout ⟨by linarith [k.1], by linarith [k.2]⟩
    · rw [rectSum_at _ _ _ _ _ _ _ hz' hcp (by positivity) (by positivity) g'.symm]
      · rfl
      · rw [e]; exact fun k => hx ⟨g'.symm, Or.inl (by linarith)⟩
      · rw [e]; exact fun k => hx ⟨g'.symm, Or.inr (by linarith)⟩

/-- C34: for a point whose projection is inside the aperture the sample is the true value plus an
error term: the quarter rectangle between the point and the corner on the far side in `y` is
replaced by the one on the near side. -/
theorem C34_inside (a b : ℝ) (hk : C.kind = .rect a b) (h : C.Sized H) (ha : 0 < a) (hb : 0 < b)
    (hcp : 0 < C.cp) (nth : ℕ) (h1 : 1 ≤ nth) (as : List Act) (hab : Act.abort ∉ as)
    (s' : Sys ℝ (Prog ℝ SIRError)) (hrun : C.drv.Run nth H as s')
    (n : ℕ) (hn : n < C.No) (it : ℕ) (hit : it < C.nt) (hz : 0 ≤ C.zo n)
    (hx : |C.xo n| ≤ a / 2) (hy : |C.yo n| ≤ b / 2)
    (ht : C.zo n / 1000 < C.cp * C.time n it)
    (σ : ℝ) (hσ : σ = Real.sqrt ((C.cp * C.time n it) ^ 2 - (C.zo n / 1000) ^ 2)) :
    s'.mem.data (n * C.nt + it) =
      C.cp * circleFraction (rectangle (a / 1000) (b / 1000)) (C.xo n / 1000) (C.yo n / 1000) σ +
      C.cp * (quarterFraction ((a / 2 - |C.xo n|) / 1000) ((b / 2 - |C.yo n|) / 1000) σ -
        quarterFraction ((a / 2 - |C.xo n|) / 1000) ((b / 2 + |C.yo n|) / 1000) σ) := by
  rw [AnaCall.run_samples h nth h1 as hab s' hrun n hn it hit, rectSample_real a b hk]
  have hz' : 0 ≤ C.zo n / 1000 := by positivity
  have e : ∀ x : ℝ, |x / 1000| = |x| / 1000 := fun x => by rw [abs_div]; norm_num
  rw [rectSum_after _ _ _ _ _ _ _ hz' hcp (by positivity) (by positivity) ht, if_pos, mul_add]
  · rw [e, e, hσ]
    unfold cutRadius
    rw [show a / 1000 / 2 - |C.xo n| / 1000 = (a / 2 - |C.xo n|) / 1000 by ring,
      show b / 1000 / 2 - |C.yo n| / 1000 = (b / 2 - |C.yo n|) / 1000 by ring,
      show b / 1000 / 2 + |C.yo n| / 1000 = (b / 2 + |C.yo n|) / 1000 by ring]
  · rw [e, e]
    exact ⟨by linarith, by linarith⟩

/-- C34: hence the response is right for points above the `x` axis of the aperture. -/
theorem C34_on_axis (a b : ℝ) (hk : C.kind = .rect a b) (h : C.Sized H) (ha : 0 < a) (hb : 0 < b)
    (hcp : 0 < C.cp) (nth : ℕ) (h1 : 1 ≤ nth) (as : List Act) (hab : Act.abort ∉ as)
    (s' : Sys ℝ (Prog ℝ SIRError)) (hrun : C.drv.Run nth H as s')
    (n : ℕ) (hn : n < C.No) (it : ℕ) (hit : it < C.nt) (hz : 0 ≤ C.zo n)
    (hx : |C.xo n| ≤ a / 2) (hy : C.yo n = 0 ∨ |C.xo n| = a / 2) (hy' : |C.yo n| ≤ b / 2)
    (ht : C.zo n / 1000 < C.cp * C.time n it) :
    s'.mem.data (n * C.nt + it) =
      C.cp * circleFraction (rectangle (a / 1000) (b / 1000)) (C.xo n / 1000) (C.yo n / 1000)
        (Real.sqrt ((C.cp * C.time n it) ^ 2 - (C.zo n / 1000) ^ 2)) := by
  rw [C34_inside a b hk h ha hb hcp nth h1 as hab s' hrun n hn it hit hz hx hy' ht _ rfl]
  rcases hy with g | g
  · rw [g]; simp
  · rw [g]
    unfold quarterFraction
    simp [quadrant_zero_left]

/-- C34: and wrong, too small, for every other point above the aperture, at every time from the
first arrival at the near long side until the circle reaches the far long side or leaves the corner
rectangle. -/
theorem C34_inside_wrong (a b : ℝ) (hk : C.kind = .rect a b) (h : C.Sized H) (ha : 0 < a) (hb : 0 < b)
    (hcp : 0 < C.cp) (nth : ℕ) (h1 : 1 ≤ nth) (as : List Act) (hab : Act.abort ∉ as)
    (s' : Sys ℝ (Prog ℝ SIRError)) (hrun : C.drv.Run nth H as s')
    (n : ℕ) (hn : n < C.No) (it : ℕ) (hit : it < C.nt) (hz : 0 ≤ C.zo n)
    (hx : |C.xo n| < a / 2) (hy : |C.yo n| ≤ b / 2)
    (ht : C.zo n / 1000 < C.cp * C.time n it)
    (σ : ℝ) (hσ : σ = Real.sqrt ((C.cp * C.time n it) ^ 2 - (C.zo n / 1000) ^ 2))
    (h2 : (b / 2 - |C.yo n|) / 1000 < σ) (h3 : σ ≤ (b / 2 + |C.yo n|) / 1000)
    (h4 : σ ^ 2 ≤ ((a / 2 - |C.xo n|) / 1000) ^ 2 + ((b / 2 - |C.yo n|) / 1000) ^ 2) :
    s'.mem.data (n * C.nt + it) <
      C.cp * circleFraction (rectangle (a / 1000) (b / 1000)) (C.xo n / 1000) (C.yo n / 1000) σ := by
  rw [C34_inside a b hk h ha hb hcp nth h1 as hab s' hrun n hn it hit hz hx.le hy ht σ hσ]
  set S := (a / 2 - |C.xo n|) / 1000
  set L1 := (b / 2 - |C.yo n|) / 1000
  set L2 := (b / 2 + |C.yo n|) / 1000
  have hS : 0 ≤ S := by simp only [S]; apply div_nonneg <;> linarith
  have hL1 : 0 ≤ L1 := by simp only [L1]; apply div_nonneg <;> linarith
  have hσ0 : 0 < σ := by linarith
  have hL2 : 0 ≤ L2 := by linarith
  have key : quarterFraction S L1 σ < quarterFraction S L2 σ := by
    unfold quarterFraction
    rw [quadrant_fraction S L1 σ hS hL1 hσ0, quadrant_fraction S L2 σ hS hL2 hσ0]
    have hpi := Real.pi_pos
    apply div_lt_div_of_pos_right _ (by positivity)
    have d1 := diagonal_le S L1 σ hS hL1 hσ0 h4
    rw [max_eq_right d1]
    have z2 : Real.arccos (L2 / σ) = 0 := by
      apply Real.arccos_of_one_le
      rw [one_le_div hσ0]; exact h3
    have p1 : 0 < Real.arccos (L1 / σ) := by
      rw [Real.arccos_pos, div_lt_one hσ0]; exact h2
    apply lt_max_of_lt_right
    linarith
  nlinarith

/-- C34: every sample is between 0 and `cp`. -/
theorem C34_bounded (a b : ℝ) (hk : C.kind = .rect a b) (h : C.Sized H) (ha : 0 < a) (hb : 0 < b)
    (hcp : 0 < C.cp) (nth : ℕ) (h1 : 1 ≤ nth) (as : List Act) (hab : Act.abort ∉ as)
    (s' : Sys ℝ (Prog ℝ SIRError)) (hrun : C.drv.Run nth H as s')
    (n : ℕ) (hn : n < C.No) (it : ℕ) (hit : it < C.nt) (hz : 0 ≤ C.zo n)
    (ht : C.cp * C.time n it ≠ C.zo n / 1000) :
    0 ≤ s'.mem.data (n * C.nt + it) ∧ s'.mem.data (n * C.nt + it) ≤ C.cp := by
  rcases lt_or_gt_of_ne ht with g | g
  · rw [AnaCall.run_samples h nth h1 as hab s' hrun n hn it hit, rectSample_real a b hk,
      rectSum_before _ _ _ _ _ _ _ (by positivity) hcp g]
    exact ⟨le_rfl, hcp.le⟩
  · by_cases hin : |C.xo n| ≤ a / 2 ∧ |C.yo n| ≤ b / 2
    · rw [AnaCall.run_samples h nth h1 as hab s' hrun n hn it hit, rectSample_real a b hk, rectSum_eq]
      have e : ∀ x : ℝ, |x / 1000| = |x| / 1000 := fun x => by rw [abs_div]; norm_num
      have q : ∀ s l, 0 ≤ s → 0 ≤ l → 0 ≤ rectCorner (C.zo n / 1000) s l C.cp (C.time n it) ∧
          rectCorner (C.zo n / 1000) s l C.cp (C.time n it) ≤ C.cp / 4 := by
        intro s l hs hl
        have hz' : 0 ≤ C.zo n / 1000 := by positivity
        rw [corner_after _ _ _ _ _ hz' hcp hs hl g]
        have hσ : 0 < cutRadius (C.zo n / 1000) C.cp (C.time n it) := by
          unfold cutRadius
          apply Real.sqrt_pos.mpr
          nlinarith
        have hpi := Real.pi_pos
        rw [quadrant_fraction s l _ hs hl hσ]
        have a0 := Real.arccos_nonneg (s / cutRadius (C.zo n / 1000) C.cp (C.time n it))
        have b0 := Real.arccos_nonneg (l / cutRadius (C.zo n / 1000) C.cp (C.time n it))
        have m := le_max_left 0 (Real.pi / 2 -
          Real.arccos (s / cutRadius (C.zo n / 1000) C.cp (C.time n it)) -
          Real.arccos (l / cutRadius (C.zo n / 1000) C.cp (C.time n it)))
        have M : max 0 (Real.pi / 2 -
          Real.arccos (s / cutRadius (C.zo n / 1000) C.cp (C.time n it)) -
          Real.arccos (l / cutRadius (C.zo n / 1000) C.cp (C.time n it))) ≤ Real.pi / 2 :=
          max_le (by linarith) (by linarith)
        generalize max 0 (Real.pi / 2 -
          Real.arccos (s / cutRadius (C.zo n / 1000) C.cp (C.time n it)) -
          Real.arccos (l / cutRadius (C.zo n / 1000) C.cp (C.time n it))) = m0 at m M
        refine ⟨by positivity, ?_⟩
        have : m0 / (2 * Real.pi) ≤ 1 / 4 := by
          rw [div_le_iff₀ (by positivity)]; linarith
        nlinarith
      unfold rectCombine
      rw [if_neg (by rw [e]; linarith [hin.1]), if_neg (by rw [e]; linarith [hin.2])]
      have q1 := q _ _ (abs_nonneg (a / 1000 / 2 - |C.xo n / 1000|)) (abs_nonneg (b / 1000 / 2 - |C.yo n / 1000|))
      have q2 := q _ _ (abs_nonneg (a / 1000 / 2 + |C.xo n / 1000|)) (abs_nonneg (b / 1000 / 2 - |C.yo n / 1000|))
      have q3 := q _ _ (abs_nonneg (a / 1000 / 2 + |C.xo n / 1000|)) (abs_nonneg (b / 1000 / 2 + |C.yo n / 1000|))
      constructor <;> linarith [q1.1, q1.2, q2.1, q2.2, q3.1, q3.2]
    · rw [C34_outside a b hk h ha hb hcp nth h1 as hab s' hrun n hn it hit hz hin (fun k => ht k.1),
        if_neg (by linarith)]
      obtain ⟨g1, g2⟩ := circleFraction_bounds (rectangle (a / 1000) (b / 1000)) (C.xo n / 1000)
        (C.yo n / 1000) (Real.sqrt ((C.cp * C.time n it) ^ 2 - (C.zo n / 1000) ^ 2))
        (rectangle_measurable _ _ _ _ _)
      exact ⟨mul_nonneg hcp.le g1, by nlinarith⟩

/-- C34: the response is zero before the wave front reaches the aperture plane and after it has
passed the farthest corner. -/
theorem C34_window (a b : ℝ) (hk : C.kind = .rect a b) (h : C.Sized H) (ha : 0 < a) (hb : 0 < b)
    (hcp : 0 < C.cp) (nth : ℕ) (h1 : 1 ≤ nth) (as : List Act) (hab : Act.abort ∉ as)
    (s' : Sys ℝ (Prog ℝ SIRError)) (hrun : C.drv.Run nth H as s')
    (n : ℕ) (hn : n < C.No) (it : ℕ) (hit : it < C.nt) (hz : 0 ≤ C.zo n)
    (hout : C.cp * C.time n it < C.zo n / 1000 ∨
      Real.sqrt ((C.zo n / 1000) ^ 2 + ((a / 2 + |C.xo n|) / 1000) ^ 2 + ((b / 2 + |C.yo n|) / 1000) ^ 2)
        < C.cp * C.time n it) :
    s'.mem.data (n * C.nt + it) = 0 := by
  rw [AnaCall.run_samples h nth h1 as hab s' hrun n hn it hit, rectSample_real a b hk]
  have hz' : 0 ≤ C.zo n / 1000 := by positivity
  rcases hout with g | g
  · exact rectSum_before _ _ _ _ _ _ _ hz' hcp g
  · have hX := abs_nonneg (C.xo n)
    have hY := abs_nonneg (C.yo n)
    have e : ∀ x : ℝ, |x / 1000| = |x| / 1000 := fun x => by rw [abs_div]; norm_num
    have ct : 0 < C.cp * C.time n it := lt_of_le_of_lt (Real.sqrt_nonneg _) g
    rw [Real.sqrt_lt' ct] at g
    have zero : ∀ s l, |s| ≤ (a / 2 + |C.xo n|) / 1000 → |l| ≤ (b / 2 + |C.yo n|) / 1000 →
        rectCorner (C.zo n / 1000) s l C.cp (C.time n it) = 0 := by
      intro s l hs hl
      have s2 : s * s ≤ ((a / 2 + |C.xo n|) / 1000) ^ 2 := by
        rw [← abs_mul_abs_self, ← sq]; exact pow_le_pow_left₀ (abs_nonneg _) hs 2
      have l2 : l * l ≤ ((b / 2 + |C.yo n|) / 1000) ^ 2 := by
        rw [← abs_mul_abs_self, ← sq]; exact pow_le_pow_left₀ (abs_nonneg _) hl 2
      have e4 : ¬ C.time n it ≤
          Real.sqrt (C.zo n / 1000 * (C.zo n / 1000) + l * l + s * s) / C.cp := by
        rw [le_tau _ _ _ hcp (by nlinarith [mul_self_nonneg s, mul_self_nonneg l, mul_self_nonneg (C.zo n / 1000)]) ct.le]
        nlinarith
      simp only [rectCorner, fle_real, r_div, r_mul, r_add, r_sub, r_sqrt, r_lit, r_acos, r_pi,
        e4, and_false, if_false]
      simp
    rw [rectSum_eq]
    unfold rectCombine
    simp only [e]
    have b1 : ∀ x c : ℝ, 0 ≤ x → 0 < c → |c / 1000 / 2 - x / 1000| ≤ (c / 2 + x) / 1000 := by
      intro x c hx hc
      rw [abs_le]; constructor <;> linarith
    have b2 : ∀ x c : ℝ, 0 ≤ x → 0 < c → |c / 1000 / 2 + x / 1000| ≤ (c / 2 + x) / 1000 := by
      intro x c hx hc
      rw [abs_le]; constructor <;> linarith
    have x1 := b1 |C.xo n| a hX ha
    have x2 := b2 |C.xo n| a hX ha
    have y1 := b1 |C.yo n| b hY hb
    have y2 := b2 |C.yo n| b hY hb
    rw [← abs_abs] at x1 x2 y1 y2
    rw [zero _ _ x1 y1, zero _ _ x2 y1, zero _ _ x2 y2, zero _ _ x1 y2]
    split_ifs <;> ring

/-- C34: the normal velocity `v` has no effect: calls that differ in `v` only give the same
response, in floating point arithmetic as well. -/
theorem C34_ignores_v {F : Type} [Arith F] (C : AnaCall F) (a b : F) (hk : C.kind = .rect a b) (v' : F)
    (H : Buf F) (h : C.Sized H) (nth nth' : ℕ) (h1 : 1 ≤ nth) (h1' : 1 ≤ nth')
    (as as' : List Act) (hab : Act.abort ∉ as) (hab' : Act.abort ∉ as')
    (s s' : Sys F (Prog F SIRError)) (hrun : C.drv.Run nth H as s)
    (hrun' : (AnaCall.drv { C with v := v' }).Run nth' H as' s')
    (n : ℕ) (hn : n < C.No) (it : ℕ) (hit : it < C.nt) :
    s.mem.data (n * C.nt + it) = s'.mem.data (n * C.nt + it) := by
  have h' : AnaCall.Sized { C with v := v' } H := ⟨h.1, h.2, h.3⟩
  rw [AnaCall.run_samples h nth h1 as hab s hrun n hn it hit]
  have := AnaCall.run_samples h' nth' h1' as' hab' s' hrun' n hn it hit
  simp only at this
  rw [this]
  unfold AnaCall.sample
  simp only [hk]
  rfl

end C34

section Examples

/-- A rectangular call with one point at (x, y, z), `dt` = 1 µs and sound speed 1000 m/s. -/
noncomputable def exRect (a b x y z : ℝ) (nt : ℕ) : AnaCall ℝ where
  kind := .rect a b
  Ro := ⟨3, fun i => if i = 0 then x else if i = 1 then y else z⟩
  No := 1
  dt := 1
  nt := nt
  delayType := .single
  delay := ⟨1, fun _ => 0⟩
  v := 1
  cp := 1000

theorem exRect_sized (a b x y z : ℝ) (nt : ℕ) : (exRect a b x y z nt).Sized ⟨nt, fun _ => 9⟩ := by
  refine ⟨?_, ?_, ?_⟩ <;> simp [exRect]

-- a 20 mm x 20 mm aperture seen from (5, 5, 0) mm: sample 7 is smaller than the true response
example : ∃ as s', Act.abort ∉ as ∧ (exRect 20 20 5 5 0 20).drv.Run 2 ⟨20, fun _ => 9⟩ as s' ∧
    s'.mem.data 7 < 1000 * circleFraction (rectangle (20 / 1000) (20 / 1000)) (5 / 1000) (5 / 1000)
      (7 / 1000) := by
  have hs := exRect_sized 20 20 5 5 0 20
  obtain ⟨_, as, s', g1, g2⟩ := AnaCall.terminates hs 2
  refine ⟨as, s', g1, g2, ?_⟩
  have := C34_inside_wrong 20 20 rfl hs (by norm_num) (by norm_num) (by norm_num [exRect]) 2 (by omega) as g1 s' g2 0
    (by simp [exRect]) 7 (by simp [exRect]) (by norm_num [exRect, AnaCall.zo])
    (by norm_num [exRect, AnaCall.xo]) (by norm_num [exRect, AnaCall.yo])
    (by norm_num [exRect, AnaCall.zo, AnaCall.time, AnaCall.delayAt]) (7 / 1000)
    (by
      symm
      rw [Real.sqrt_eq_iff_mul_self_eq_of_pos (by norm_num)]
      norm_num [exRect, AnaCall.zo, AnaCall.time, AnaCall.delayAt])
    (by norm_num [exRect, AnaCall.yo]) (by norm_num [exRect, AnaCall.yo])
    (by norm_num [exRect, AnaCall.xo, AnaCall.yo])
  simpa [exRect, AnaCall.xo, AnaCall.yo] using this

-- hypotheses of C34_outside hold for a point beside the aperture
example : ¬ (|(exRect 20 20 15 5 3 20).xo 0| ≤ 20 / 2 ∧ |(exRect 20 20 15 5 3 20).yo 0| ≤ 20 / 2) ∧
    0 ≤ (exRect 20 20 15 5 3 20).zo 0 ∧
    ¬ (|(exRect 20 20 15 5 3 20).xo 0| = 20 / 2 ∨ |(exRect 20 20 15 5 3 20).yo 0| = 20 / 2) := by
  norm_num [exRect, AnaCall.xo, AnaCall.yo, AnaCall.zo]

end Examples
end Dream
