import Verif.ClaimsGeo
import Mathlib.MeasureTheory.Integral.IntervalIntegral.Basic
import Mathlib.MeasureTheory.Integral.DominatedConvergence
import Mathlib.Analysis.SpecialFunctions.Trigonometric.Bounds

/-
C80: the responses converge to the Rayleigh integral, with explicit error bounds.
-/

namespace Dream
open Finset

/-! ### Riemann sums -/

/-- A sum over adjacent cells of width `d` against the integral over their union. -/
theorem riemann_err (G : ℝ → ℝ) (hG : Continuous G) (c : ℕ → ℝ) (s0 d ω : ℝ) (hd : 0 ≤ d) (M : ℕ)
    (h : ∀ q < M, ∀ s, s0 + q * d ≤ s → s ≤ s0 + (q + 1) * d → |c q - G s| ≤ ω) :
    |(∑ q ∈ range M, d * c q) - ∫ s in s0..(s0 + M * d), G s| ≤ M * d * ω := by
  induction M with
  | zero => simp
  | succ M ih =>
    have ih := ih fun q hq => h q (by omega)
    have hle : s0 + (M : ℝ) * d ≤ s0 + ((M : ℝ) + 1) * d := by nlinarith
    have hcell : |d * c M - ∫ s in (s0 + (M : ℝ) * d)..(s0 + ((M : ℝ) + 1) * d), G s| ≤ d * ω := by
      have h1 : d * c M = ∫ s in (s0 + (M : ℝ) * d)..(s0 + ((M : ℝ) + 1) * d), c M := by
        rw [intervalIntegral.integral_const, smul_eq_mul]; ring
      rw [h1, ← intervalIntegral.integral_sub (continuous_const.intervalIntegrable _ _)
        (hG.intervalIntegrable _ _)]
      have := intervalIntegral.norm_integral_le_of_norm_le_const (C := ω)
        (f := fun s => c M - G s) (a := s0 + (M : ℝ) * d) (b := s0 + ((M : ℝ) + 1) * d) (by
          intro s hs
          rw [Set.uIoc_of_le hle] at hs
          exact h M (by omega) s hs.1.le hs.2)
      rw [Real.norm_eq_abs] at this
      refine this.trans (le_of_eq ?_)
      rw [abs_of_nonneg (by linarith)]; ring
    rw [Finset.sum_range_succ]
    push_cast
    rw [← intervalIntegral.integral_add_adjacent_intervals (b := s0 + (M : ℝ) * d)
      (hG.intervalIntegrable _ _) (hG.intervalIntegrable _ _)]
    have := abs_add_le ((∑ q ∈ range M, d * c q) - ∫ s in s0..(s0 + M * d), G s)
      (d * c M - ∫ s in (s0 + (M : ℝ) * d)..(s0 + ((M : ℝ) + 1) * d), G s)
    refine le_trans (le_of_eq ?_) (this.trans ?_)
    · congr 1; ring
    · nlinarith

/-- Moving the ends of an interval changes the integral of a bounded function by at most the bound
times the displacements. -/
theorem integral_ends (G : ℝ → ℝ) (hG : Continuous G) (B : ℝ) (hB : ∀ s, |G s| ≤ B) (a b a' b' : ℝ) :
    |(∫ s in a..b, G s) - ∫ s in a'..b', G s| ≤ B * (|a - a'| + |b - b'|) := by
  have hi := fun a b => hG.intervalIntegrable (μ := MeasureTheory.volume) a b
  have h1 : (∫ s in a..b, G s) - ∫ s in a'..b', G s = (∫ s in a..a', G s) - ∫ s in b..b', G s :=
    intervalIntegral.integral_interval_sub_interval_comm (hi _ _) (hi _ _) (hi _ _)
  have h2 : ∀ a b, |∫ s in a..b, G s| ≤ B * |b - a| := fun a b => by
    have := intervalIntegral.norm_integral_le_of_norm_le_const (C := B) (f := G) (a := a) (b := b)
      (fun s _ => hB s)
    exact this
  rw [h1]
  refine (abs_sub _ _).trans ?_
  have := h2 a a'; have := h2 b b'
  rw [abs_sub_comm a a', abs_sub_comm b b']
  linarith

/-- The integral over a strip whose ends move continuously is continuous. -/
theorem strip_continuous (F : ℝ → ℝ → ℝ) (hF : Continuous fun p : ℝ × ℝ => F p.1 p.2) (w : ℝ → ℝ)
    (hw : Continuous w) : Continuous fun s => ∫ x in (-w s)..(w s), F x s := by
  have hF' : Continuous (Function.uncurry fun s x => F x s) :=
    hF.comp (continuous_snd.prodMk continuous_fst)
  have h1 := intervalIntegral.continuous_parametric_intervalIntegral_of_continuous
    (μ := MeasureTheory.volume) (a₀ := 0) hF' hw
  have h2 := intervalIntegral.continuous_parametric_intervalIntegral_of_continuous
    (μ := MeasureTheory.volume) (a₀ := 0) hF' hw.neg
  have : (fun s => ∫ x in (-w s)..(w s), F x s) =
      fun s => (∫ x in (0 : ℝ)..(w s), F x s) - ∫ x in (0 : ℝ)..(-w s), F x s := by
    funext s
    have hc : Continuous fun x => F x s := hF.comp (continuous_id.prodMk continuous_const)
    rw [intervalIntegral.integral_interval_sub_left (hc.intervalIntegrable _ _)
      (hc.intervalIntegrable _ _)]
  rw [this]
  exact h1.sub h2

/-- A sum over cells in rows against the double integral. -/
theorem riemann2_err (F : ℝ → ℝ → ℝ) (hF : Continuous fun p : ℝ × ℝ => F p.1 p.2) (B : ℝ)
    (hB : ∀ x s, |F x s| ≤ B) (w : ℝ → ℝ) (hw : Continuous w) (W : ℝ) (hw0 : ∀ s, 0 ≤ w s)
    (hwW : ∀ s, w s ≤ W) (dx ds s0 s1 η e ω : ℝ) (hdx : 0 < dx) (hds : 0 < ds) (M : ℕ) (N : ℕ → ℕ)
    (c : ℕ → ℕ → ℝ) (hM : |s0 + M * ds - s1| ≤ η)
    (hN : ∀ q < M, |N q * dx - 2 * w (s0 + (q + 1 / 2) * ds)| ≤ dx / 2)
    (he : ∀ q < M, ∀ s, s0 + q * ds ≤ s → s ≤ s0 + (q + 1) * ds →
      |w s - w (s0 + (q + 1 / 2) * ds)| ≤ e) (hω : 0 ≤ ω)
    (hc : ∀ q < M, ∀ j < N q, ∀ s, s0 + q * ds ≤ s → s ≤ s0 + (q + 1) * ds → ∀ x,
      -w (s0 + (q + 1 / 2) * ds) + j * dx ≤ x → x ≤ -w (s0 + (q + 1 / 2) * ds) + (j + 1) * dx →
      |c q j - F x s| ≤ ω) :
    |(∑ q ∈ range M, ∑ j ∈ range (N q), dx * ds * c q j) -
      ∫ s in s0..s1, ∫ x in (-w s)..(w s), F x s| ≤
      M * ds * ((2 * W + dx / 2) * ω + B * (2 * e + dx / 2)) + 2 * W * B * η := by
  have hB0 : 0 ≤ B := (abs_nonneg _).trans (hB 0 0)
  set G : ℝ → ℝ := fun s => ∫ x in (-w s)..(w s), F x s with hG
  have hGc : Continuous G := strip_continuous F hF w hw
  have hcont : ∀ s, Continuous fun x => F x s := fun s =>
    hF.comp (continuous_id.prodMk continuous_const)
  have hGB : ∀ s, |G s| ≤ 2 * W * B := by
    intro s
    have := intervalIntegral.norm_integral_le_of_norm_le_const (C := B) (f := fun x => F x s)
      (a := -w s) (b := w s) (fun x _ => hB x s)
    refine (this : |G s| ≤ _).trans ?_
    have h0 := hw0 s; have h1 := hwW s
    rw [show w s - -w s = 2 * w s by ring, abs_of_nonneg (by linarith)]
    nlinarith
  have hrow : ∀ q < M, ∀ s, s0 + q * ds ≤ s → s ≤ s0 + (q + 1) * ds →
      |(∑ j ∈ range (N q), dx * c q j) - G s| ≤ (2 * W + dx / 2) * ω + B * (2 * e + dx / 2) := by
    intro q hq s hs1 hs2
    set wq := w (s0 + (q + 1 / 2) * ds) with hwq
    have h1 := riemann_err (fun x => F x s) (hcont s) (c q) (-wq) dx ω hdx.le (N q)
      (fun j hj x hx1 hx2 => hc q hq j hj s hs1 hs2 x hx1 hx2)
    have h2 := integral_ends (fun x => F x s) (hcont s) B (fun x => hB x s) (-wq) (-wq + N q * dx)
      (-w s) (w s)
    have hNq := hN q hq
    have heq := he q hq s hs1 hs2
    rw [← hwq] at hNq heq
    have h3 : |-wq - -w s| ≤ e := by rwa [show -wq - -w s = w s - wq by ring]
    have h4 : |-wq + N q * dx - w s| ≤ e + dx / 2 := by
      rw [show -wq + N q * dx - w s = (N q * dx - 2 * wq) - (w s - wq) by ring]
      refine (abs_sub _ _).trans ?_; linarith
    have h5 : (N q : ℝ) * dx ≤ 2 * W + dx / 2 := by
      have := (abs_le.mp hNq).2
      have := hwW (s0 + (q + 1 / 2) * ds)
      rw [← hwq] at this
      linarith
    have h6 := abs_add_le ((∑ j ∈ range (N q), dx * c q j) - ∫ x in (-wq)..(-wq + N q * dx), F x s)
      ((∫ x in (-wq)..(-wq + N q * dx), F x s) - G s)
    rw [sub_add_sub_cancel] at h6
    refine h6.trans ?_
    have h7 : (N q : ℝ) * dx * ω ≤ (2 * W + dx / 2) * ω := mul_le_mul_of_nonneg_right h5 hω
    have h8 : B * (|-wq - -w s| + |-wq + N q * dx - w s|) ≤ B * (2 * e + dx / 2) :=
      mul_le_mul_of_nonneg_left (by linarith) hB0
    linarith
  have h1 := riemann_err G hGc (fun q => ∑ j ∈ range (N q), dx * c q j) s0 ds _ hds.le M hrow
  have h2 := integral_ends G hGc (2 * W * B) hGB s0 (s0 + M * ds) s0 s1
  have h3 : (∑ q ∈ range M, ∑ j ∈ range (N q), dx * ds * c q j) =
      ∑ q ∈ range M, ds * ∑ j ∈ range (N q), dx * c q j := by
    refine Finset.sum_congr rfl fun q _ => ?_
    rw [Finset.mul_sum]
    exact Finset.sum_congr rfl fun j _ => by ring
  rw [h3]
  have h6 := abs_add_le ((∑ q ∈ range M, ds * ∑ j ∈ range (N q), dx * c q j) -
    ∫ s in s0..(s0 + M * ds), G s) ((∫ s in s0..(s0 + M * ds), G s) - ∫ s in s0..s1, G s)
  rw [sub_add_sub_cancel] at h6
  refine h6.trans ?_
  have hW : 0 ≤ W := (hw0 0).trans (hwW 0)
  have h9 : 2 * W * B * (|s0 - s0| + |s0 + M * ds - s1|) ≤ 2 * W * B * η :=
    mul_le_mul_of_nonneg_left (by rw [sub_self, abs_zero]; linarith) (by positivity)
  linarith

/-! ### Weighting a response with a signal -/

/-- A signal that is bounded by `K` and Lipschitz with constant `L`. -/
def Tame (φ : ℝ → ℝ) (K L : ℝ) : Prop := (∀ t, |φ t| ≤ K) ∧ ∀ s t, |φ s - φ t| ≤ L * |s - t|

/-- The pressure a response `h` of `nt` samples gives for the signal `φ` (time in microseconds). -/
noncomputable def weigh (nt : ℕ) (dt : ℝ) (φ : ℝ → ℝ) (h : ℕ → ℝ) : ℝ :=
  ∑ i ∈ range nt, h i * (dt / 1000) * φ (i * dt)

theorem Tame.continuous {φ : ℝ → ℝ} {K L : ℝ} (h : Tame φ K L) : Continuous φ := by
  have hL : 0 ≤ L := by
    have := h.2 1 0
    have h0 := abs_nonneg (φ 1 - φ 0)
    simp at this
    linarith
  refine LipschitzWith.continuous (K := ⟨L, hL⟩) ?_
  exact LipschitzWith.of_dist_le_mul fun s t => by
    rw [Real.dist_eq, Real.dist_eq]; exact h.2 s t

theorem weigh_response (S : Surf) (v cp delay dt xo yo zo : ℝ) (nt : ℕ) (φ : ℝ → ℝ) (hdt : 0 < dt)
    (hin : ∀ q < S.rows, ∀ j < S.cols q, 0 ≤ S.arrives cp delay dt xo yo zo q j ∧
      S.arrives cp delay dt xo yo zo q j < nt) :
    weigh nt dt φ (S.response v cp delay dt xo yo zo) =
      ∑ q ∈ range S.rows, ∑ j ∈ range (S.cols q), S.area * (v / (2 * Real.pi *
        S.dist xo yo zo q j) * φ (S.arrives cp delay dt xo yo zo q j * dt)) := by
  unfold weigh Surf.response
  simp only [Finset.sum_mul]
  rw [Finset.sum_comm]
  refine Finset.sum_congr rfl fun q hq => ?_
  rw [Finset.sum_comm]
  refine Finset.sum_congr rfl fun j hj => ?_
  obtain ⟨h0, h1⟩ := hin q (Finset.mem_range.mp hq) j (Finset.mem_range.mp hj)
  obtain ⟨k, hk⟩ := Int.eq_ofNat_of_zero_le h0
  rw [hk] at h1 ⊢
  have hkn : k < nt := by exact_mod_cast h1
  rw [Finset.sum_eq_single k]
  · rw [if_pos rfl]
    have : dt ≠ 0 := hdt.ne'
    push_cast
    field_simp
  · intro i _ hik
    rw [if_neg (by intro h; exact hik (by exact_mod_cast h.symm))]
    ring
  · intro h; exact absurd (Finset.mem_range.mpr hkn) h

/-- One point: rounding the arrival time and moving the point inside its cell. -/
theorem point_err {φ : ℝ → ℝ} {K L : ℝ} (hφ : Tame φ K L) (v z r r' t t' ρ σ : ℝ) (hz : 0 < z)
    (hr : z ≤ r) (hr' : z ≤ r') (h1 : |r - r'| ≤ ρ) (h2 : |t - t'| ≤ σ) :
    |v / (2 * Real.pi * r) * φ t - v / (2 * Real.pi * r') * φ t'| ≤
      |v| / (2 * Real.pi) * (L * σ / z + K * ρ / z ^ 2) := by
  have hπ := Real.pi_pos
  have hK : 0 ≤ K := (abs_nonneg _).trans (hφ.1 0)
  have hL : 0 ≤ L := by
    have := hφ.2 1 0
    have h0 := abs_nonneg (φ 1 - φ 0)
    simp at this
    linarith
  have hrp : 0 < r := hz.trans_le hr
  have hrp' : 0 < r' := hz.trans_le hr'
  have e1 : v / (2 * Real.pi * r) * φ t - v / (2 * Real.pi * r') * φ t' =
      v / (2 * Real.pi) * ((φ t - φ t') / r + φ t' * ((r' - r) / (r * r'))) := by
    field_simp; ring
  rw [e1, abs_mul, abs_div, abs_of_pos (show 0 < 2 * Real.pi by positivity)]
  refine mul_le_mul_of_nonneg_left ?_ (by positivity)
  refine (abs_add_le _ _).trans ?_
  have hσ : 0 ≤ σ := (abs_nonneg _).trans h2
  have hρ : 0 ≤ ρ := (abs_nonneg _).trans h1
  refine add_le_add ?_ ?_
  · rw [abs_div, abs_of_pos hrp]
    refine (div_le_div_of_nonneg_right ((hφ.2 t t').trans (mul_le_mul_of_nonneg_left h2 hL)) hrp.le).trans ?_
    exact div_le_div_of_nonneg_left (by positivity) hz hr
  · rw [abs_mul, abs_div, abs_sub_comm, abs_of_pos (mul_pos hrp hrp'), mul_div_assoc]
    refine mul_le_mul (hφ.1 t') ?_ (by positivity) hK
    refine (div_le_div_of_nonneg_right h1 (by positivity)).trans ?_
    exact div_le_div_of_nonneg_left hρ (by positivity) (by nlinarith)

/-- The general bound. -/
theorem response_err (S : Surf) (v cp delay dt xo yo zo : ℝ) (nt : ℕ) {φ : ℝ → ℝ} {K L : ℝ}
    (hφ : Tame φ K L) (hdt : 0 < dt)
    (hin : ∀ q < S.rows, ∀ j < S.cols q, 0 ≤ S.arrives cp delay dt xo yo zo q j ∧
      S.arrives cp delay dt xo yo zo q j < nt)
    (r τ : ℝ → ℝ → ℝ) (hrc : Continuous fun p : ℝ × ℝ => r p.1 p.2)
    (hτc : Continuous fun p : ℝ × ℝ => τ p.1 p.2) (z : ℝ) (hz : 0 < z) (hrz : ∀ x s, z ≤ r x s)
    (w : ℝ → ℝ) (hw : Continuous w) (W : ℝ) (hw0 : ∀ s, 0 ≤ w s) (hwW : ∀ s, w s ≤ W)
    (dx ds s0 s1 η e ρ σ : ℝ) (hdx : 0 < dx) (hds : 0 < ds) (harea : S.area = dx * ds)
    (hM : |s0 + S.rows * ds - s1| ≤ η)
    (hN : ∀ q < S.rows, |S.cols q * dx - 2 * w (s0 + (q + 1 / 2) * ds)| ≤ dx / 2)
    (he : ∀ q < S.rows, ∀ s, s0 + q * ds ≤ s → s ≤ s0 + (q + 1) * ds →
      |w s - w (s0 + (q + 1 / 2) * ds)| ≤ e) (he0 : 0 ≤ e)
    (hdist : ∀ q < S.rows, ∀ j < S.cols q, S.dist xo yo zo q j =
      r (-w (s0 + (q + 1 / 2) * ds) + (j + 1 / 2) * dx) (s0 + (q + 1 / 2) * ds))
    (htime : ∀ q < S.rows, ∀ j < S.cols q, S.dist xo yo zo q j * 1000 / cp - (delay - S.foc q j) =
      τ (-w (s0 + (q + 1 / 2) * ds) + (j + 1 / 2) * dx) (s0 + (q + 1 / 2) * ds))
    (hρ : ∀ x x' s s', |x - x'| ≤ dx / 2 → |s - s'| ≤ ds / 2 → |r x s - r x' s'| ≤ ρ)
    (hσ : ∀ x x' s s', |x - x'| ≤ dx / 2 → |s - s'| ≤ ds / 2 → |τ x s - τ x' s'| ≤ σ) :
    |weigh nt dt φ (S.response v cp delay dt xo yo zo) -
      ∫ s in s0..s1, ∫ x in (-w s)..(w s), v / (2 * Real.pi * r x s) * φ (τ x s)| ≤
      |v| / (2 * Real.pi) * ((s1 - s0 + η) * ((2 * W + dx / 2) *
        (L * (dt / 2 + σ) / z + K * ρ / z ^ 2) + K / z * (2 * e + dx / 2)) + 2 * W * (K / z) * η) := by
  have hπ := Real.pi_pos
  have hK : 0 ≤ K := (abs_nonneg _).trans (hφ.1 0)
  have hL : 0 ≤ L := by
    have := hφ.2 1 0
    have h0 := abs_nonneg (φ 1 - φ 0)
    simp at this
    linarith
  have hW : 0 ≤ W := (hw0 0).trans (hwW 0)
  have hρ0 : 0 ≤ ρ := (abs_nonneg _).trans (hρ 0 0 0 0 (by simp; linarith) (by simp; linarith))
  have hσ0 : 0 ≤ σ := (abs_nonneg _).trans (hσ 0 0 0 0 (by simp; linarith) (by simp; linarith))
  rw [weigh_response S v cp delay dt xo yo zo nt φ hdt hin, harea]
  set ω := |v| / (2 * Real.pi) * (L * (dt / 2 + σ) / z + K * ρ / z ^ 2) with hω
  set B := |v| / (2 * Real.pi) * (K / z) with hB
  have hF : Continuous fun p : ℝ × ℝ => v / (2 * Real.pi * r p.1 p.2) * φ (τ p.1 p.2) := by
    refine Continuous.mul (Continuous.div continuous_const (continuous_const.mul hrc) ?_)
      (hφ.continuous.comp hτc)
    intro p
    have := hz.trans_le (hrz p.1 p.2)
    positivity
  have h := riemann2_err (fun x s => v / (2 * Real.pi * r x s) * φ (τ x s)) hF B (by
      intro x s
      have hr0 := hz.trans_le (hrz x s)
      rw [abs_mul, abs_div, abs_of_pos (show 0 < 2 * Real.pi * r x s by positivity), hB,
        show |v| / (2 * Real.pi * r x s) * |φ (τ x s)| = |v| / (2 * Real.pi) * (|φ (τ x s)| / r x s) by
          field_simp]
      refine mul_le_mul_of_nonneg_left ?_ (by positivity)
      refine (div_le_div_of_nonneg_right (hφ.1 _) hr0.le).trans ?_
      exact div_le_div_of_nonneg_left hK hz (hrz x s)) w hw W hw0 hwW dx ds s0 s1 η e ω hdx hds S.rows
    S.cols (fun q j => v / (2 * Real.pi * S.dist xo yo zo q j) *
      φ (S.arrives cp delay dt xo yo zo q j * dt)) hM hN he (by positivity) (by
      intro q hq j hj s hs1 hs2 x hx1 hx2
      set xc := -w (s0 + (q + 1 / 2) * ds) + (j + 1 / 2) * dx with hxc
      set sc := s0 + (q + 1 / 2) * ds with hsc
      have hxx : |xc - x| ≤ dx / 2 := abs_le.mpr ⟨by linarith, by linarith⟩
      have hss : |sc - s| ≤ ds / 2 := abs_le.mpr ⟨by linarith, by linarith⟩
      have hd := hdist q hq j hj
      have ht := htime q hq j hj
      rw [← hsc, ← hxc] at hd ht
      have hround : |S.arrives cp delay dt xo yo zo q j * dt - τ xc sc| ≤ dt / 2 := by
        have := rintR_near ((S.dist xo yo zo q j * 1000 / cp - (delay - S.foc q j)) / dt)
        have e1 : (S.arrives cp delay dt xo yo zo q j : ℝ) * dt - τ xc sc =
            -((S.dist xo yo zo q j * 1000 / cp - (delay - S.foc q j)) / dt -
              rintR ((S.dist xo yo zo q j * 1000 / cp - (delay - S.foc q j)) / dt)) * dt := by
          rw [← ht]
          unfold Surf.arrives arrivalSample
          field_simp; ring
        rw [e1, abs_mul, abs_neg, abs_of_pos hdt]
        calc _ ≤ 1 / 2 * dt := mul_le_mul_of_nonneg_right this hdt.le
          _ = dt / 2 := by ring
      refine point_err hφ v z _ _ _ _ ρ (dt / 2 + σ) hz (by rw [hd]; exact hrz _ _) (hrz _ _)
        (by rw [hd]; exact hρ _ _ _ _ hxx hss) ?_
      have := hσ _ _ _ _ hxx hss
      rw [show (S.arrives cp delay dt xo yo zo q j : ℝ) * dt - τ x s =
        (S.arrives cp delay dt xo yo zo q j * dt - τ xc sc) + (τ xc sc - τ x s) by ring]
      exact (abs_add_le _ _).trans (add_le_add hround this))
  refine (h.trans ?_)
  have hlen : (S.rows : ℝ) * ds ≤ s1 - s0 + η := by
    have := (abs_le.mp hM).2; linarith
  have hB0 : 0 ≤ B := by positivity
  have hpos : 0 ≤ (2 * W + dx / 2) * ω + B * (2 * e + dx / 2) := by positivity
  calc _ ≤ (s1 - s0 + η) * ((2 * W + dx / 2) * ω + B * (2 * e + dx / 2)) + 2 * W * B * η := by
        have := mul_le_mul_of_nonneg_right hlen hpos
        linarith
    _ = _ := by rw [hω, hB]; ring

/-! ### Specification: apertures and their Rayleigh integrals -/

/-- A transducer surface with parameters `(x, s)`, `lo ≤ s ≤ hi`, `|x| ≤ half s`: positions (mm), and an
extra delay (microseconds) applied at the point.  The parameters measure area. -/
structure Aper where
  lo : ℝ
  hi : ℝ
  half : ℝ → ℝ
  pos : ℝ → ℝ → ℝ × ℝ × ℝ
  foc : ℝ → ℝ → ℝ

/-- Distance between two points. -/
noncomputable def edist3 (o p : ℝ × ℝ × ℝ) : ℝ :=
  Real.sqrt ((o.1 - p.1) ^ 2 + (o.2.1 - p.2.1) ^ 2 + (o.2.2 - p.2.2) ^ 2)

/-- The pressure at `o` for normal velocity `v` and signal `φ`: the Rayleigh integral over the surface. -/
noncomputable def Aper.rayleigh (A : Aper) (v cp delay : ℝ) (φ : ℝ → ℝ) (o : ℝ × ℝ × ℝ) : ℝ :=
  ∫ s in A.lo..A.hi, ∫ x in (-A.half s)..(A.half s),
    v / (2 * Real.pi * edist3 o (A.pos x s)) *
      φ (edist3 o (A.pos x s) * 1000 / cp - (delay - A.foc x s))

/-- The observation point is at least `z` away from the surface. -/
def Aper.Away (A : Aper) (z : ℝ) (o : ℝ × ℝ × ℝ) : Prop :=
  ∀ x s, A.lo ≤ s → s ≤ A.hi → |x| ≤ A.half s → z ≤ edist3 o (A.pos x s)

/-- Focusing delay at the point `(x, y)` of the aperture. -/
noncomputable def focusAt (met : FocusMet) (f ex ey er cp x y : ℝ) : ℝ :=
  match met with
  | .x => focusTime ex x f cp
  | .y => focusTime ey y f cp
  | .xy => focusTime er (Real.sqrt (x ^ 2 + y ^ 2)) f cp
  | .x_y => focusTime er x f cp - Real.sqrt (y ^ 2 + f ^ 2) * 1000 / cp
  | _ => 0

/-- The surface of each transducer: rectangle and disc in the plane `z = 0`; strip of width `dy`;
spherical cap of radius `|Rc|`, parametrised by its projection; cylinder of radius `|Rc|` with axis
`y = 0`, `z = Rc`, parametrised by arc length. -/
noncomputable def Kern.aper (k : Kern ℝ) (cp dy : ℝ) : Aper :=
  match k with
  | .rect _ a b => ⟨-(b / 2), b / 2, fun _ => a / 2, fun x y => (x, y, 0), fun _ _ => 0⟩
  | .rectF met f a b => ⟨-(b / 2), b / 2, fun _ => a / 2, fun x y => (x, y, 0),
      focusAt met f a b (Real.sqrt (a ^ 2 + b ^ 2)) cp⟩
  | .circ _ R => ⟨-R, R, fun y => Real.sqrt (R ^ 2 - y ^ 2), fun x y => (x, y, 0), fun _ _ => 0⟩
  | .circF met f R => ⟨-R, R, fun y => Real.sqrt (R ^ 2 - y ^ 2), fun x y => (x, y, 0),
      focusAt met f R R R cp⟩
  | .line a => ⟨-(dy / 2), dy / 2, fun _ => a / 2, fun x _ => (x, 0, 0), fun _ _ => 0⟩
  | .sphere R Rc => ⟨-R, R, fun y => Real.sqrt (R ^ 2 - y ^ 2), fun x y => (x, y,
      if 0 ≤ Rc then Rc - Real.sqrt (Rc ^ 2 - x ^ 2 - y ^ 2)
      else Rc + Real.sqrt (Rc ^ 2 - x ^ 2 - y ^ 2)), fun _ _ => 0⟩
  | .cylind _ a b Rc => ⟨-(|Rc| * Real.arcsin (b / 2 / |Rc|)), |Rc| * Real.arcsin (b / 2 / |Rc|),
      fun _ => a / 2, fun x s => (x, |Rc| * Real.sin (s / |Rc|), Rc - Rc * Real.cos (s / |Rc|)),
      fun _ _ => 0⟩

/-- The error bound: `K` and `L` bound the signal and its slope, `z` is the distance from the surface,
the surface has height `len` and half width `W`; cells have width `dx`, the rows cover the height up to
`η`, `e` is the change of half width within a row, `ρ` and `σ` the changes of distance and time within
half a cell. -/
noncomputable def convBound (v K L z dt W len dx η e ρ σ : ℝ) : ℝ :=
  |v| / (2 * Real.pi) * ((len + η) * ((2 * W + dx / 2) *
    (L * (dt / 2 + σ) / z + K * ρ / z ^ 2) + K / z * (2 * e + dx / 2)) + 2 * W * (K / z) * η)

/-! ### Lipschitz bounds -/

theorem sqrt_coord (u u' A : ℝ) (hA : 0 ≤ A) :
    Real.sqrt (u ^ 2 + A) ≤ Real.sqrt (u' ^ 2 + A) + |u - u'| := by
  have h1 : |u'| ≤ Real.sqrt (u' ^ 2 + A) := Real.abs_le_sqrt (by linarith)
  have h0 := Real.sqrt_nonneg (u' ^ 2 + A)
  rw [Real.sqrt_le_left (by positivity), add_sq, Real.sq_sqrt (by positivity), sq_abs]
  have h2 : u' * (u - u') ≤ Real.sqrt (u' ^ 2 + A) * |u - u'| :=
    calc u' * (u - u') ≤ |u' * (u - u')| := le_abs_self _
      _ = |u'| * |u - u'| := abs_mul _ _
      _ ≤ _ := mul_le_mul_of_nonneg_right h1 (abs_nonneg _)
  nlinarith

theorem sqrt_coord_abs (u u' A : ℝ) (hA : 0 ≤ A) :
    |Real.sqrt (u ^ 2 + A) - Real.sqrt (u' ^ 2 + A)| ≤ |u - u'| := by
  have h1 := sqrt_coord u u' A hA
  have h2 := sqrt_coord u' u A hA
  rw [abs_sub_comm u' u] at h2
  exact abs_le.mpr ⟨by linarith, by linarith⟩

theorem edist3_lip (o p p' : ℝ × ℝ × ℝ) :
    |edist3 o p - edist3 o p'| ≤ |p.1 - p'.1| + |p.2.1 - p'.2.1| + |p.2.2 - p'.2.2| := by
  unfold edist3
  obtain ⟨a, b, c⟩ := o
  obtain ⟨x, y, z⟩ := p
  obtain ⟨x', y', z'⟩ := p'
  simp only
  have h1 := sqrt_coord_abs (a - x) (a - x') ((b - y) ^ 2 + (c - z) ^ 2) (by positivity)
  have h2 := sqrt_coord_abs (b - y) (b - y') ((a - x') ^ 2 + (c - z) ^ 2) (by positivity)
  have h3 := sqrt_coord_abs (c - z) (c - z') ((a - x') ^ 2 + (b - y') ^ 2) (by positivity)
  rw [show a - x - (a - x') = -(x - x') by ring, abs_neg] at h1
  rw [show b - y - (b - y') = -(y - y') by ring, abs_neg] at h2
  rw [show c - z - (c - z') = -(z - z') by ring, abs_neg] at h3
  rw [← add_assoc] at h1
  rw [show (b - y) ^ 2 + ((a - x') ^ 2 + (c - z) ^ 2) = (a - x') ^ 2 + (b - y) ^ 2 + (c - z) ^ 2 by ring,
    show (b - y') ^ 2 + ((a - x') ^ 2 + (c - z) ^ 2) = (a - x') ^ 2 + (b - y') ^ 2 + (c - z) ^ 2 by ring]
    at h2
  rw [show (c - z) ^ 2 + ((a - x') ^ 2 + (b - y') ^ 2) = (a - x') ^ 2 + (b - y') ^ 2 + (c - z) ^ 2 by ring,
    show (c - z') ^ 2 + ((a - x') ^ 2 + (b - y') ^ 2) = (a - x') ^ 2 + (b - y') ^ 2 + (c - z') ^ 2 by ring]
    at h3
  rw [← add_assoc] at h1
  have := abs_add_three (Real.sqrt ((a - x) ^ 2 + (b - y) ^ 2 + (c - z) ^ 2) -
      Real.sqrt ((a - x') ^ 2 + (b - y) ^ 2 + (c - z) ^ 2))
    (Real.sqrt ((a - x') ^ 2 + (b - y) ^ 2 + (c - z) ^ 2) -
      Real.sqrt ((a - x') ^ 2 + (b - y') ^ 2 + (c - z) ^ 2))
    (Real.sqrt ((a - x') ^ 2 + (b - y') ^ 2 + (c - z) ^ 2) -
      Real.sqrt ((a - x') ^ 2 + (b - y') ^ 2 + (c - z') ^ 2))
  rw [sub_add_sub_cancel, sub_add_sub_cancel] at this
  linarith

theorem focusTime_lip (e d d' f cp : ℝ) (hcp : 0 < cp) :
    |focusTime e d f cp - focusTime e d' f cp| ≤ 1000 / cp * |d - d'| := by
  unfold focusTime
  have h := sqrt_coord_abs d d' (f ^ 2) (by positivity)
  rw [show (Real.sqrt (e ^ 2 + f ^ 2) - Real.sqrt (d ^ 2 + f ^ 2)) * 1000 / cp -
    (Real.sqrt (e ^ 2 + f ^ 2) - Real.sqrt (d' ^ 2 + f ^ 2)) * 1000 / cp =
    -(1000 / cp * (Real.sqrt (d ^ 2 + f ^ 2) - Real.sqrt (d' ^ 2 + f ^ 2))) by ring, abs_neg, abs_mul,
    abs_of_pos (by positivity)]
  exact mul_le_mul_of_nonneg_left h (by positivity)

theorem radius_lip (x y x' y' : ℝ) :
    |Real.sqrt (x ^ 2 + y ^ 2) - Real.sqrt (x' ^ 2 + y' ^ 2)| ≤ |x - x'| + |y - y'| := by
  have h1 := sqrt_coord_abs x x' (y ^ 2) (by positivity)
  have h2 := sqrt_coord_abs y y' (x' ^ 2) (by positivity)
  rw [add_comm (y ^ 2), add_comm (y' ^ 2)] at h2
  have := abs_add_le (Real.sqrt (x ^ 2 + y ^ 2) - Real.sqrt (x' ^ 2 + y ^ 2))
    (Real.sqrt (x' ^ 2 + y ^ 2) - Real.sqrt (x' ^ 2 + y' ^ 2))
  rw [sub_add_sub_cancel] at this
  linarith

theorem focusAt_lip (met : FocusMet) (f ex ey er cp x y x' y' : ℝ) (hcp : 0 < cp) :
    |focusAt met f ex ey er cp x y - focusAt met f ex ey er cp x' y'| ≤
      1000 / cp * (|x - x'| + |y - y'|) := by
  have hx := abs_nonneg (x - x')
  have hy := abs_nonneg (y - y')
  have hc : 0 < 1000 / cp := by positivity
  have h0 : 0 ≤ 1000 / cp * (|x - x'| + |y - y'|) := by positivity
  cases met with
  | x => refine (focusTime_lip ex x x' f cp hcp).trans ?_; nlinarith
  | y => refine (focusTime_lip ey y y' f cp hcp).trans ?_; nlinarith
  | xy =>
    refine (focusTime_lip er _ _ f cp hcp).trans ?_
    exact mul_le_mul_of_nonneg_left (radius_lip x y x' y') hc.le
  | x_y =>
    have h1 := focusTime_lip er x x' f cp hcp
    have h2 := focusTime_lip 0 y y' f cp hcp
    have h3 := abs_add_le (focusTime er x f cp - focusTime er x' f cp)
      (focusTime 0 y f cp - focusTime 0 y' f cp)
    have h4 : focusAt .x_y f ex ey er cp x y - focusAt .x_y f ex ey er cp x' y' =
      (focusTime er x f cp - focusTime er x' f cp) +
        (focusTime 0 y f cp - focusTime 0 y' f cp) := by
      simp only [focusAt, focusTime]; ring
    rw [h4]; linarith
  | _ => simpa [focusAt] using h0

theorem lip_continuous (g : ℝ → ℝ → ℝ) (c d : ℝ)
    (h : ∀ x x' s s', |g x s - g x' s'| ≤ c * |x - x'| + d * |s - s'|) :
    Continuous fun p : ℝ × ℝ => g p.1 p.2 := by
  rw [Metric.continuous_iff]
  intro p ε hε
  refine ⟨ε / (|c| + |d| + 1), by positivity, fun q hq => ?_⟩
  have hx : |q.1 - p.1| ≤ dist q p := by
    rw [← Real.dist_eq]; exact le_max_left _ _
  have hy : |q.2 - p.2| ≤ dist q p := by
    rw [← Real.dist_eq]; exact le_max_right _ _
  rw [Real.dist_eq]
  refine (h _ _ _ _).trans_lt ?_
  have h1 : c * |q.1 - p.1| ≤ |c| * dist q p :=
    mul_le_mul (le_abs_self c) hx (abs_nonneg _) (abs_nonneg _)
  have h2 : d * |q.2 - p.2| ≤ |d| * dist q p :=
    mul_le_mul (le_abs_self d) hy (abs_nonneg _) (abs_nonneg _)
  rw [lt_div_iff₀ (by positivity)] at hq
  have := dist_nonneg (x := q) (y := p)
  nlinarith

/-- The general bound for apertures: positions may be replaced outside the aperture by any others as
long as the distances stay Lipschitz. -/
theorem aper_err (A : Aper) (S : Surf) (v cp delay dt xo yo zo : ℝ) (nt : ℕ) {φ : ℝ → ℝ} {K L : ℝ}
    (hφ : Tame φ K L) (hdt : 0 < dt) (hcp : 0 < cp)
    (hin : ∀ q < S.rows, ∀ j < S.cols q, 0 ≤ S.arrives cp delay dt xo yo zo q j ∧
      S.arrives cp delay dt xo yo zo q j < nt)
    (z : ℝ) (hz : 0 < z) (haway : A.Away z (xo, yo, zo))
    (W dx ds η e : ℝ) (hdx : 0 < dx) (hds : 0 < ds) (hle : A.lo ≤ A.hi)
    (hhalf : Continuous A.half) (hh0 : ∀ s, 0 ≤ A.half s) (hhW : ∀ s, A.half s ≤ W)
    (harea : S.area = dx * ds) (hM : |A.lo + S.rows * ds - A.hi| ≤ η)
    (hN : ∀ q < S.rows, |S.cols q * dx - 2 * A.half (A.lo + (q + 1 / 2) * ds)| ≤ dx / 2)
    (he : ∀ q < S.rows, ∀ s, A.lo + q * ds ≤ s → s ≤ A.lo + (q + 1) * ds →
      |A.half s - A.half (A.lo + (q + 1 / 2) * ds)| ≤ e) (he0 : 0 ≤ e)
    (hins : ∀ q < S.rows, A.lo + (q + 1 / 2) * ds ≤ A.hi)
    (hinx : ∀ q < S.rows, ∀ j < S.cols q, |-A.half (A.lo + (q + 1 / 2) * ds) + (j + 1 / 2) * dx| ≤
      A.half (A.lo + (q + 1 / 2) * ds))
    (hpos : ∀ q < S.rows, ∀ j < S.cols q, (S.x q j, S.y q j, S.z q j) =
      A.pos (-A.half (A.lo + (q + 1 / 2) * ds) + (j + 1 / 2) * dx) (A.lo + (q + 1 / 2) * ds))
    (hfoc : ∀ q < S.rows, ∀ j < S.cols q, S.foc q j =
      A.foc (-A.half (A.lo + (q + 1 / 2) * ds) + (j + 1 / 2) * dx) (A.lo + (q + 1 / 2) * ds))
    (P : ℝ → ℝ → ℝ × ℝ × ℝ)
    (hP : ∀ x s, A.lo ≤ s → s ≤ A.hi → |x| ≤ A.half s → P x s = A.pos x s)
    (cx cs fx fs : ℝ) (hcx : 0 ≤ cx) (hcs : 0 ≤ cs) (hfx : 0 ≤ fx) (hfs : 0 ≤ fs)
    (hD : ∀ x x' s s', |edist3 (xo, yo, zo) (P x s) - edist3 (xo, yo, zo) (P x' s')| ≤
      cx * |x - x'| + cs * |s - s'|)
    (hf : ∀ x x' s s', |A.foc x s - A.foc x' s'| ≤ fx * |x - x'| + fs * |s - s'|) :
    |weigh nt dt φ (S.response v cp delay dt xo yo zo) - A.rayleigh v cp delay φ (xo, yo, zo)| ≤
      convBound v K L z dt W (A.hi - A.lo) dx η e ((cx * dx + cs * ds) / 2)
        (1000 / cp * ((cx * dx + cs * ds) / 2) + (fx * dx + fs * ds) / 2) := by
  set o : ℝ × ℝ × ℝ := (xo, yo, zo) with ho
  set r : ℝ → ℝ → ℝ := fun x s => max (edist3 o (P x s)) z with hr
  set τ : ℝ → ℝ → ℝ := fun x s => r x s * 1000 / cp - (delay - A.foc x s) with hτ
  have hlip : ∀ x x' s s', |r x s - r x' s'| ≤ cx * |x - x'| + cs * |s - s'| := fun x x' s s' =>
    (abs_max_sub_max_le_abs _ _ _).trans (hD x x' s s')
  have hc : 0 < 1000 / cp := by positivity
  have hτlip : ∀ x x' s s', |τ x s - τ x' s'| ≤
      (1000 / cp * cx + fx) * |x - x'| + (1000 / cp * cs + fs) * |s - s'| := by
    intro x x' s s'
    have e1 : τ x s - τ x' s' = 1000 / cp * (r x s - r x' s') + (A.foc x s - A.foc x' s') := by
      simp only [hτ]; ring
    have h1 := mul_le_mul_of_nonneg_left (hlip x x' s s') hc.le
    have h2 := hf x x' s s'
    rw [e1]
    refine (abs_add_le _ _).trans ?_
    rw [abs_mul, abs_of_pos hc]
    nlinarith
  have hon : ∀ x s, A.lo ≤ s → s ≤ A.hi → |x| ≤ A.half s → r x s = edist3 o (A.pos x s) := by
    intro x s h1 h2 h3
    simp only [hr]
    rw [hP x s h1 h2 h3, max_eq_left (haway x s h1 h2 h3)]
  have hdist : ∀ q < S.rows, ∀ j < S.cols q, S.dist xo yo zo q j =
      r (-A.half (A.lo + (q + 1 / 2) * ds) + (j + 1 / 2) * dx) (A.lo + (q + 1 / 2) * ds) := by
    intro q hq j hj
    rw [hon _ _ (by have : (0:ℝ) ≤ (q + 1 / 2) * ds := by positivity
                    linarith) (hins q hq) (hinx q hq j hj), ← hpos q hq j hj]
    rfl
  have key := response_err S v cp delay dt xo yo zo nt hφ hdt hin r τ
    (lip_continuous r _ _ hlip) (lip_continuous τ _ _ hτlip) z hz (fun x s => le_max_right _ _)
    A.half hhalf W hh0 hhW dx ds A.lo A.hi η e ((cx * dx + cs * ds) / 2)
    (1000 / cp * ((cx * dx + cs * ds) / 2) + (fx * dx + fs * ds) / 2) hdx hds harea hM hN he he0
    hdist (by
      intro q hq j hj
      rw [hdist q hq j hj, hfoc q hq j hj])
    (by
      intro x x' s s' h1 h2
      refine (hlip x x' s s').trans ?_
      have := mul_le_mul_of_nonneg_left h1 hcx
      have := mul_le_mul_of_nonneg_left h2 hcs
      linarith)
    (by
      intro x x' s s' h1 h2
      refine (hτlip x x' s s').trans ?_
      have h3 := mul_le_mul_of_nonneg_left h1 (show 0 ≤ 1000 / cp * cx + fx by positivity)
      have h4 := mul_le_mul_of_nonneg_left h2 (show 0 ≤ 1000 / cp * cs + fs by positivity)
      refine (add_le_add h3 h4).trans (le_of_eq ?_); ring)
  have hint : (∫ s in A.lo..A.hi, ∫ x in (-A.half s)..(A.half s),
      v / (2 * Real.pi * r x s) * φ (τ x s)) = A.rayleigh v cp delay φ o := by
    unfold Aper.rayleigh
    refine intervalIntegral.integral_congr fun s hs => ?_
    rw [Set.uIcc_of_le hle] at hs
    refine intervalIntegral.integral_congr fun x hx => ?_
    rw [Set.uIcc_of_le (by linarith [hh0 s])] at hx
    have := hon x s hs.1 hs.2 (abs_le.mpr ⟨hx.1, hx.2⟩)
    simp only [hτ, this]
  rw [hint] at key
  exact key

/-! ### The error of each transducer -/

/-- Apertures with non-negative dimensions; a spherical cap is less than a hemisphere, the chord of a
cylinder at most its diameter. -/
def Kern.Aperture : Kern ℝ → Prop
  | .rect _ a b => 0 ≤ a ∧ 0 ≤ b
  | .rectF _ _ a b => 0 ≤ a ∧ 0 ≤ b
  | .circ _ R => 0 ≤ R
  | .circF _ _ R => 0 ≤ R
  | .line a => 0 ≤ a
  | .sphere R Rc => 0 ≤ R ∧ R < |Rc|
  | .cylind _ a b Rc => 0 ≤ a ∧ 0 ≤ b ∧ 0 < |Rc|

/-- Error of the response of each transducer, with cells of `dx` by `dy` and sampling interval `dt`. -/
noncomputable def Kern.convErr (k : Kern ℝ) (v cp K L z dt dx dy : ℝ) : ℝ :=
  match k with
  | .rect _ a b => convBound v K L z dt (a / 2) b dx (dy / 2) 0 ((dx + dy) / 2) (1000 / cp * ((dx + dy) / 2))
  | .rectF _ _ a b => convBound v K L z dt (a / 2) b dx (dy / 2) 0 ((dx + dy) / 2) (1000 / cp * (dx + dy))
  | .circ _ R => convBound v K L z dt R (2 * R) dx (dy / 2) (Real.sqrt ((2 * R + dy / 2) * (dy / 2)))
      ((dx + dy) / 2) (1000 / cp * ((dx + dy) / 2))
  | .circF _ _ R => convBound v K L z dt R (2 * R) dx (dy / 2) (Real.sqrt ((2 * R + dy / 2) * (dy / 2)))
      ((dx + dy) / 2) (1000 / cp * (dx + dy))
  | .line a => convBound v K L z dt (a / 2) dy dx 0 0 (dx / 2) (1000 / cp * (dx / 2))
  | .sphere R Rc => convBound v K L z dt R (2 * R) dx (dy / 2) (Real.sqrt ((2 * R + dy / 2) * (dy / 2)))
      ((1 + R / Real.sqrt (Rc ^ 2 - R ^ 2)) * ((dx + dy) / 2))
      (1000 / cp * ((1 + R / Real.sqrt (Rc ^ 2 - R ^ 2)) * ((dx + dy) / 2)))
  | .cylind _ a b Rc => convBound v K L z dt (a / 2) (2 * (|Rc| * Real.arcsin (b / 2 / |Rc|))) dx
      (|Rc| * Real.arcsin (dy / |Rc|) / 2) 0 ((dx + 2 * (|Rc| * Real.arcsin (dy / |Rc|))) / 2)
      (1000 / cp * ((dx + 2 * (|Rc| * Real.arcsin (dy / |Rc|))) / 2))

theorem cells_cover {u d : ℝ} (hd : 0 < d) (hu : 0 ≤ u) :
    |(⌊u / d + 1 / 2⌋₊ : ℝ) * d - u| ≤ d / 2 := by
  have h0 : 0 ≤ u / d + 1 / 2 := by positivity
  have h1 := Nat.floor_le h0
  have h2 := Nat.lt_floor_add_one (u / d + 1 / 2)
  have e : u = u / d * d := by field_simp
  rw [abs_le]
  constructor <;> nlinarith

theorem cell_eq (a d : ℝ) (j : ℕ) : cell a d j = -(a / 2) + (j + 1 / 2) * d := by unfold cell; ring

theorem flat_lip (o : ℝ × ℝ × ℝ) (x x' s s' : ℝ) :
    |edist3 o (x, s, 0) - edist3 o (x', s', 0)| ≤ 1 * |x - x'| + 1 * |s - s'| := by
  have := edist3_lip o (x, s, 0) (x', s', 0)
  simp only [sub_self, abs_zero] at this
  linarith

theorem zero_lip (x x' s s' : ℝ) : |(0 : ℝ) - 0| ≤ 0 * |x - x'| + 0 * |s - s'| := by simp

/-- Rectangles, with any focusing delay. -/
theorem rect_err (S : Surf) (A : Aper) (a b v cp delay dt dx dy xo yo zo : ℝ) (nt : ℕ) {φ : ℝ → ℝ}
    {K L : ℝ} (foc : ℝ → ℝ → ℝ) (fx : ℝ) (hfx : 0 ≤ fx)
    (hfl : ∀ x x' s s', |foc x s - foc x' s'| ≤ fx * |x - x'| + fx * |s - s'|)
    (hS : S = { rectSurf a b dx dy with foc := fun q j => foc (cell a dx j) (cell b dy q) })
    (hA : A = ⟨-(b / 2), b / 2, fun _ => a / 2, fun x y => (x, y, 0), foc⟩)
    (ha : 0 ≤ a) (hb : 0 ≤ b) (hφ : Tame φ K L) (hdt : 0 < dt) (hcp : 0 < cp) (hdx : 0 < dx)
    (hdy : 0 < dy) (hin : ∀ q < S.rows, ∀ j < S.cols q, 0 ≤ S.arrives cp delay dt xo yo zo q j ∧
      S.arrives cp delay dt xo yo zo q j < nt)
    (z : ℝ) (hz : 0 < z) (haway : A.Away z (xo, yo, zo)) :
    |weigh nt dt φ (S.response v cp delay dt xo yo zo) - A.rayleigh v cp delay φ (xo, yo, zo)| ≤
      convBound v K L z dt (a / 2) b dx (dy / 2) 0 ((dx + dy) / 2)
        (1000 / cp * ((dx + dy) / 2) + fx * ((dx + dy) / 2)) := by
  subst hS hA
  refine (aper_err _ _ v cp delay dt xo yo zo nt hφ hdt hcp hin z hz haway (a / 2) dx dy (dy / 2) 0 hdx hdy
    (by show -(b / 2) ≤ b / 2; linarith) continuous_const (fun _ => by show 0 ≤ a / 2; linarith)
    (fun _ => le_refl _) rfl ?_ ?_ ?_ le_rfl ?_ ?_ ?_ ?_ (fun x y => (x, y, 0)) (fun _ _ _ _ _ => rfl)
    1 1 fx fx zero_le_one zero_le_one hfx hfx (fun x x' s s' => flat_lip _ x x' s s') hfl).trans ?_
  · have := cells_cover hdy hb
    show |-(b / 2) + (⌊b / dy + 1 / 2⌋₊ : ℝ) * dy - b / 2| ≤ dy / 2
    rwa [show -(b / 2) + (⌊b / dy + 1 / 2⌋₊ : ℝ) * dy - b / 2 = ⌊b / dy + 1 / 2⌋₊ * dy - b by ring]
  · intro q _
    have := cells_cover hdx ha
    show |(⌊a / dx + 1 / 2⌋₊ : ℝ) * dx - 2 * (a / 2)| ≤ dx / 2
    rwa [show 2 * (a / 2) = a by ring]
  · intro q _ s _ _; simp
  · intro q hq
    have := (abs_le.mp (cell_abs_le hdy hb q hq)).2
    rw [cell_eq] at this
    exact this
  · intro q _ j hj
    have := cell_abs_le hdx ha j hj
    rw [cell_eq] at this
    exact this
  · intro q _ j _
    show (cell a dx j, cell b dy q, (0 : ℝ)) = _
    rw [cell_eq, cell_eq]
  · intro q _ j _
    show foc (cell a dx j) (cell b dy q) = _
    rw [cell_eq, cell_eq]
  · refine le_of_eq ?_
    show convBound v K L z dt (a / 2) (b / 2 - -(b / 2)) dx (dy / 2) 0 ((1 * dx + 1 * dy) / 2)
      (1000 / cp * ((1 * dx + 1 * dy) / 2) + (fx * dx + fx * dy) / 2) = _
    congr 1 <;> ring

theorem sqrt_diff (p q : ℝ) : |Real.sqrt p - Real.sqrt q| ≤ Real.sqrt |p - q| := by
  have key : ∀ p q : ℝ, Real.sqrt p ≤ Real.sqrt q + Real.sqrt |p - q| := by
    intro p q
    have h1 := Real.sqrt_nonneg q
    have h2 := Real.sqrt_nonneg |p - q|
    rw [Real.sqrt_le_left (by positivity), add_sq, Real.sq_sqrt (abs_nonneg _)]
    have h3 : q ≤ Real.sqrt q ^ 2 := by
      rcases le_or_gt 0 q with h | h
      · rw [Real.sq_sqrt h]
      · have : 0 ≤ Real.sqrt q ^ 2 := by positivity
        linarith
    have h4 := le_abs_self (p - q)
    have : 0 ≤ 2 * Real.sqrt q * Real.sqrt |p - q| := by positivity
    linarith
  have h1 := key p q
  have h2 := key q p
  rw [abs_sub_comm q p] at h2
  exact abs_le.mpr ⟨by linarith, by linarith⟩

/-- Discs and surfaces over discs, with any focusing delay. -/
theorem disc_err (S : Surf) (A : Aper) (R v cp delay dt dx dy xo yo zo : ℝ) (nt : ℕ) {φ : ℝ → ℝ}
    {K L : ℝ} (foc : ℝ → ℝ → ℝ) (fx : ℝ) (hfx : 0 ≤ fx)
    (hfl : ∀ x x' s s', |foc x s - foc x' s'| ≤ fx * |x - x'| + fx * |s - s'|)
    (h : ℝ → ℝ → ℝ) (P : ℝ → ℝ → ℝ × ℝ × ℝ)
    (hP : ∀ x s, x ^ 2 + s ^ 2 ≤ R ^ 2 → P x s = (x, s, h x s)) (c : ℝ) (hc : 0 ≤ c)
    (hPl : ∀ x x' s s', |edist3 (xo, yo, zo) (P x s) - edist3 (xo, yo, zo) (P x' s')| ≤
      c * |x - x'| + c * |s - s'|)
    (hS : S = { discSurf R dx dy with
      z := fun q j => h ((discSurf R dx dy).x q j) ((discSurf R dx dy).y q j)
      foc := fun q j => foc ((discSurf R dx dy).x q j) ((discSurf R dx dy).y q j) })
    (hA : A = ⟨-R, R, fun y => Real.sqrt (R ^ 2 - y ^ 2), fun x y => (x, y, h x y), foc⟩)
    (hR : 0 ≤ R) (hφ : Tame φ K L) (hdt : 0 < dt) (hcp : 0 < cp) (hdx : 0 < dx)
    (hdy : 0 < dy) (hin : ∀ q < S.rows, ∀ j < S.cols q, 0 ≤ S.arrives cp delay dt xo yo zo q j ∧
      S.arrives cp delay dt xo yo zo q j < nt)
    (z : ℝ) (hz : 0 < z) (haway : A.Away z (xo, yo, zo)) :
    |weigh nt dt φ (S.response v cp delay dt xo yo zo) - A.rayleigh v cp delay φ (xo, yo, zo)| ≤
      convBound v K L z dt R (2 * R) dx (dy / 2) (Real.sqrt ((2 * R + dy / 2) * (dy / 2)))
        (c * ((dx + dy) / 2)) (1000 / cp * (c * ((dx + dy) / 2)) + fx * ((dx + dy) / 2)) := by
  subst hS hA
  have hcell : ∀ q : ℕ, -R + ((q : ℝ) + 1 / 2) * dy = cell (2 * R) dy q := by
    intro q; rw [cell_eq]; ring
  have hcellx : ∀ q j : ℕ, -Real.sqrt (R ^ 2 - cell (2 * R) dy q ^ 2) + ((j : ℝ) + 1 / 2) * dx =
      cell (2 * discHalf R dy q) dx j := by
    intro q j
    rw [cell_eq (2 * discHalf R dy q) dx j, discHalf]; ring
  have hrow : ∀ q, q < (discSurf R dx dy).rows → |cell (2 * R) dy q| ≤ R := by
    intro q hq
    have := cell_abs_le hdy (by linarith : 0 ≤ 2 * R) q hq
    linarith
  refine (aper_err _ _ v cp delay dt xo yo zo nt hφ hdt hcp hin z hz haway R dx dy (dy / 2)
    (Real.sqrt ((2 * R + dy / 2) * (dy / 2))) hdx hdy
    (by show -R ≤ R; linarith) (by fun_prop) (fun _ => Real.sqrt_nonneg _)
    (fun s => ?_) rfl ?_ ?_ ?_ (Real.sqrt_nonneg _) ?_ ?_ ?_ ?_ P ?_
    c c fx fx hc hc hfx hfx hPl hfl).trans ?_
  · show Real.sqrt (R ^ 2 - s ^ 2) ≤ R
    rw [Real.sqrt_le_left hR]
    nlinarith [sq_nonneg s]
  · have := cells_cover hdy (by linarith : 0 ≤ 2 * R)
    show |-R + (⌊2 * R / dy + 1 / 2⌋₊ : ℝ) * dy - R| ≤ dy / 2
    rwa [show -R + (⌊2 * R / dy + 1 / 2⌋₊ : ℝ) * dy - R = ⌊2 * R / dy + 1 / 2⌋₊ * dy - 2 * R by ring]
  · intro q _
    have := cells_cover hdx (by unfold discHalf; positivity : 0 ≤ 2 * discHalf R dy q)
    show |(⌊2 * discHalf R dy q / dx + 1 / 2⌋₊ : ℝ) * dx -
      2 * Real.sqrt (R ^ 2 - (-R + ((q : ℝ) + 1 / 2) * dy) ^ 2)| ≤ dx / 2
    rw [hcell]
    exact this
  · intro q hq s hs1 hs2
    show |Real.sqrt (R ^ 2 - s ^ 2) - Real.sqrt (R ^ 2 - (-R + ((q : ℝ) + 1 / 2) * dy) ^ 2)| ≤ _
    have hs1' : -R + (q : ℝ) * dy ≤ s := hs1
    have hs2' : s ≤ -R + ((q : ℝ) + 1) * dy := hs2
    rw [hcell]
    refine (sqrt_diff _ _).trans (Real.sqrt_le_sqrt ?_)
    have h1 := abs_le.mp (hrow q hq)
    have h2 : |cell (2 * R) dy q - s| ≤ dy / 2 := by
      rw [← hcell, abs_le]; constructor <;> linarith
    have h3 : |cell (2 * R) dy q + s| ≤ 2 * R + dy / 2 := by
      have := abs_le.mp h2
      rw [abs_le]; constructor <;> linarith
    rw [show R ^ 2 - s ^ 2 - (R ^ 2 - cell (2 * R) dy q ^ 2) =
      (cell (2 * R) dy q + s) * (cell (2 * R) dy q - s) by ring, abs_mul]
    exact mul_le_mul h3 h2 (abs_nonneg _) (by positivity)
  · intro q hq
    show -R + ((q : ℝ) + 1 / 2) * dy ≤ R
    rw [hcell]
    exact (abs_le.mp (hrow q hq)).2
  · intro q hq j hj
    show |-Real.sqrt (R ^ 2 - (-R + ((q : ℝ) + 1 / 2) * dy) ^ 2) + ((j : ℝ) + 1 / 2) * dx| ≤
      Real.sqrt (R ^ 2 - (-R + ((q : ℝ) + 1 / 2) * dy) ^ 2)
    rw [hcell, hcellx]
    have := cell_abs_le hdx (by unfold discHalf; positivity : 0 ≤ 2 * discHalf R dy q) j hj
    unfold discHalf at this ⊢
    linarith
  · intro q hq j hj
    show (cell (2 * discHalf R dy q) dx j, cell (2 * R) dy q,
      h (cell (2 * discHalf R dy q) dx j) (cell (2 * R) dy q)) = _
    simp only [hcell, hcellx]
  · intro q hq j hj
    show foc (cell (2 * discHalf R dy q) dx j) (cell (2 * R) dy q) = _
    simp only [hcell, hcellx]
  · intro x s hs1 hs2 hx
    refine hP x s ?_
    have h1 : |x| ≤ Real.sqrt (R ^ 2 - s ^ 2) := hx
    have h2 : s ^ 2 ≤ R ^ 2 := sq_le_sq' hs1 hs2
    have h3 : |x| ^ 2 ≤ Real.sqrt (R ^ 2 - s ^ 2) ^ 2 := by
      exact pow_le_pow_left₀ (abs_nonneg x) h1 2
    rw [Real.sq_sqrt (by linarith), sq_abs] at h3
    linarith
  · refine le_of_eq ?_
    show convBound v K L z dt R (R - -R) dx (dy / 2) (Real.sqrt ((2 * R + dy / 2) * (dy / 2)))
      ((c * dx + c * dy) / 2)
      (1000 / cp * ((c * dx + c * dy) / 2) + (fx * dx + fx * dy) / 2) = _
    congr 1 <;> ring

/-- Height of the cap, continued beyond the rim. -/
theorem cap_lip (R Rc : ℝ) (hR : 0 ≤ R) (hRc : R < |Rc|) (x x' s s' : ℝ) :
    |Real.sqrt (Rc ^ 2 - (min (Real.sqrt (x ^ 2 + s ^ 2)) R) ^ 2) -
      Real.sqrt (Rc ^ 2 - (min (Real.sqrt (x' ^ 2 + s' ^ 2)) R) ^ 2)| ≤
      R / Real.sqrt (Rc ^ 2 - R ^ 2) * (|x - x'| + |s - s'|) := by
  set t := min (Real.sqrt (x ^ 2 + s ^ 2)) R with ht
  set t' := min (Real.sqrt (x' ^ 2 + s' ^ 2)) R with ht'
  have h0 : 0 ≤ t := le_min (Real.sqrt_nonneg _) hR
  have h0' : 0 ≤ t' := le_min (Real.sqrt_nonneg _) hR
  have h1 : t ≤ R := min_le_right _ _
  have h1' : t' ≤ R := min_le_right _ _
  have hlip : |t - t'| ≤ |x - x'| + |s - s'| :=
    (abs_min_sub_min_le_max _ _ _ _).trans (by
      rw [sub_self, abs_zero, max_eq_left (abs_nonneg _)]; exact radius_lip x s x' s')
  have hm : 0 < Rc ^ 2 - R ^ 2 := by
    rw [← sq_abs Rc]; nlinarith
  have hs : 0 < Real.sqrt (Rc ^ 2 - R ^ 2) := Real.sqrt_pos.mpr hm
  have g1 : Real.sqrt (Rc ^ 2 - R ^ 2) ≤ Real.sqrt (Rc ^ 2 - t ^ 2) :=
    Real.sqrt_le_sqrt (by nlinarith)
  have g1' : Real.sqrt (Rc ^ 2 - R ^ 2) ≤ Real.sqrt (Rc ^ 2 - t' ^ 2) :=
    Real.sqrt_le_sqrt (by nlinarith)
  have e1 := Real.sq_sqrt (show 0 ≤ Rc ^ 2 - t ^ 2 by nlinarith)
  have e1' := Real.sq_sqrt (show 0 ≤ Rc ^ 2 - t' ^ 2 by nlinarith)
  set g := Real.sqrt (Rc ^ 2 - t ^ 2)
  set g' := Real.sqrt (Rc ^ 2 - t' ^ 2)
  set m := Real.sqrt (Rc ^ 2 - R ^ 2)
  have e2 : (g - g') * (g + g') = (t' - t) * (t + t') := by nlinarith
  have e3 : |g - g'| * (g + g') = |t - t'| * (t + t') := by
    rw [← abs_of_nonneg (show 0 ≤ g + g' by linarith), ← abs_mul, e2, abs_mul, abs_sub_comm,
      abs_of_nonneg (show 0 ≤ t + t' by linarith)]
  have h2 : |g - g'| * (2 * m) ≤ |t - t'| * (2 * R) := by
    have a1 : |g - g'| * (2 * m) ≤ |g - g'| * (g + g') :=
      mul_le_mul_of_nonneg_left (by linarith) (abs_nonneg _)
    have a2 : |t - t'| * (t + t') ≤ |t - t'| * (2 * R) :=
      mul_le_mul_of_nonneg_left (by linarith) (abs_nonneg _)
    linarith
  have h3 : |g - g'| ≤ R / m * |t - t'| := by
    rw [div_mul_eq_mul_div, le_div_iff₀ hs]; linarith
  exact h3.trans (mul_le_mul_of_nonneg_left hlip (by positivity))

/-- The error of each transducer, if all its cells arrive in the sampled interval. -/
theorem kern_err (k : Kern ℝ) (p : Par ℝ) (hk : k.Aperture) (hdx : 0 < p.dx) (hdy : 0 < p.dy)
    (hdt : 0 < p.dt) (hcp : 0 < p.cp) (v delay xo yo zo : ℝ) (nt : ℕ) {φ : ℝ → ℝ} {K L : ℝ}
    (hφ : Tame φ K L)
    (hin : ∀ q < (k.surf p).rows, ∀ j < (k.surf p).cols q,
      0 ≤ (k.surf p).arrives p.cp delay p.dt xo yo zo q j ∧
      (k.surf p).arrives p.cp delay p.dt xo yo zo q j < nt)
    (z : ℝ) (hz : 0 < z) (haway : (k.aper p.cp p.dy).Away z (xo, yo, zo)) :
    |weigh nt p.dt φ ((k.surf p).response v p.cp delay p.dt xo yo zo) -
      (k.aper p.cp p.dy).rayleigh v p.cp delay φ (xo, yo, zo)| ≤
      k.convErr v p.cp K L z p.dt p.dx p.dy := by
  have hc : 0 ≤ 1000 / p.cp := by positivity
  cases k with
  | rect w a b =>
    refine (rect_err _ _ a b v p.cp delay p.dt p.dx p.dy xo yo zo nt (fun _ _ => 0) 0 le_rfl
      zero_lip rfl rfl hk.1 hk.2 hφ hdt hcp hdx hdy hin z hz haway).trans (le_of_eq ?_)
    simp only [Kern.convErr]; congr 1; ring
  | rectF met f a b =>
    refine (rect_err _ _ a b v p.cp delay p.dt p.dx p.dy xo yo zo nt
      (focusAt met f a b (Real.sqrt (a ^ 2 + b ^ 2)) p.cp) (1000 / p.cp) hc
      (fun x x' s s' => by rw [← mul_add]; exact focusAt_lip met f a b _ p.cp x s x' s' hcp)
      ?_ rfl hk.1 hk.2 hφ hdt hcp hdx hdy hin z hz haway).trans (le_of_eq ?_)
    · cases met <;> rfl
    · simp only [Kern.convErr]; congr 1; ring
  | circ w R =>
    refine (disc_err _ _ R v p.cp delay p.dt p.dx p.dy xo yo zo nt (fun _ _ => 0) 0 le_rfl
      zero_lip (fun _ _ => 0) (fun x y => (x, y, 0)) (fun _ _ _ => rfl) 1 zero_le_one
      (fun x x' s s' => flat_lip _ x x' s s') rfl rfl hk hφ hdt hcp hdx hdy hin z hz haway).trans
      (le_of_eq ?_)
    simp only [Kern.convErr]; congr 1 <;> ring
  | circF met f R =>
    refine (disc_err _ _ R v p.cp delay p.dt p.dx p.dy xo yo zo nt (focusAt met f R R R p.cp)
      (1000 / p.cp) hc
      (fun x x' s s' => by rw [← mul_add]; exact focusAt_lip met f R R R p.cp x s x' s' hcp)
      (fun _ _ => 0) (fun x y => (x, y, 0)) (fun _ _ _ => rfl) 1 zero_le_one
      (fun x x' s s' => flat_lip _ x x' s s') ?_ rfl hk hφ hdt hcp hdx hdy hin z hz haway).trans
      (le_of_eq ?_)
    · cases met <;> rfl
    · simp only [Kern.convErr]; congr 1 <;> ring
  | line a =>
    refine (aper_err _ _ v p.cp delay p.dt xo yo zo nt hφ hdt hcp hin z hz haway (a / 2) p.dx p.dy 0 0
      hdx hdy (by show -(p.dy / 2) ≤ p.dy / 2; linarith) continuous_const
      (fun _ => by have : (0:ℝ) ≤ a := hk
                   show 0 ≤ a / 2; linarith) (fun _ => le_refl _) rfl ?_ ?_ ?_ le_rfl ?_ ?_ ?_ ?_
      (fun x _ => (x, 0, 0)) (fun _ _ _ _ _ => rfl) 1 0 0 0 zero_le_one le_rfl le_rfl le_rfl ?_
      (fun x x' s s' => zero_lip x x' s s')).trans ?_
    · show |-(p.dy / 2) + ((1 : ℕ) : ℝ) * p.dy - p.dy / 2| ≤ 0
      rw [show -(p.dy / 2) + ((1 : ℕ) : ℝ) * p.dy - p.dy / 2 = 0 by push_cast; ring, abs_zero]
    · intro q _
      have := cells_cover hdx hk
      show |(⌊a / p.dx + 1 / 2⌋₊ : ℝ) * p.dx - 2 * (a / 2)| ≤ p.dx / 2
      rwa [show 2 * (a / 2) = a by ring]
    · intro q _ s _ _; simp [Kern.aper]
    · intro q hq
      have : q = 0 := by have : q < 1 := hq
                         omega
      subst this
      show -(p.dy / 2) + (((0 : ℕ) : ℝ) + 1 / 2) * p.dy ≤ p.dy / 2
      push_cast; linarith
    · intro q _ j hj
      have := cell_abs_le hdx hk j hj
      rw [cell_eq] at this
      exact this
    · intro q _ j _
      show (cell a p.dx j, (0 : ℝ), (0 : ℝ)) = _
      rw [cell_eq]; rfl
    · intro q _ j _; rfl
    · intro x x' s s'
      have := edist3_lip (xo, yo, zo) (x, 0, 0) (x', 0, 0)
      simp only [sub_self, abs_zero] at this
      linarith
    · refine le_of_eq ?_
      show convBound v K L z p.dt (a / 2) (p.dy / 2 - -(p.dy / 2)) p.dx 0 0
        ((1 * p.dx + 0 * p.dy) / 2)
        (1000 / p.cp * ((1 * p.dx + 0 * p.dy) / 2) + (0 * p.dx + 0 * p.dy) / 2) = _
      simp only [Kern.convErr]
      congr 1 <;> ring
  | sphere R Rc =>
    obtain ⟨hR, hRc⟩ := hk
    have hm : 0 ≤ R / Real.sqrt (Rc ^ 2 - R ^ 2) := by positivity
    refine (disc_err _ _ R v p.cp delay p.dt p.dx p.dy xo yo zo nt (fun _ _ => 0) 0 le_rfl
      zero_lip (fun x y => if 0 ≤ Rc then Rc - Real.sqrt (Rc ^ 2 - x ^ 2 - y ^ 2)
        else Rc + Real.sqrt (Rc ^ 2 - x ^ 2 - y ^ 2))
      (fun x y => (x, y, if 0 ≤ Rc then Rc - Real.sqrt (Rc ^ 2 - (min (Real.sqrt (x ^ 2 + y ^ 2)) R) ^ 2)
        else Rc + Real.sqrt (Rc ^ 2 - (min (Real.sqrt (x ^ 2 + y ^ 2)) R) ^ 2)))
      ?_ (1 + R / Real.sqrt (Rc ^ 2 - R ^ 2)) (by positivity) ?_ rfl rfl hR hφ hdt hcp hdx hdy hin z hz
      haway).trans (le_of_eq ?_)
    · intro x s h
      have h1 : Real.sqrt (x ^ 2 + s ^ 2) ≤ R := by rw [Real.sqrt_le_left hR]; exact h
      rw [min_eq_left h1, Real.sq_sqrt (by positivity), sub_sub]
    · intro x x' s s'
      have h1 := edist3_lip (xo, yo, zo) (x, s, if 0 ≤ Rc then Rc - Real.sqrt (Rc ^ 2 - (min (Real.sqrt (x ^ 2 + s ^ 2)) R) ^ 2)
        else Rc + Real.sqrt (Rc ^ 2 - (min (Real.sqrt (x ^ 2 + s ^ 2)) R) ^ 2))
        (x', s', if 0 ≤ Rc then Rc - Real.sqrt (Rc ^ 2 - (min (Real.sqrt (x' ^ 2 + s' ^ 2)) R) ^ 2)
        else Rc + Real.sqrt (Rc ^ 2 - (min (Real.sqrt (x' ^ 2 + s' ^ 2)) R) ^ 2))
      have h2 := cap_lip R Rc hR hRc x x' s s'
      refine h1.trans ?_
      simp only
      have h3 : |(if 0 ≤ Rc then Rc - Real.sqrt (Rc ^ 2 - (min (Real.sqrt (x ^ 2 + s ^ 2)) R) ^ 2)
        else Rc + Real.sqrt (Rc ^ 2 - (min (Real.sqrt (x ^ 2 + s ^ 2)) R) ^ 2)) -
        (if 0 ≤ Rc then Rc - Real.sqrt (Rc ^ 2 - (min (Real.sqrt (x' ^ 2 + s' ^ 2)) R) ^ 2)
        else Rc + Real.sqrt (Rc ^ 2 - (min (Real.sqrt (x' ^ 2 + s' ^ 2)) R) ^ 2))| =
        |Real.sqrt (Rc ^ 2 - (min (Real.sqrt (x ^ 2 + s ^ 2)) R) ^ 2) -
      Real.sqrt (Rc ^ 2 - (min (Real.sqrt (x' ^ 2 + s' ^ 2)) R) ^ 2)| := by
        split
        · rw [sub_sub_sub_cancel_left, abs_sub_comm]
        · rw [add_sub_add_left_eq_sub]
      rw [h3]
      linarith
    · simp only [Kern.convErr]; congr 1 <;> ring
  | cylind w a b Rc =>
    obtain ⟨ha, hb, hRc⟩ := hk
    have hθ : 0 ≤ Real.arcsin (b / 2 / |Rc|) := Real.arcsin_nonneg.mpr (by positivity)
    have hdθ : 0 < Real.arcsin (p.dy / |Rc|) := Real.arcsin_pos.mpr (by positivity)
    have hcell : ∀ q : ℕ, -(|Rc| * Real.arcsin (b / 2 / |Rc|)) + ((q : ℝ) + 1 / 2) *
        (|Rc| * Real.arcsin (p.dy / |Rc|)) =
        |Rc| * cell (2 * Real.arcsin (b / 2 / |Rc|)) (Real.arcsin (p.dy / |Rc|)) q := by
      intro q; rw [cell_eq]; ring
    refine (aper_err _ _ v p.cp delay p.dt xo yo zo nt hφ hdt hcp hin z hz haway (a / 2) p.dx
      (|Rc| * Real.arcsin (p.dy / |Rc|)) (|Rc| * Real.arcsin (p.dy / |Rc|) / 2) 0
      hdx (by positivity) (by
        show -(|Rc| * Real.arcsin (b / 2 / |Rc|)) ≤ |Rc| * Real.arcsin (b / 2 / |Rc|)
        have : 0 ≤ |Rc| * Real.arcsin (b / 2 / |Rc|) := by positivity
        linarith) continuous_const
      (fun _ => by show 0 ≤ a / 2; linarith) (fun _ => le_refl _) ?_ ?_ ?_ ?_ le_rfl ?_ ?_ ?_ ?_
      (fun x s => (x, |Rc| * Real.sin (s / |Rc|), Rc - Rc * Real.cos (s / |Rc|)))
      (fun _ _ _ _ _ => rfl) 1 2 0 0 zero_le_one zero_le_two le_rfl le_rfl ?_
      (fun x x' s s' => zero_lip x x' s s')).trans ?_
    · show |Rc| * p.dx * Real.arcsin (p.dy / |Rc|) = _
      ring
    · have := cells_cover hdθ (by positivity : 0 ≤ 2 * Real.arcsin (b / 2 / |Rc|))
      show |-(|Rc| * Real.arcsin (b / 2 / |Rc|)) +
        (⌊2 * Real.arcsin (b / 2 / |Rc|) / Real.arcsin (p.dy / |Rc|) + 1 / 2⌋₊ : ℝ) *
          (|Rc| * Real.arcsin (p.dy / |Rc|)) - |Rc| * Real.arcsin (b / 2 / |Rc|)| ≤ _
      rw [show -(|Rc| * Real.arcsin (b / 2 / |Rc|)) +
        (⌊2 * Real.arcsin (b / 2 / |Rc|) / Real.arcsin (p.dy / |Rc|) + 1 / 2⌋₊ : ℝ) *
          (|Rc| * Real.arcsin (p.dy / |Rc|)) - |Rc| * Real.arcsin (b / 2 / |Rc|) =
        |Rc| * ((⌊2 * Real.arcsin (b / 2 / |Rc|) / Real.arcsin (p.dy / |Rc|) + 1 / 2⌋₊ : ℝ) *
          Real.arcsin (p.dy / |Rc|) - 2 * Real.arcsin (b / 2 / |Rc|)) by ring, abs_mul, abs_abs]
      refine (mul_le_mul_of_nonneg_left this hRc.le).trans (le_of_eq ?_); ring
    · intro q _
      have := cells_cover hdx ha
      show |(⌊a / p.dx + 1 / 2⌋₊ : ℝ) * p.dx - 2 * (a / 2)| ≤ p.dx / 2
      rwa [show 2 * (a / 2) = a by ring]
    · intro q _ s _ _; simp [Kern.aper]
    · intro q hq
      have := (abs_le.mp (cell_abs_le hdθ (by positivity) q hq)).2
      show -(|Rc| * Real.arcsin (b / 2 / |Rc|)) + ((q : ℝ) + 1 / 2) *
        (|Rc| * Real.arcsin (p.dy / |Rc|)) ≤ |Rc| * Real.arcsin (b / 2 / |Rc|)
      rw [hcell]
      exact mul_le_mul_of_nonneg_left (by linarith) hRc.le
    · intro q _ j hj
      have := cell_abs_le hdx ha j hj
      rw [cell_eq] at this
      exact this
    · intro q _ j _
      show (cell a p.dx j,
        |Rc| * Real.sin (cell (2 * Real.arcsin (b / 2 / |Rc|)) (Real.arcsin (p.dy / |Rc|)) q),
        Rc - Rc * Real.cos (cell (2 * Real.arcsin (b / 2 / |Rc|)) (Real.arcsin (p.dy / |Rc|)) q)) =
        (-(a / 2) + ((j : ℝ) + 1 / 2) * p.dx,
          |Rc| * Real.sin ((-(|Rc| * Real.arcsin (b / 2 / |Rc|)) + ((q : ℝ) + 1 / 2) *
            (|Rc| * Real.arcsin (p.dy / |Rc|))) / |Rc|),
          Rc - Rc * Real.cos ((-(|Rc| * Real.arcsin (b / 2 / |Rc|)) + ((q : ℝ) + 1 / 2) *
            (|Rc| * Real.arcsin (p.dy / |Rc|))) / |Rc|))
      rw [hcell, mul_div_cancel_left₀ _ hRc.ne', cell_eq a]
    · intro q _ j _; rfl
    · intro x x' s s'
      have h1 := edist3_lip (xo, yo, zo)
        (x, |Rc| * Real.sin (s / |Rc|), Rc - Rc * Real.cos (s / |Rc|))
        (x', |Rc| * Real.sin (s' / |Rc|), Rc - Rc * Real.cos (s' / |Rc|))
      have e1 : |Rc| * |(s / |Rc|) - (s' / |Rc|)| = |s - s'| := by
        rw [← sub_div, abs_div, abs_abs]; field_simp
      have h2 : |(|Rc| * Real.sin (s / |Rc|)) - (|Rc| * Real.sin (s' / |Rc|))| ≤ |s - s'| := by
        rw [← mul_sub, abs_mul, abs_abs, ← e1]
        refine mul_le_mul_of_nonneg_left ?_ hRc.le
        have := Real.lipschitzWith_sin.dist_le_mul (s / |Rc|) (s' / |Rc|)
        simpa [Real.dist_eq] using this
      have h3 : |Rc - Rc * Real.cos (s / |Rc|) - (Rc - Rc * Real.cos (s' / |Rc|))| ≤ |s - s'| := by
        rw [sub_sub_sub_cancel_left, ← mul_sub, abs_mul, ← e1, abs_sub_comm (Real.cos _)]
        refine mul_le_mul_of_nonneg_left ?_ hRc.le
        have := Real.lipschitzWith_cos.dist_le_mul (s / |Rc|) (s' / |Rc|)
        simpa [Real.dist_eq] using this
      refine h1.trans ?_
      simp only
      linarith
    · refine le_of_eq ?_
      show convBound v K L z p.dt (a / 2) (|Rc| * Real.arcsin (b / 2 / |Rc|) -
        -(|Rc| * Real.arcsin (b / 2 / |Rc|))) p.dx (|Rc| * Real.arcsin (p.dy / |Rc|) / 2) 0
        ((1 * p.dx + 2 * (|Rc| * Real.arcsin (p.dy / |Rc|))) / 2)
        (1000 / p.cp * ((1 * p.dx + 2 * (|Rc| * Real.arcsin (p.dy / |Rc|))) / 2) +
          (0 * p.dx + 0 * (|Rc| * Real.arcsin (p.dy / |Rc|))) / 2) = _
      simp only [Kern.convErr]
      congr 1 <;> ring

/-! ### Support: what arrives when -/

/-- Arrival time (microseconds) at `o` from the point `(x, s)` of the surface. -/
noncomputable def Aper.time (A : Aper) (cp delay : ℝ) (o : ℝ × ℝ × ℝ) (x s : ℝ) : ℝ :=
  edist3 o (A.pos x s) * 1000 / cp - (delay - A.foc x s)

/-- All arrival times at `o` from the surface lie between `lo` and `hi` (exclusive). -/
def Aper.Within (A : Aper) (cp delay : ℝ) (o : ℝ × ℝ × ℝ) (lo hi : ℝ) : Prop :=
  ∀ x s, A.lo ≤ s → s ≤ A.hi → |x| ≤ A.half s →
    lo ≤ A.time cp delay o x s ∧ A.time cp delay o x s < hi

/-- Every cell the kernels use lies on the surface. -/
theorem cells_on_surface (k : Kern ℝ) (p : Par ℝ) (hk : k.Aperture) (hdx : 0 < p.dx) (hdy : 0 < p.dy)
    (q j : ℕ) (hq : q < (k.surf p).rows) (hj : j < (k.surf p).cols q) :
    ∃ x s, (k.aper p.cp p.dy).lo ≤ s ∧ s ≤ (k.aper p.cp p.dy).hi ∧
      |x| ≤ (k.aper p.cp p.dy).half s ∧
      ((k.surf p).x q j, (k.surf p).y q j, (k.surf p).z q j) = (k.aper p.cp p.dy).pos x s ∧
      (k.surf p).foc q j = (k.aper p.cp p.dy).foc x s := by
  have hdisc : ∀ R : ℝ, 0 ≤ R → q < (discSurf R p.dx p.dy).rows → j < (discSurf R p.dx p.dy).cols q →
      -R ≤ cell (2 * R) p.dy q ∧ cell (2 * R) p.dy q ≤ R ∧ |cell (2 * discHalf R p.dy q) p.dx j| ≤
        Real.sqrt (R ^ 2 - cell (2 * R) p.dy q ^ 2) := by
    intro R hR hq hj
    have h1 := abs_le.mp (cell_abs_le hdy (by linarith : 0 ≤ 2 * R) q hq)
    have h2 := cell_abs_le hdx (by unfold discHalf; positivity : 0 ≤ 2 * discHalf R p.dy q) j hj
    refine ⟨by linarith, by linarith, ?_⟩
    unfold discHalf at h2 ⊢
    linarith
  cases k with
  | rect w a b =>
    have h1 := abs_le.mp (cell_abs_le hdy hk.2 q hq)
    exact ⟨cell a p.dx j, cell b p.dy q, h1.1, h1.2, cell_abs_le hdx hk.1 j hj, rfl, rfl⟩
  | rectF met f a b =>
    have h1 := abs_le.mp (cell_abs_le hdy hk.2 q hq)
    exact ⟨cell a p.dx j, cell b p.dy q, h1.1, h1.2, cell_abs_le hdx hk.1 j hj, rfl, by cases met <;> rfl⟩
  | circ w R =>
    obtain ⟨h1, h2, h3⟩ := hdisc R hk hq hj
    exact ⟨cell (2 * discHalf R p.dy q) p.dx j, cell (2 * R) p.dy q, h1, h2, h3, rfl, rfl⟩
  | circF met f R =>
    obtain ⟨h1, h2, h3⟩ := hdisc R hk hq hj
    exact ⟨cell (2 * discHalf R p.dy q) p.dx j, cell (2 * R) p.dy q, h1, h2, h3, rfl, by cases met <;> rfl⟩
  | sphere R Rc =>
    obtain ⟨h1, h2, h3⟩ := hdisc R hk.1 hq hj
    exact ⟨cell (2 * discHalf R p.dy q) p.dx j, cell (2 * R) p.dy q, h1, h2, h3, rfl, rfl⟩
  | line a =>
    exact ⟨cell a p.dx j, 0, by show -(p.dy / 2) ≤ 0; linarith, by show 0 ≤ p.dy / 2; linarith,
      cell_abs_le hdx hk j hj, rfl, rfl⟩
  | cylind w a b Rc =>
    obtain ⟨ha, hb, hRc⟩ := hk
    have hdθ : 0 < Real.arcsin (p.dy / |Rc|) := Real.arcsin_pos.mpr (by positivity)
    have hθ : 0 ≤ Real.arcsin (b / 2 / |Rc|) := Real.arcsin_nonneg.mpr (by positivity)
    have h1 := abs_le.mp (cell_abs_le hdθ (by positivity) q hq)
    refine ⟨cell a p.dx j, |Rc| * cell (2 * Real.arcsin (b / 2 / |Rc|)) (Real.arcsin (p.dy / |Rc|)) q,
      ?_, ?_, cell_abs_le hdx ha j hj, ?_, rfl⟩
    · show -(|Rc| * Real.arcsin (b / 2 / |Rc|)) ≤ _
      rw [← mul_neg]
      exact mul_le_mul_of_nonneg_left (by linarith) hRc.le
    · exact mul_le_mul_of_nonneg_left (by linarith) hRc.le
    · simp only [Kern.aper, Kern.surf, cylindSurf, mul_div_cancel_left₀ _ hRc.ne']

theorem cell_time (k : Kern ℝ) (p : Par ℝ) (hk : k.Aperture) (hdx : 0 < p.dx) (hdy : 0 < p.dy)
    (delay xo yo zo : ℝ) (q j : ℕ) (hq : q < (k.surf p).rows) (hj : j < (k.surf p).cols q) :
    ∃ x s, (k.aper p.cp p.dy).lo ≤ s ∧ s ≤ (k.aper p.cp p.dy).hi ∧
      |x| ≤ (k.aper p.cp p.dy).half s ∧ (k.surf p).arrives p.cp delay p.dt xo yo zo q j =
        rintR ((k.aper p.cp p.dy).time p.cp delay (xo, yo, zo) x s / p.dt) := by
  obtain ⟨x, s, h1, h2, h3, h4, h5⟩ := cells_on_surface k p hk hdx hdy q j hq hj
  refine ⟨x, s, h1, h2, h3, ?_⟩
  unfold Aper.time
  rw [← h4, ← h5]
  rfl

/-- C80, support: if all arrival times from the surface lie between `lo` and `hi`, the response is zero
at all samples before `lo` and after `hi`, up to half a sampling interval. -/
theorem C80_support (k : Kern ℝ) (p : Par ℝ) (hk : k.Aperture) (hdx : 0 < p.dx) (hdy : 0 < p.dy)
    (hdt : 0 < p.dt) (v delay xo yo zo lo hi : ℝ)
    (ht : (k.aper p.cp p.dy).Within p.cp delay (xo, yo, zo) lo hi)
    (i : ℕ) (hi' : (i : ℝ) * p.dt < lo - p.dt / 2 ∨ hi + p.dt / 2 ≤ i * p.dt) :
    (k.surf p).response v p.cp delay p.dt xo yo zo i = 0 := by
  unfold Surf.response
  refine Finset.sum_eq_zero fun q hq => Finset.sum_eq_zero fun j hj => if_neg fun h => ?_
  obtain ⟨x, s, h1, h2, h3, h4⟩ := cell_time k p hk hdx hdy delay xo yo zo q j
    (Finset.mem_range.mp hq) (Finset.mem_range.mp hj)
  rw [h4] at h
  obtain ⟨g1, g2⟩ := ht x s h1 h2 h3
  have hn := rintR_near ((k.aper p.cp p.dy).time p.cp delay (xo, yo, zo) x s / p.dt)
  rw [h] at hn
  have hn2 := mul_le_mul_of_nonneg_right hn hdt.le
  rw [← abs_of_pos hdt, ← abs_mul, abs_of_pos hdt, sub_mul, div_mul_cancel₀ _ hdt.ne'] at hn2
  have hn3 := abs_le.mp hn2
  push_cast at hn3
  rcases hi' with h' | h' <;> linarith

/-- If the arrival times from the whole surface lie in the sampled interval, so do those of the cells. -/
theorem arrivals_in_range (k : Kern ℝ) (p : Par ℝ) (hk : k.Aperture) (hdx : 0 < p.dx) (hdy : 0 < p.dy)
    (hdt : 0 < p.dt) (delay xo yo zo : ℝ) (nt : ℕ)
    (ht : (k.aper p.cp p.dy).Within p.cp delay (xo, yo, zo) 0 (((nt : ℝ) - 1 / 2) * p.dt))
    (q j : ℕ) (hq : q < (k.surf p).rows) (hj : j < (k.surf p).cols q) :
    0 ≤ (k.surf p).arrives p.cp delay p.dt xo yo zo q j ∧
      (k.surf p).arrives p.cp delay p.dt xo yo zo q j < nt := by
  obtain ⟨x, s, h1, h2, h3, h4⟩ := cell_time k p hk hdx hdy delay xo yo zo q j hq hj
  obtain ⟨g1, g2⟩ := ht x s h1 h2 h3
  have hn := abs_le.mp (rintR_near ((k.aper p.cp p.dy).time p.cp delay (xo, yo, zo) x s / p.dt))
  have g1' : 0 ≤ (k.aper p.cp p.dy).time p.cp delay (xo, yo, zo) x s / p.dt := by positivity
  have g2' := (div_lt_iff₀ hdt).mpr g2
  rw [h4]
  refine ⟨?_, ?_⟩
  · by_contra hneg
    have : rintR ((k.aper p.cp p.dy).time p.cp delay (xo, yo, zo) x s / p.dt) ≤ -1 := by omega
    have : (rintR ((k.aper p.cp p.dy).time p.cp delay (xo, yo, zo) x s / p.dt) : ℝ) ≤ -1 := by
      exact_mod_cast this
    linarith [hn.2]
  · have : (rintR ((k.aper p.cp p.dy).time p.cp delay (xo, yo, zo) x s / p.dt) : ℝ) < (nt : ℝ) := by
      linarith [hn.1]
    exact_mod_cast this

/-- C80, error bound: for a signal bounded by `K` with slope at most `L`, an observation point at least
`z` from the surface, and arrival times from the surface within the `nt` samples, the pressure computed
from the response differs from the Rayleigh integral over the transducer surface by at most
`Kern.convErr`. -/
theorem C80_error (k : Kern ℝ) (p : Par ℝ) (hk : k.Aperture) (hdx : 0 < p.dx) (hdy : 0 < p.dy)
    (hdt : 0 < p.dt) (hcp : 0 < p.cp) (v delay xo yo zo : ℝ) (nt : ℕ) {φ : ℝ → ℝ} {K L : ℝ}
    (hφ : Tame φ K L)
    (ht : (k.aper p.cp p.dy).Within p.cp delay (xo, yo, zo) 0 (((nt : ℝ) - 1 / 2) * p.dt))
    (z : ℝ) (hz : 0 < z) (haway : (k.aper p.cp p.dy).Away z (xo, yo, zo)) :
    |weigh nt p.dt φ ((k.surf p).response v p.cp delay p.dt xo yo zo) -
      (k.aper p.cp p.dy).rayleigh v p.cp delay φ (xo, yo, zo)| ≤
      k.convErr v p.cp K L z p.dt p.dx p.dy :=
  kern_err k p hk hdx hdy hdt hcp v delay xo yo zo nt hφ
    (fun q hq j hj => arrivals_in_range k p hk hdx hdy hdt delay xo yo zo nt ht q j hq hj) z hz haway

/-! ### Convergence -/

theorem convErr_continuous (k : Kern ℝ) (v cp K L z : ℝ) :
    Continuous fun q : ℝ × ℝ × ℝ => k.convErr v cp K L z q.1 q.2.1 q.2.2 := by
  cases k <;> simp only [Kern.convErr, convBound] <;> fun_prop

/-- C80, convergence: for every transducer but the line, the pressure computed from the response comes
as close as one likes to the Rayleigh integral over the surface once `dx`, `dy` and `dt` are small
enough, whatever the number of samples, as long as all of the response fits in it. -/
theorem C80_converges (k : Kern ℝ) (hk : k.Aperture) (hline : ∀ a, k ≠ .line a) (cp : ℝ) (hcp : 0 < cp)
    (v delay xo yo zo : ℝ) {φ : ℝ → ℝ} {K L : ℝ} (hφ : Tame φ K L) (z : ℝ) (hz : 0 < z)
    (haway : (k.aper cp 0).Away z (xo, yo, zo)) (ε : ℝ) (hε : 0 < ε) :
    ∃ δ > 0, ∀ (p : Par ℝ) (nt : ℕ), p.cp = cp → 0 < p.dx → p.dx < δ → 0 < p.dy → p.dy < δ →
      0 < p.dt → p.dt < δ →
      (k.aper cp 0).Within cp delay (xo, yo, zo) 0 (((nt : ℝ) - 1 / 2) * p.dt) →
      |weigh nt p.dt φ ((k.surf p).response v cp delay p.dt xo yo zo) -
        (k.aper cp 0).rayleigh v cp delay φ (xo, yo, zo)| < ε := by
  have hap : ∀ dy, k.aper cp dy = k.aper cp 0 := by
    intro dy
    cases k with
    | line a => exact absurd rfl (hline a)
    | _ => rfl
  have h0 : k.convErr v cp K L z 0 0 0 = 0 := by
    cases k with
    | line a => exact absurd rfl (hline a)
    | _ => simp [Kern.convErr, convBound]
  have hc := (convErr_continuous k v cp K L z).continuousAt (x := (0, 0, 0))
  rw [Metric.continuousAt_iff] at hc
  obtain ⟨δ, hδ, h⟩ := hc ε hε
  refine ⟨δ, hδ, fun p nt hpc hx0 hx1 hy0 hy1 ht0 ht1 hin => ?_⟩
  subst hpc
  have h1 := C80_error k p hk hx0 hy0 ht0 hcp v delay xo yo zo nt hφ (by rw [hap]; exact hin) z hz
    (by rw [hap]; exact haway)
  rw [hap] at h1
  refine h1.trans_lt ?_
  have h2 := h (x := (p.dt, p.dx, p.dy)) (by
    simp only [Prod.dist_eq, Real.dist_eq, sub_zero, abs_of_pos ht0, abs_of_pos hx0, abs_of_pos hy0]
    exact max_lt ht1 (max_lt hx1 hy1))
  simp only [h0, Real.dist_eq, sub_zero] at h2
  exact (le_abs_self _).trans_lt h2

/-- C80, convergence for the line: the strip keeps its width `dy`. -/
theorem C80_line_converges (a dy : ℝ) (ha : 0 ≤ a) (hdy : 0 < dy) (cp : ℝ) (hcp : 0 < cp)
    (v delay xo yo zo : ℝ) {φ : ℝ → ℝ} {K L : ℝ} (hφ : Tame φ K L) (z : ℝ) (hz : 0 < z)
    (haway : ((Kern.line a).aper cp dy).Away z (xo, yo, zo)) (ε : ℝ) (hε : 0 < ε) :
    ∃ δ > 0, ∀ (p : Par ℝ) (nt : ℕ), p.cp = cp → p.dy = dy → 0 < p.dx → p.dx < δ →
      0 < p.dt → p.dt < δ →
      ((Kern.line a).aper cp dy).Within cp delay (xo, yo, zo) 0 (((nt : ℝ) - 1 / 2) * p.dt) →
      |weigh nt p.dt φ (((Kern.line a).surf p).response v cp delay p.dt xo yo zo) -
        ((Kern.line a).aper cp dy).rayleigh v cp delay φ (xo, yo, zo)| < ε := by
  have h0 : (Kern.line a).convErr v cp K L z 0 0 dy = 0 := by simp [Kern.convErr, convBound]
  have hc := (convErr_continuous (.line a) v cp K L z).continuousAt (x := (0, 0, dy))
  rw [Metric.continuousAt_iff] at hc
  obtain ⟨δ, hδ, h⟩ := hc ε hε
  refine ⟨δ, hδ, fun p nt hpc hpy hx0 hx1 ht0 ht1 hin => ?_⟩
  subst hpc hpy
  have h1 := C80_error (.line a) p ha hx0 hdy ht0 hcp v delay xo yo zo nt hφ hin z hz haway
  refine h1.trans_lt ?_
  have h2 := h (x := (p.dt, p.dx, p.dy)) (by
    simp only [Prod.dist_eq, Real.dist_eq, sub_zero, sub_self, abs_zero, abs_of_pos ht0, abs_of_pos hx0]
    exact max_lt ht1 (max_lt hx1 hδ))
  simp only [h0, Real.dist_eq, sub_zero] at h2
  exact (le_abs_self _).trans_lt h2

/-! ### Calls -/

theorem fits_of_range (ty : IdxTy) (nt : ℕ) (hnt : nt < 2 ^ 63) {i : ℤ} (h : 0 ≤ i ∧ i < nt) :
    ty.fits i = true := by
  have h2 : (nt : ℤ) < 2 ^ 63 := by exact_mod_cast hnt
  cases ty <;> simp only [IdxTy.fits, decide_eq_true_eq] <;> constructor <;> omega

/-- C80 for a call of a transducer function without attenuation, on any schedule and number of threads:
column `n` of the output, weighted with a signal, is the Rayleigh integral at observation point `n` up
to `Kern.convErr`. -/
theorem C80_call (D : SirCall ℝ) (m : Buf ℝ) (hs : D.Sized m) (hatt : D.att = none)
    (hg : D.k.GoodGeo D.p) (hk : D.k.Aperture) (hdt : 0 < D.p.dt) (hcp : 0 < D.p.cp)
    (hz0 : ∀ i, i < m.size → m.data i = 0)
    (hnt : D.nt < 2 ^ 63)
    (ht : ∀ n < D.No, (D.k.aper D.p.cp D.p.dy).Within D.p.cp (D.delayFor n) (D.obs n) 0
      (((D.nt : ℝ) - 1 / 2) * D.p.dt))
    (nth : ℕ) (h1 : 1 ≤ nth) (as : List Act) (hab : Act.abort ∉ as) (s' : Sys ℝ (KLoc ℝ))
    (hr : D.Run nth m as s') (n : ℕ) (hn : n < D.No) {φ : ℝ → ℝ} {K L : ℝ} (hφ : Tame φ K L)
    (z : ℝ) (hz : 0 < z) (haway : (D.k.aper D.p.cp D.p.dy).Away z (D.obs n)) :
    |weigh D.nt D.p.dt φ (fun i => s'.mem.data (n * D.nt + i)) -
      (D.k.aper D.p.cp D.p.dy).rayleigh (D.k.wt * D.p.v) D.p.cp (D.delayFor n) φ (D.obs n)| ≤
      D.k.convErr (D.k.wt * D.p.v) D.p.cp K L z D.p.dt D.p.dx D.p.dy := by
  have hin := fun n hn => arrivals_in_range D.k D.p hk hg.1 hg.2.1 hdt (D.delayFor n) (D.obs n).1
    (D.obs n).2.1 (D.obs n).2.2 D.nt (ht n hn)
  have hout := C53_output D m hs hatt hg hz0
    (fun n hn q hq j hj => fits_of_range D.ty D.nt hnt (hin n hn q j hq hj))
    (.inr fun n hn q hq j hj => hin n hn q j hq hj) nth h1 as hab s' hr n hn
  have hw : weigh D.nt D.p.dt φ (fun i => s'.mem.data (n * D.nt + i)) = weigh D.nt D.p.dt φ
      ((D.k.surf D.p).response (D.k.wt * D.p.v) D.p.cp (D.delayFor n) D.p.dt
        (D.obs n).1 (D.obs n).2.1 (D.obs n).2.2) := by
    unfold weigh
    exact Finset.sum_congr rfl fun i hi => by beta_reduce; rw [hout i (Finset.mem_range.mp hi)]
  rw [hw]
  exact C80_error D.k D.p hk hg.1 hg.2.1 hdt hcp _ _ _ _ _ D.nt hφ (ht n hn) z hz haway

/-- C80 for a call of an array function: the weighted sum over the elements of the Rayleigh integral of
one element, moved to the element's place and delayed by its focusing and steering delay. -/
theorem C80_array (D : ArrCall ℝ) (m : Buf ℝ) (hs : D.Sized m) (hA : D.A.Sized)
    (hatt : D.att = none) (hg : (D.K.kern 1).GoodGeo D.p) (hk : (D.K.kern 1).Aperture)
    (hdt : 0 < D.p.dt) (hcp : 0 < D.p.cp) (hz0 : ∀ i, i < m.size → m.data i = 0)
    (d : Dims ℝ) (hd : maxDimArr D.A.G D.A.num = .ok d)
    (hl : D.level = .ignore ∨ D.level = .warn ∨ D.level = .none)
    (hnt : D.nt < 2 ^ 63)
    (ht : ∀ n < D.No, ∀ k < D.A.num, ((D.K.kern 1).aper D.p.cp D.p.dy).Within D.p.cp
      (D.delayFor n - (D.A.element d D.p.cp k).foc - (D.A.element d D.p.cp k).steer)
      ((D.obs n).1 - (D.A.element d D.p.cp k).gx, (D.obs n).2.1 - (D.A.element d D.p.cp k).gy,
        (D.obs n).2.2 - (D.A.element d D.p.cp k).gz) 0 (((D.nt : ℝ) - 1 / 2) * D.p.dt))
    (nth : ℕ) (h1 : 1 ≤ nth) (as : List Act) (hab : Act.abort ∉ as) (s' : Sys ℝ (ALoc ℝ))
    (hr : D.drv.Run nth m as s') (n : ℕ) (hn : n < D.No) {φ : ℝ → ℝ} {K L : ℝ} (hφ : Tame φ K L)
    (z : ℝ) (hz : 0 < z)
    (haway : ∀ k < D.A.num, ((D.K.kern 1).aper D.p.cp D.p.dy).Away z
      ((D.obs n).1 - (D.A.element d D.p.cp k).gx, (D.obs n).2.1 - (D.A.element d D.p.cp k).gy,
        (D.obs n).2.2 - (D.A.element d D.p.cp k).gz)) :
    |weigh D.nt D.p.dt φ (fun i => s'.mem.data (n * D.nt + i)) -
      ∑ k ∈ range D.A.num, (D.A.element d D.p.cp k).weight *
        ((D.K.kern 1).aper D.p.cp D.p.dy).rayleigh D.p.v D.p.cp
          (D.delayFor n - (D.A.element d D.p.cp k).foc - (D.A.element d D.p.cp k).steer) φ
          ((D.obs n).1 - (D.A.element d D.p.cp k).gx, (D.obs n).2.1 - (D.A.element d D.p.cp k).gy,
            (D.obs n).2.2 - (D.A.element d D.p.cp k).gz)| ≤
      (∑ k ∈ range D.A.num, |(D.A.element d D.p.cp k).weight|) *
        (D.K.kern 1).convErr D.p.v D.p.cp K L z D.p.dt D.p.dx D.p.dy := by
  have hout := C53_array_output D m hs hA hatt hg hz0 d hd hl
    (fun n hn k hk' q hq j hj => fits_of_range D.ty D.nt hnt (arrivals_in_range (D.K.kern 1) D.p hk
      hg.1 hg.2.1 hdt _ _ _ _ D.nt (ht n hn k hk') q j hq hj)) nth h1 as hab s' hr n hn
  have hw : weigh D.nt D.p.dt φ (fun i => s'.mem.data (n * D.nt + i)) =
      ∑ k ∈ range D.A.num, (D.A.element d D.p.cp k).weight * weigh D.nt D.p.dt φ
        (((D.K.kern 1).surf D.p).response D.p.v D.p.cp
          (D.delayFor n - (D.A.element d D.p.cp k).foc - (D.A.element d D.p.cp k).steer) D.p.dt
          ((D.obs n).1 - (D.A.element d D.p.cp k).gx) ((D.obs n).2.1 - (D.A.element d D.p.cp k).gy)
          ((D.obs n).2.2 - (D.A.element d D.p.cp k).gz)) := by
    unfold weigh
    simp only [Finset.mul_sum]
    rw [Finset.sum_comm]
    refine Finset.sum_congr rfl fun i hi => ?_
    rw [hout i (Finset.mem_range.mp hi), Finset.sum_mul, Finset.sum_mul]
    exact Finset.sum_congr rfl fun k _ => by ring
  rw [hw, ← Finset.sum_sub_distrib, Finset.sum_mul]
  refine (Finset.abs_sum_le_sum_abs _ _).trans (Finset.sum_le_sum fun k hk' => ?_)
  have hk'' := Finset.mem_range.mp hk'
  rw [← mul_sub, abs_mul]
  exact mul_le_mul_of_nonneg_left (C80_error (D.K.kern 1) D.p hk hg.1 hg.2.1 hdt hcp _ _ _ _ _ D.nt hφ
    (ht n hn k hk'') z hz (haway k hk'')) (abs_nonneg _)

/-! ### The spherical cap -/

/-- The Rayleigh integral over a spherical cap: an area element at `(x, y)` of the projection is
`|Rc| / √(Rc² - x² - y²)` times as large as its projection. -/
noncomputable def capRayleigh (R Rc v cp delay : ℝ) (φ : ℝ → ℝ) (o : ℝ × ℝ × ℝ) : ℝ :=
  ∫ y in (-R)..R, ∫ x in (-Real.sqrt (R ^ 2 - y ^ 2))..(Real.sqrt (R ^ 2 - y ^ 2)),
    v / (2 * Real.pi * edist3 o (((Kern.sphere R Rc).aper cp 0).pos x y)) *
      φ (edist3 o (((Kern.sphere R Rc).aper cp 0).pos x y) * 1000 / cp - delay) *
      (|Rc| / Real.sqrt (Rc ^ 2 - x ^ 2 - y ^ 2))

theorem cap_focus_dist (R Rc cp x y : ℝ) (hRc : 0 < Rc) (h : x ^ 2 + y ^ 2 ≤ Rc ^ 2) :
    edist3 (0, 0, Rc) (((Kern.sphere R Rc).aper cp 0).pos x y) = Rc := by
  unfold edist3
  simp only [Kern.aper, if_pos hRc.le]
  rw [sub_sub_cancel, Real.sq_sqrt (by linarith),
    show (0 - x) ^ 2 + (0 - y) ^ 2 + (Rc ^ 2 - x ^ 2 - y ^ 2) = Rc ^ 2 by ring, Real.sqrt_sq hRc.le]

/-- The integral the cap converges to is smaller than the Rayleigh integral over the cap. -/
theorem cap_gap (R Rc v cp delay : ℝ) (hR : 0 < R) (hRc : R < Rc) (hv : 0 < v) :
    ((Kern.sphere R Rc).aper cp 0).rayleigh v cp delay (fun _ => 1) (0, 0, Rc) <
      capRayleigh R Rc v cp delay (fun _ => 1) (0, 0, Rc) := by
  have hπ := Real.pi_pos
  have hRc0 : 0 < Rc := hR.trans hRc
  have hm : 0 < Rc ^ 2 - R ^ 2 := by nlinarith
  set w : ℝ → ℝ := fun y => Real.sqrt (R ^ 2 - y ^ 2) with hw
  have hwc : Continuous w := by simp only [hw]; fun_prop
  have hin : ∀ x y, -R ≤ y → y ≤ R → -w y ≤ x → x ≤ w y → x ^ 2 + y ^ 2 ≤ R ^ 2 := by
    intro x y h1 h2 h3 h4
    have h5 : y ^ 2 ≤ R ^ 2 := sq_le_sq' h1 h2
    have h6 : x ^ 2 ≤ w y ^ 2 := sq_le_sq' h3 h4
    simp only [hw] at h6
    rw [Real.sq_sqrt (by linarith)] at h6
    linarith
  set F : ℝ → ℝ → ℝ := fun x y => v / (2 * Real.pi * Rc) *
    (Rc / Real.sqrt (max (Rc ^ 2 - x ^ 2 - y ^ 2) (Rc ^ 2 - R ^ 2))) with hF
  have hsp : ∀ x y, 0 < Real.sqrt (max (Rc ^ 2 - x ^ 2 - y ^ 2) (Rc ^ 2 - R ^ 2)) := fun x y =>
    Real.sqrt_pos.mpr (lt_max_of_lt_right hm)
  have hFc : Continuous fun q : ℝ × ℝ => F q.1 q.2 := by
    simp only [hF]
    refine continuous_const.mul (Continuous.div continuous_const (by fun_prop) ?_)
    intro q; exact (hsp q.1 q.2).ne'
  have e1 : ((Kern.sphere R Rc).aper cp 0).rayleigh v cp delay (fun _ => 1) (0, 0, Rc) =
      ∫ y in (-R)..R, ∫ _ in (-w y)..(w y), v / (2 * Real.pi * Rc) := by
    unfold Aper.rayleigh
    refine intervalIntegral.integral_congr fun y hy => ?_
    rw [show ((Kern.sphere R Rc).aper cp 0).lo = -R from rfl,
      show ((Kern.sphere R Rc).aper cp 0).hi = R from rfl, Set.uIcc_of_le (by linarith)] at hy
    refine intervalIntegral.integral_congr fun x hx => ?_
    rw [Set.uIcc_of_le (by linarith [Real.sqrt_nonneg (R ^ 2 - y ^ 2),
      show ((Kern.sphere R Rc).aper cp 0).half y = Real.sqrt (R ^ 2 - y ^ 2) from rfl])] at hx
    have := hin x y hy.1 hy.2 hx.1 hx.2
    simp only [cap_focus_dist R Rc cp x y hRc0 (by nlinarith), mul_one]
  have e2 : capRayleigh R Rc v cp delay (fun _ => 1) (0, 0, Rc) =
      ∫ y in (-R)..R, ∫ x in (-w y)..(w y), F x y := by
    unfold capRayleigh
    refine intervalIntegral.integral_congr fun y hy => ?_
    rw [Set.uIcc_of_le (by linarith)] at hy
    refine intervalIntegral.integral_congr fun x hx => ?_
    rw [Set.uIcc_of_le (by linarith [Real.sqrt_nonneg (R ^ 2 - y ^ 2)])] at hx
    have := hin x y hy.1 hy.2 hx.1 hx.2
    simp only [cap_focus_dist R Rc cp x y hRc0 (by nlinarith), mul_one, hF]
    rw [max_eq_left (by linarith), abs_of_pos hRc0]
  have hge : ∀ x y, v / (2 * Real.pi * Rc) ≤ F x y := by
    intro x y
    simp only [hF]
    refine le_mul_of_one_le_right (by positivity) ?_
    rw [one_le_div (hsp x y), Real.sqrt_le_left hRc0.le]
    refine max_le ?_ ?_ <;> nlinarith [sq_nonneg x, sq_nonneg y]
  have hgt : v / (2 * Real.pi * Rc) < F (R / 2) 0 := by
    simp only [hF]
    refine lt_mul_of_one_lt_right (by positivity) ?_
    rw [one_lt_div (hsp _ _), Real.sqrt_lt' hRc0]
    refine max_lt ?_ ?_ <;> nlinarith
  rw [e1, e2]
  have hc1 : Continuous fun y => ∫ _ in (-w y)..(w y), v / (2 * Real.pi * Rc) :=
    strip_continuous (fun _ _ => v / (2 * Real.pi * Rc)) continuous_const w hwc
  have hc2 := strip_continuous F hFc w hwc
  have hFy : ∀ y, Continuous fun x => F x y := fun y =>
    hFc.comp (continuous_id.prodMk continuous_const)
  refine intervalIntegral.integral_lt_integral_of_continuousOn_of_le_of_exists_lt (by linarith)
    hc1.continuousOn hc2.continuousOn ?_ ⟨0, ⟨by linarith, hR.le⟩, ?_⟩
  · intro y _
    refine intervalIntegral.integral_mono (by
        have := Real.sqrt_nonneg (R ^ 2 - y ^ 2)
        simp only [hw]; linarith) (continuous_const.intervalIntegrable _ _)
      ((hFy y).intervalIntegrable _ _) fun x => hge x y
  · have hw0 : w 0 = R := by
      simp only [hw]
      rw [show R ^ 2 - 0 ^ 2 = R ^ 2 by ring, Real.sqrt_sq hR.le]
    simp only [hw0]
    exact intervalIntegral.integral_lt_integral_of_continuousOn_of_le_of_exists_lt (by linarith)
      continuousOn_const (hFy 0).continuousOn (fun x _ => hge x 0)
      ⟨R / 2, ⟨by linarith, by linarith⟩, hgt⟩

/-- C80 does not hold for the true area of a spherical cap: at the focus of a concave cap, for a
constant signal, the pressure computed from the response stays below the Rayleigh integral over the cap
by a fixed amount, however small `dx`, `dy` and `dt` are (the cells are weighted by the area of their
projection). -/
theorem C80_cap_violated (R Rc v cp delay : ℝ) (hR : 0 < R) (hRc : R < Rc) (hv : 0 < v) (hcp : 0 < cp) :
    ∃ ε > 0, ∃ δ > 0, ∀ (p : Par ℝ) (nt : ℕ), p.cp = cp → 0 < p.dx → p.dx < δ → 0 < p.dy →
      p.dy < δ → 0 < p.dt → p.dt < δ →
      ((Kern.sphere R Rc).aper cp 0).Within cp delay (0, 0, Rc) 0 (((nt : ℝ) - 1 / 2) * p.dt) →
      weigh nt p.dt (fun _ => 1) (((Kern.sphere R Rc).surf p).response v cp delay p.dt 0 0 Rc) + ε ≤
        capRayleigh R Rc v cp delay (fun _ => 1) (0, 0, Rc) := by
  have hgap := cap_gap R Rc v cp delay hR hRc hv
  set g := capRayleigh R Rc v cp delay (fun _ => 1) (0, 0, Rc) -
    ((Kern.sphere R Rc).aper cp 0).rayleigh v cp delay (fun _ => 1) (0, 0, Rc) with hg
  have hRc0 : 0 < Rc := hR.trans hRc
  obtain ⟨δ, hδ, h⟩ := C80_converges (.sphere R Rc) ⟨hR.le, by rwa [abs_of_pos hRc0]⟩
    (fun a => by simp) cp hcp v delay 0 0 Rc (φ := fun _ => 1) (K := 1) (L := 0)
    ⟨fun _ => by simp, fun _ _ => by simp⟩ Rc hRc0 (by
      intro x s h1 h2 h3
      have h1' : -R ≤ s := h1
      have h2' : s ≤ R := h2
      have h5 : s ^ 2 ≤ R ^ 2 := sq_le_sq' h1' h2'
      have h3' : |x| ≤ Real.sqrt (R ^ 2 - s ^ 2) := h3
      have h6 := sq_le_sq' (abs_le.mp h3').1 (abs_le.mp h3').2
      rw [Real.sq_sqrt (by linarith)] at h6
      rw [cap_focus_dist R Rc cp x s hRc0 (by nlinarith)]) (g / 2) (by linarith)
  refine ⟨g / 2, by linarith, δ, hδ, fun p nt a1 a2 a3 a4 a5 a6 a7 a8 => ?_⟩
  have := (abs_lt.mp (h p nt a1 a2 a3 a4 a5 a6 a7 a8)).2
  linarith

/-! ### The hypotheses are met -/

theorem tame_sin : Tame Real.sin 1 1 :=
  ⟨Real.abs_sin_le_one, fun s t => by rw [one_mul]; exact Real.abs_sin_sub_sin_le s t⟩

-- a square of 2 mm by 2 mm seen from 3 mm in front of its centre, sound speed 1000 m/s, a sine: the
-- hypotheses of C80_error and C80_converges are met by every `nt`, `dt` with `5 < (nt - 1/2) dt`
example (w v : ℝ) (ε : ℝ) (hε : 0 < ε) :
    ∃ δ > 0, ∀ (p : Par ℝ) (nt : ℕ), p.cp = 1000 → 0 < p.dx → p.dx < δ → 0 < p.dy → p.dy < δ →
      0 < p.dt → p.dt < δ → 5 < ((nt : ℝ) - 1 / 2) * p.dt →
      |weigh nt p.dt Real.sin (((Kern.rect w 2 2).surf p).response v 1000 0 p.dt 0 0 3) -
        ∫ y in (-(2 / 2) : ℝ)..(2 / 2), ∫ x in (-(2 / 2) : ℝ)..(2 / 2),
          v / (2 * Real.pi * Real.sqrt ((0 - x) ^ 2 + (0 - y) ^ 2 + (3 - 0) ^ 2)) *
            Real.sin (Real.sqrt ((0 - x) ^ 2 + (0 - y) ^ 2 + (3 - 0) ^ 2) * 1000 / 1000 - (0 - 0))| < ε := by
  have haway : ((Kern.rect w 2 2).aper 1000 0).Away 3 (0, 0, 3) := by
    intro x s _ _ _
    refine Real.le_sqrt_of_sq_le ?_
    show (3 : ℝ) ^ 2 ≤ (0 - x) ^ 2 + (0 - s) ^ 2 + (3 - 0) ^ 2
    nlinarith [sq_nonneg x, sq_nonneg s]
  obtain ⟨δ, hδ, h⟩ := C80_converges (.rect w 2 2) ⟨by norm_num, by norm_num⟩ (fun a => by simp) 1000
    (by norm_num) v 0 0 0 3 tame_sin 3 (by norm_num) haway ε hε
  refine ⟨δ, hδ, fun p nt a1 a2 a3 a4 a5 a6 a7 a8 => ?_⟩
  refine h p nt a1 a2 a3 a4 a5 a6 a7 ?_
  intro x s h1 h2 h3
  have h1' : -(2 / 2) ≤ s := h1
  have h2' : s ≤ 2 / 2 := h2
  have h3' : |x| ≤ 2 / 2 := h3
  have hx := abs_le.mp h3'
  have ht : ((Kern.rect w 2 2).aper 1000 0).time 1000 0 (0, 0, 3) x s =
      Real.sqrt ((0 - x) ^ 2 + (0 - s) ^ 2 + (3 - 0) ^ 2) := by
    show Real.sqrt ((0 - x) ^ 2 + (0 - s) ^ 2 + (3 - 0) ^ 2) * 1000 / 1000 - (0 - 0) = _
    ring
  rw [ht]
  refine ⟨Real.sqrt_nonneg _, lt_trans ?_ a8⟩
  rw [Real.sqrt_lt' (by norm_num)]
  nlinarith

-- a concave cap seen from its focus: the hypotheses of C80_call are met by a call with one observation
-- point, and complete runs exist (C08)
example (nth : ℕ) (h1 : 1 ≤ nth) (as : List Act) (hab : Act.abort ∉ as) (s' : Sys ℝ (KLoc ℝ))
    (hr : exSphere.Run nth ⟨8, fun _ => 0⟩ as s') :
    |weigh 8 1 Real.sin (fun i => s'.mem.data (0 * 8 + i)) -
      ((Kern.sphere 1 2).aper 1000 2).rayleigh (1 * 1) 1000 0 Real.sin (0, 0, 2)| ≤
      (Kern.sphere 1 2).convErr (1 * 1) 1000 1 1 2 1 1 2 := by
  have hobs : exSphere.obs 0 = (0, 0, 2) := by simp [SirCall.obs, exSphere]
  have hdel : exSphere.delayFor 0 = 0 := by simp [SirCall.delayFor, exSphere]
  have hdist : ∀ x s, -1 ≤ s → s ≤ 1 → |x| ≤ Real.sqrt (1 ^ 2 - s ^ 2) →
      edist3 (0, 0, 2) (((Kern.sphere 1 2).aper 1000 0).pos x s) = 2 := by
    intro x s h1 h2 h3
    have h5 : s ^ 2 ≤ 1 ^ 2 := sq_le_sq' h1 h2
    have h6 := sq_le_sq' (abs_le.mp h3).1 (abs_le.mp h3).2
    rw [Real.sq_sqrt (by linarith)] at h6
    exact cap_focus_dist 1 2 1000 x s (by norm_num) (by nlinarith)
  have key := C80_call exSphere ⟨8, fun _ => 0⟩ ⟨rfl, rfl, rfl⟩ rfl exSphere_good
    ⟨by norm_num, by norm_num⟩ (by show (0 : ℝ) < 1; norm_num) (by show (0 : ℝ) < 1000; norm_num)
    (fun _ _ => rfl) (by show 8 < 2 ^ 63; norm_num) (by
      intro n hn x s h1 h2 h3
      have : n = 0 := by simp [exSphere] at hn; exact hn
      subst this
      rw [hobs, hdel]
      show 0 ≤ edist3 (0, 0, 2) (((Kern.sphere 1 2).aper 1000 0).pos x s) * 1000 / 1000 - (0 - 0) ∧
        edist3 (0, 0, 2) (((Kern.sphere 1 2).aper 1000 0).pos x s) * 1000 / 1000 - (0 - 0) <
          (((8 : ℕ) : ℝ) - 1 / 2) * 1
      rw [hdist x s h1 h2 h3]
      norm_num) nth h1 as hab s' hr 0 (by decide) tame_sin 2 (by norm_num) (by
      intro x s h1 h2 h3
      rw [hobs]
      exact (hdist x s h1 h2 h3).ge)
  rw [hobs, hdel] at key
  exact key

/-- Two square elements of 1 mm at x = -4 and x = 4, one observation point 3 mm in front of the centre. -/
noncomputable def pairCall : ArrCall ℝ where
  A := pairArr
  K := .rect 1 1
  p := pairPar
  att := none
  nt := 8
  ty := .signed
  level := .warn
  No := 1
  Ro := ⟨3, fun i => if i = 2 then 3 else 0⟩
  delayType := .single
  delay := ⟨1, fun _ => 0⟩

-- the hypotheses of C80_array are met, and complete runs exist (C08)
example (nth : ℕ) (h1 : 1 ≤ nth) (as : List Act) (hab : Act.abort ∉ as) (s' : Sys ℝ (ALoc ℝ))
    (hr : pairCall.drv.Run nth ⟨8, fun _ => 0⟩ as s') :
    |weigh 8 1 Real.sin (fun i => s'.mem.data (0 * 8 + i)) -
      (((Kern.rect 1 1 1).aper 1000 1).rayleigh 1 1000 0 Real.sin (4, 0, 3) +
        ((Kern.rect 1 1 1).aper 1000 1).rayleigh 1 1000 0 Real.sin (-4, 0, 3))| ≤
      2 * (Kern.rect 1 1 1).convErr 1 1000 1 1 3 1 1 1 := by
  have hs : pairArr.Sized := ⟨by decide, rfl, by simp [pairArr], by simp [pairArr]⟩
  obtain ⟨d, hd⟩ := maxDimArr_ok pairArr.G pairArr.num hs.num (by rw [hs.grid])
  have hobs : pairCall.obs 0 = (0, 0, 3) := by simp [ArrCall.obs, pairCall]
  have hdel : pairCall.delayFor 0 = 0 := by simp [ArrCall.delayFor, pairCall]
  have hcp : pairCall.p.cp = 1000 := rfl
  have hel : ∀ k < 2, ((pairCall.A.element d 1000 k).gx = -4 ∨ (pairCall.A.element d 1000 k).gx = 4) ∧
      (pairCall.A.element d 1000 k).gy = 0 ∧ (pairCall.A.element d 1000 k).gz = 0 ∧
      (pairCall.A.element d 1000 k).foc = 0 ∧ (pairCall.A.element d 1000 k).steer = 0 ∧
      (pairCall.A.element d 1000 k).weight = 1 := by
    intro k hk
    have : k = 0 ∨ k = 1 := by omega
    rcases this with rfl | rfl <;>
      simp [pairCall, pairArr, ArrPar.element, focusing, beamsteering]
  have hgeo : ∀ x s g : ℝ, g = -4 ∨ g = 4 → -(1 / 2) ≤ s → s ≤ 1 / 2 → |x| ≤ 1 / 2 →
      3 ≤ edist3 (0 - g, 0 - 0, 3 - 0) (x, s, 0) ∧ edist3 (0 - g, 0 - 0, 3 - 0) (x, s, 0) < 7 := by
    intro x s g hg h1 h2 h3
    have hx := abs_le.mp h3
    unfold edist3
    simp only
    refine ⟨Real.le_sqrt_of_sq_le ?_, ?_⟩
    · nlinarith [sq_nonneg (0 - g - x), sq_nonneg (0 - 0 - s)]
    · rw [Real.sqrt_lt' (by norm_num)]
      rcases hg with rfl | rfl <;> nlinarith
  have key := C80_array pairCall ⟨8, fun _ => 0⟩ ⟨rfl, rfl, rfl⟩ hs rfl
    ⟨by norm_num [pairCall, pairPar], by norm_num [pairCall, pairPar], fun w a b Rc h => by
      simp [pairCall, ArrKern.kern] at h⟩ ⟨by norm_num, by norm_num⟩
    (by show (0 : ℝ) < 1; norm_num) (by show (0 : ℝ) < 1000; norm_num)
    (fun _ _ => rfl) d hd (.inr (.inl rfl)) (by show 8 < 2 ^ 63; norm_num) (by
      intro n hn k hk x s h1 h2 h3
      have : n = 0 := by simp [pairCall] at hn; exact hn
      subst this
      obtain ⟨a1, a2, a3, a4, a5, a6⟩ := hel k hk
      rw [hobs, hdel, hcp, a2, a3, a4, a5]
      show 0 ≤ edist3 (0 - (pairCall.A.element d 1000 k).gx, 0 - 0, 3 - 0) (x, s, 0) * 1000 / 1000 -
        (0 - 0 - 0 - 0) ∧
        edist3 (0 - (pairCall.A.element d 1000 k).gx, 0 - 0, 3 - 0) (x, s, 0) * 1000 / 1000 -
        (0 - 0 - 0 - 0) < (((8 : ℕ) : ℝ) - 1 / 2) * 1
      obtain ⟨g1, g2⟩ := hgeo x s _ a1 h1 h2 h3
      generalize edist3 (0 - (pairCall.A.element d 1000 k).gx, 0 - 0, 3 - 0) (x, s, 0) = r at g1 g2 ⊢
      constructor
      · linarith
      · push_cast; linarith) nth h1 as hab s' hr 0 (by decide) tame_sin 3 (by norm_num) (by
      intro k hk x s h1 h2 h3
      obtain ⟨a1, a2, a3, a4, a5, a6⟩ := hel k hk
      rw [hobs, hcp, a2, a3]
      exact (hgeo x s _ a1 h1 h2 h3).1)
  rw [hobs, hdel, hcp, show pairCall.A.num = 2 from rfl, Finset.sum_range_succ, Finset.sum_range_one,
    Finset.sum_range_succ, Finset.sum_range_one] at key
  have g0 : (pairCall.A.element d 1000 0).gx = -4 := by simp [pairCall, pairArr, ArrPar.element]
  have g1 : (pairCall.A.element d 1000 1).gx = 4 := by simp [pairCall, pairArr, ArrPar.element]
  obtain ⟨-, b2, b3, b4, b5, b6⟩ := hel 0 (by norm_num)
  obtain ⟨-, c2, c3, c4, c5, c6⟩ := hel 1 (by norm_num)
  rw [g0, g1, b2, b3, b4, b5, b6, c2, c3, c4, c5, c6] at key
  simp only [sub_zero, zero_sub, neg_neg, one_mul, abs_one, one_add_one_eq_two] at key
  exact key

end Dream
