import Verif.ClaimsFftRound
import Verif.ClaimsConv

/-
C92: rounding errors of the sum of FFT based convolutions (sum_fftconv).
-/

namespace Dream
open Arith Finset

variable {F : Type} [Arith F] {Φ : FloatView F}

/-- Complex sums and the division by the transform length have relative accuracy `α`, the division has underflow `ζ`;
nothing overflows below `top`. -/
structure FFTLib.AccurateSum (Φ : FloatView F) (L : FFTLib F) (N : ℕ) (α ζ top : ℝ) : Prop where
  α_nonneg : 0 ≤ α
  ζ_nonneg : 0 ≤ ζ
  cadd : ∀ a b, Φ.cfin a → Φ.cfin b → ‖Φ.cval a‖ + ‖Φ.cval b‖ ≤ top →
    Φ.cfin (L.cadd a b) ∧
    ‖Φ.cval (L.cadd a b) - (Φ.cval a + Φ.cval b)‖ ≤ α * ‖Φ.cval a + Φ.cval b‖
  cdivr : ∀ a, Φ.cfin a → ‖Φ.cval a‖ ≤ top →
    Φ.cfin (L.cdivr a (ofInt N)) ∧ ‖Φ.cval (L.cdivr a (ofInt N)) - Φ.cval a / N‖ ≤ α * ‖Φ.cval a / N‖ + ζ

/-- Two parts with a relative error. -/
theorem norm_parts_le (z w : ℂ) (u e : ℝ) (hu : 0 ≤ u) (h1 : |z.re - w.re| ≤ u * |w.re| + e)
    (h2 : |z.im - w.im| ≤ u * |w.im| + e) : ‖z - w‖ ≤ 2 * u * ‖w‖ + 2 * e := by
  have h3 := Complex.norm_le_abs_re_add_abs_im (z - w)
  simp only [Complex.sub_re, Complex.sub_im] at h3
  have h4 := mul_le_mul_of_nonneg_left (Complex.abs_re_le_norm w) hu
  have h5 := mul_le_mul_of_nonneg_left (Complex.abs_im_le_norm w) hu
  linarith

/-- Sums and divisions part by part, as in `std::complex<double>`, are accurate in every arithmetic that obeys
`FloatLaws`. -/
theorem FFTLib.AccurateSum.of_parts (LW : FloatLaws Φ) (L : FFTLib F) (N : ℕ) (hN : 1 ≤ N)
    (hlen : Φ.fin (ofInt N) ∧ Φ.val (ofInt N) = N)
    (hadd : ∀ a b, L.cadd a b = (a.1 +. b.1, a.2 +. b.2)) (hdiv : ∀ a r, L.cdivr a r = (a.1 /. r, a.2 /. r)) :
    L.AccurateSum Φ N (2 * Φ.u) (2 * Φ.eta) Φ.huge where
  α_nonneg := mul_nonneg (by norm_num) LW.u_nonneg
  ζ_nonneg := mul_nonneg (by norm_num) LW.eta_nonneg
  cadd a b fa fb ht := by
    rw [hadd]
    have part : ∀ x y : ℝ, |x| ≤ ‖Φ.cval a‖ → |y| ≤ ‖Φ.cval b‖ → |x + y| ≤ Φ.huge := fun x y hx hy =>
      (abs_add_le _ _).trans (by linarith)
    have f1 := LW.add_fin a.1 b.1 fa.1 fb.1 (part _ _ (Complex.abs_re_le_norm (Φ.cval a)) (Complex.abs_re_le_norm (Φ.cval b)))
    have f2 := LW.add_fin a.2 b.2 fa.2 fb.2 (part _ _ (Complex.abs_im_le_norm (Φ.cval a)) (Complex.abs_im_le_norm (Φ.cval b)))
    refine ⟨⟨f1, f2⟩, ?_⟩
    have := norm_parts_le (Φ.cval (a.1 +. b.1, a.2 +. b.2)) (Φ.cval a + Φ.cval b) Φ.u 0 LW.u_nonneg
      (by rw [add_zero]; exact (LW.add _ _ f1).2.2) (by rw [add_zero]; exact (LW.add _ _ f2).2.2)
    linarith
  cdivr a fa ht := by
    rw [hdiv]
    have hN0 : (N : ℝ) ≠ 0 := by exact_mod_cast (by omega : N ≠ 0)
    have hN1 : (1 : ℝ) ≤ N := by exact_mod_cast hN
    have part : ∀ x : ℝ, |x| ≤ ‖Φ.cval a‖ → |x / Φ.val (ofInt (N : ℤ))| ≤ Φ.huge := by
      intro x hx
      rw [hlen.2, abs_div, Nat.abs_cast]
      exact (div_le_self (abs_nonneg _) hN1).trans (hx.trans ht)
    have hv : Φ.val (ofInt (N : ℤ)) ≠ 0 := by rw [hlen.2]; exact hN0
    have f1 := LW.div_fin a.1 _ fa.1 hlen.1 hv (part _ (Complex.abs_re_le_norm (Φ.cval a)))
    have f2 := LW.div_fin a.2 _ fa.2 hlen.1 hv (part _ (Complex.abs_im_le_norm (Φ.cval a)))
    refine ⟨⟨f1, f2⟩, ?_⟩
    have e1 := ((LW.div _ _ f1).2 hlen.1 hv).1
    have e2 := ((LW.div _ _ f2).2 hlen.1 hv).1
    rw [hlen.2] at e1 e2
    refine norm_parts_le (Φ.cval (a.1 /. ofInt (N : ℤ), a.2 /. ofInt (N : ℤ))) (Φ.cval a / N) Φ.u Φ.eta LW.u_nonneg ?_ ?_
    · rw [Complex.div_natCast_re]; exact e1
    · rw [Complex.div_natCast_im]; exact e2

/-! ### The accumulated spectrum -/

/-- The spectrum that exact arithmetic accumulates. -/
noncomputable def exactAcc (N : ℕ) (P : ℕ → ℕ → ℂ) (l k : ℕ) : ℂ := ∑ m ∈ range l, P m k / N

/-- Relative accuracy of a term of the accumulated spectrum. -/
noncomputable def termAcc (δ μ α : ℝ) : ℝ := (1 + δ) ^ 2 * (1 + μ) * (1 + α)

theorem accSpec_err (LW : FloatLaws Φ) (L : FFTLib F) {N : ℕ} (hN : 1 ≤ N) {δ μ η α ζ top : ℝ}
    (hL : L.Accurate Φ N δ μ η top) (hS : L.AccurateSum Φ N α ζ top) (h u : ℕ → ℕ → F) (hM uM M : ℕ)
    (hhM : hM ≤ N) (huM : uM ≤ N) (fh : ∀ l < M, ∀ i < hM, Φ.fin (h l i)) (fu : ∀ l < M, ∀ i < uM, Φ.fin (u l i))
    (A B : ℕ → ℝ) (eA : ∀ l, A l = ∑ i ∈ range hM, |Φ.val (h l i)|) (eB : ∀ l, B l = ∑ i ∈ range uM, |Φ.val (u l i)|)
    (tA : ∀ l < M, A l ≤ top) (tB : ∀ l < M, B l ≤ top)
    (tAB : termAcc δ μ α * (1 + α) ^ M * ∑ l ∈ range M, A l * B l + M * (1 + α) ^ M * ((1 + α) * η + ζ) ≤ top)
    (k : ℕ) (hk : k ≤ N / 2) (l : ℕ) (hl : l ≤ M) :
    Φ.cfin (accSpec L h u hM uM N l k) ∧
    ‖Φ.cval (accSpec L h u hM uM N l k) - exactAcc N (fun l k =>
      dft N (fun i => if i < hM then Φ.val (h l i) else 0) k * dft N (fun i => if i < uM then Φ.val (u l i) else 0) k) l k‖ ≤
      (termAcc δ μ α * (1 + α) ^ l - 1) * (∑ m ∈ range l, A m * B m / N) + l * (1 + α) ^ l * ((1 + α) * η + ζ) ∧
    ‖exactAcc N (fun l k =>
      dft N (fun i => if i < hM then Φ.val (h l i) else 0) k * dft N (fun i => if i < uM then Φ.val (u l i) else 0) k) l k‖ ≤
      ∑ m ∈ range l, A m * B m / N := by
  have hδ := hL.δ_nonneg
  have hμ := hL.μ_nonneg
  have hη := hL.η_nonneg
  have hα := hS.α_nonneg
  have hζ := hS.ζ_nonneg
  have hN1 : (1 : ℝ) ≤ N := by exact_mod_cast hN
  have hN0 : (0 : ℝ) < N := by linarith
  have hA0 : ∀ l, 0 ≤ A l := fun l => by rw [eA]; exact Finset.sum_nonneg fun _ _ => abs_nonneg _
  have hB0 : ∀ l, 0 ≤ B l := fun l => by rw [eB]; exact Finset.sum_nonneg fun _ _ => abs_nonneg _
  have hAB : ∀ l, 0 ≤ A l * B l := fun l => mul_nonneg (hA0 l) (hB0 l)
  have hκ : 1 ≤ termAcc δ μ α := by
    unfold termAcc
    have g1 : 1 ≤ (1 + δ) ^ 2 := one_le_pow₀ (by linarith)
    have g2 : 1 ≤ (1 + δ) ^ 2 * (1 + μ) := by nlinarith
    nlinarith
  have hH : ∀ n : ℕ, (1 : ℝ) ≤ (1 + α) ^ n := fun n => one_le_pow₀ (by linarith)
  have hθ : 0 ≤ (1 + α) * η + ζ := by positivity
  -- everything that occurs stays below `top`
  have below : ∀ l < M, termAcc δ μ α * (1 + α) ^ (l + 1) * (∑ m ∈ range (l + 1), A m * B m) +
      ((l + 1 : ℕ) : ℝ) * (1 + α) ^ (l + 1) * ((1 + α) * η + ζ) ≤ top := by
    intro l hl
    refine le_trans (add_le_add ?_ ?_) tAB
    · refine mul_le_mul (mul_le_mul_of_nonneg_left (pow_le_pow_right₀ (by linarith) (by omega)) (by linarith)) ?_
        (Finset.sum_nonneg fun m _ => hAB m) (mul_nonneg (by linarith) (by linarith [hH M]))
      exact Finset.sum_le_sum_of_subset_of_nonneg (Finset.range_mono (by omega)) fun m _ _ => hAB m
    · refine mul_le_mul_of_nonneg_right (mul_le_mul ?_ (pow_le_pow_right₀ (by linarith) (by omega))
        (by linarith [hH (l + 1)]) (Nat.cast_nonneg _)) hθ
      exact_mod_cast (by omega : l + 1 ≤ M)
  induction l with
  | zero =>
    refine ⟨⟨LW.zero.1, LW.zero.1⟩, ?_, ?_⟩
    · have : Φ.cval (accSpec L h u hM uM N 0 k) = 0 := by
        simp [FloatView.cval, accSpec, LW.zero.2, Complex.ext_iff]
      rw [this]
      simp [exactAcc]
    · simp [exactAcc]
  | succ l ih =>
    obtain ⟨i1, i2, i3⟩ := ih (by omega)
    have hlM : l < M := by omega
    have hb := below l hlM
    rw [Finset.sum_range_succ] at hb
    have hsum0 : 0 ≤ ∑ m ∈ range l, A m * B m := Finset.sum_nonneg fun m _ => hAB m
    have hHl := hH l
    have single : (1 + δ) ^ 2 * (1 + μ) * (A l * B l) + η ≤ top := by
      have s1 : (1 + δ) ^ 2 * (1 + μ) * (A l * B l) ≤ termAcc δ μ α * (1 + α) ^ (l + 1) * (A l * B l) := by
        refine mul_le_mul_of_nonneg_right ?_ (hAB l)
        have : 0 ≤ (1 + δ) ^ 2 * (1 + μ) := by positivity
        exact (le_mul_of_one_le_right this (by linarith : 1 ≤ 1 + α)).trans
          (le_mul_of_one_le_right (by positivity) (hH (l + 1)))
      have s2 : 0 ≤ termAcc δ μ α * (1 + α) ^ (l + 1) * ∑ m ∈ range l, A m * B m := by positivity
      have s3 : η ≤ ((l + 1 : ℕ) : ℝ) * (1 + α) ^ (l + 1) * ((1 + α) * η + ζ) := by
        have t1 : (1 : ℝ) ≤ ((l + 1 : ℕ) : ℝ) := by exact_mod_cast (by omega : 1 ≤ l + 1)
        have t2 := hH (l + 1)
        have t3 := le_mul_of_one_le_left hθ (one_le_mul_of_one_le_of_one_le t1 t2)
        have t4 : η ≤ (1 + α) * η := le_mul_of_one_le_left hη (by linarith)
        linarith
      linarith
    obtain ⟨p1, p2, p3⟩ := prodSpec_err LW L hL (h l) (u l) hM uM hhM huM (fh l hlM) (fu l hlM) (A l) (B l) (eA l) (eB l)
      (tA l hlM) (tB l hlM) (by
        have : (1 + δ) * A l * ((1 + δ) * B l) ≤ (1 + δ) ^ 2 * (1 + μ) * (A l * B l) := by
          have := mul_nonneg (mul_nonneg (sq_nonneg (1 + δ)) hμ) (hAB l)
          nlinarith
        linarith) k hk
    obtain ⟨q1, q2⟩ := hS.cdivr _ p1 (p3.trans single)
    have dP : ‖dft N (fun i => if i < hM then Φ.val (h l i) else 0) k *
        dft N (fun i => if i < uM then Φ.val (u l i) else 0) k‖ ≤ A l * B l := by
      have sx : ∀ (z : ℕ → F) n, n ≤ N → ∑ i ∈ range N, |if i < n then Φ.val (z i) else 0| =
          ∑ i ∈ range n, |Φ.val (z i)| := by
        intro z n hn
        rw [← pad_sum LW z n N hn]
        refine Finset.sum_congr rfl fun i hi => ?_
        rw [pad_val LW z n N i (mem_range.1 hi)]
      have dx := norm_dft_le N (fun i => if i < hM then Φ.val (h l i) else 0) k
      have dy := norm_dft_le N (fun i => if i < uM then Φ.val (u l i) else 0) k
      rw [sx _ _ hhM, ← eA] at dx
      rw [sx _ _ huM, ← eB] at dy
      rw [norm_mul]
      exact mul_le_mul dx dy (norm_nonneg _) (hA0 l)
    simp only [accSpec, exactAcc, Finset.sum_range_succ] at i1 i2 i3 ⊢
    generalize L.cdivr (prodSpec L (h l) (u l) hM uM N k) (ofInt N) = t at *
    generalize prodSpec L (h l) (u l) hM uM N k = p at *
    generalize accSpec L h u hM uM N l k = s at *
    generalize (dft N (fun i => if i < hM then Φ.val (h l i) else 0) k *
        dft N (fun i => if i < uM then Φ.val (u l i) else 0) k) = P at *
    generalize (∑ m ∈ range l, dft N (fun i => if i < hM then Φ.val (h m i) else 0) k *
        dft N (fun i => if i < uM then Φ.val (u m i) else 0) k / N) = S at *
    have hTle : ∑ m ∈ range l, A m * B m / N ≤ ∑ m ∈ range l, A m * B m :=
      Finset.sum_le_sum fun m _ => div_le_self (hAB m) hN1
    have hT0 : 0 ≤ ∑ m ∈ range l, A m * B m / N := Finset.sum_nonneg fun m _ => div_nonneg (hAB m) hN0.le
    generalize ∑ m ∈ range l, A m * B m / N = T at *
    generalize ∑ m ∈ range l, A m * B m = W at *
    have hw0 := hAB l
    generalize A l * B l = w at *
    have ha0 : 0 ≤ w / N := div_nonneg hw0 hN0.le
    have hale : w / N ≤ w := div_le_self hw0 hN1
    have divn : ∀ z : ℂ, ‖z / N‖ = ‖z‖ / N := fun z => by rw [norm_div, Complex.norm_natCast]
    have hPn : ‖P / N‖ ≤ w / N := by rw [divn]; exact div_le_div_of_nonneg_right dP hN0.le
    have hη1 : η / N ≤ η := div_le_self hη hN1
    -- the term
    have te : ‖Φ.cval t - P / N‖ ≤ (termAcc δ μ α - 1) * (w / N) + ((1 + α) * η + ζ) := by
      have h1 := norm_add_le (Φ.cval t - Φ.cval p / N) (Φ.cval p / N - P / N)
      rw [sub_add_sub_cancel] at h1
      have h2 : ‖Φ.cval p / N - P / N‖ ≤ (((1 + δ) ^ 2 * (1 + μ) - 1) * w + η) / N := by
        rw [← sub_div, divn]; exact div_le_div_of_nonneg_right p2 hN0.le
      have h3 : ‖Φ.cval p / N‖ ≤ ((1 + δ) ^ 2 * (1 + μ) * w + η) / N := by
        rw [divn]; exact div_le_div_of_nonneg_right p3 hN0.le
      have h4 := mul_le_mul_of_nonneg_left h3 hα
      have h5 : α * (((1 + δ) ^ 2 * (1 + μ) * w + η) / N) + ζ + (((1 + δ) ^ 2 * (1 + μ) - 1) * w + η) / N =
          (termAcc δ μ α - 1) * (w / N) + ((1 + α) * (η / N) + ζ) := by
        unfold termAcc
        field_simp
        ring
      have h6 : (1 + α) * (η / N) ≤ (1 + α) * η := mul_le_mul_of_nonneg_left hη1 (by linarith)
      linarith
    have tn : ‖Φ.cval t‖ ≤ termAcc δ μ α * (w / N) + ((1 + α) * η + ζ) := by
      have := norm_add_le (Φ.cval t - P / N) (P / N)
      rw [sub_add_cancel] at this
      linarith
    have sn : ‖Φ.cval s‖ ≤ termAcc δ μ α * (1 + α) ^ l * T + l * (1 + α) ^ l * ((1 + α) * η + ζ) := by
      have := norm_add_le (Φ.cval s - S) S
      rw [sub_add_cancel] at this
      linarith
    have hHs : (1 + α) ^ (l + 1) = (1 + α) ^ l * (1 + α) := pow_succ _ _
    have cast : ((l + 1 : ℕ) : ℝ) = l + 1 := by push_cast; ring
    rw [hHs, cast] at hb
    rw [hHs, cast]
    generalize termAcc δ μ α = κ at *
    generalize (1 + α) * η + ζ = θ at *
    generalize hHv : (1 + α) ^ l = H at *
    have hl0 : (0 : ℝ) ≤ l := Nat.cast_nonneg _
    have hHα : H ≤ H * (1 + α) := le_mul_of_one_le_right (by linarith) (by linarith)
    have h1H : 1 ≤ H * (1 + α) := hHl.trans hHα
    have stop : ‖Φ.cval s‖ + ‖Φ.cval t‖ ≤ top := by
      have a1 : κ * H * T ≤ κ * (H * (1 + α)) * W := by
        refine mul_le_mul (mul_le_mul_of_nonneg_left hHα (by linarith)) hTle hT0 ?_
        exact mul_nonneg (by linarith) (by linarith)
      have a2 : κ * (w / N) ≤ κ * (H * (1 + α)) * w := by
        exact mul_le_mul (le_mul_of_one_le_right (by linarith) h1H) hale ha0 (mul_nonneg (by linarith) (by linarith))
      have a3 : l * H * θ + θ ≤ (l + 1) * (H * (1 + α)) * θ := by
        have b1 : l * H * θ ≤ l * (H * (1 + α)) * θ :=
          mul_le_mul_of_nonneg_right (mul_le_mul_of_nonneg_left hHα hl0) hθ
        have b2 : θ ≤ (H * (1 + α)) * θ := le_mul_of_one_le_left hθ h1H
        linarith
      linarith
    obtain ⟨c1, c2⟩ := hS.cadd s t i1 q1 stop
    refine ⟨c1, ?_, (norm_add_le _ _).trans (add_le_add i3 hPn)⟩
    have d1 := norm_add_le (Φ.cval (L.cadd s t) - (Φ.cval s + Φ.cval t)) ((Φ.cval s - S) + (Φ.cval t - P / N))
    rw [show Φ.cval (L.cadd s t) - (Φ.cval s + Φ.cval t) + ((Φ.cval s - S) + (Φ.cval t - P / N)) =
      Φ.cval (L.cadd s t) - (S + P / N) by ring] at d1
    have d2 := norm_add_le (Φ.cval s - S) (Φ.cval t - P / N)
    have d3 : ‖Φ.cval s + Φ.cval t‖ ≤ (T + w / N) + (‖Φ.cval s - S‖ + ‖Φ.cval t - P / N‖) := by
      have e1 := norm_add_le (S + P / N) ((Φ.cval s - S) + (Φ.cval t - P / N))
      rw [show S + P / N + ((Φ.cval s - S) + (Φ.cval t - P / N)) = Φ.cval s + Φ.cval t by ring] at e1
      have e2 := norm_add_le S (P / N)
      linarith
    have d4 := mul_le_mul_of_nonneg_left d3 hα
    have d5 := mul_le_mul_of_nonneg_left (add_le_add i2 te) (by linarith : (0 : ℝ) ≤ 1 + α)
    have d6 : (1 + α) * ((κ * H - 1) * T + l * H * θ + ((κ - 1) * (w / N) + θ)) + α * (T + w / N) =
        (κ * (H * (1 + α)) - 1) * T + (κ * (1 + α) - 1) * (w / N) + l * (H * (1 + α)) * θ + (1 + α) * θ := by ring
    have d7 : κ * (1 + α) * (w / N) ≤ κ * (H * (1 + α)) * (w / N) := by
      refine mul_le_mul_of_nonneg_right ?_ ha0
      refine mul_le_mul_of_nonneg_left ?_ (by linarith)
      exact le_mul_of_one_le_left (by linarith) hHl
    have d8 : (1 + α) * θ ≤ H * (1 + α) * θ := by
      refine mul_le_mul_of_nonneg_right ?_ hθ
      exact le_mul_of_one_le_left (by linarith) hHl
    linarith

/-- The exact accumulated spectrum belongs to the sum of the convolutions. -/
theorem exactAcc_idft (h u : ℕ → ℕ → ℝ) (hM uM : ℕ) (h1 : 1 ≤ hM) (h2 : 1 ≤ uM) (L i : ℕ) (hi : i < hM + uM - 1) :
    idftHalf (hM + uM - 1) (fun k => exactAcc (hM + uM - 1) (fun l k =>
      dft (hM + uM - 1) (fun i => if i < hM then h l i else 0) k *
      dft (hM + uM - 1) (fun i => if i < uM then u l i else 0) k) L k) i = convSum h u L hM uM i := by
  rw [← accSpec_real h u hM uM h1 h2 L i hi]
  congr 1
  funext k
  induction L with
  | zero => simp [exactAcc, accSpec, toC, Complex.ext_iff]
  | succ L ih =>
    have e1 : ∀ P : ℕ → ℕ → ℂ, exactAcc (hM + uM - 1) P (L + 1) k = exactAcc (hM + uM - 1) P L k + P L k / (hM + uM - 1 : ℕ) := by
      intro P
      exact Finset.sum_range_succ _ _
    rw [e1, ih]
    simp only [accSpec]
    rw [exact_cadd, exact_cdivr, toC_prodSpec]
    simp only [r_ofInt, Int.cast_natCast, Complex.ofReal_natCast]

/-- The error of a sample of a sum of `M` FFT based convolutions whose operands have the total size `T`. -/
noncomputable def fftSumErr (Φ : FloatView F) (δ μ η α ζ : ℝ) (M : ℕ) (T : ℝ) : ℝ :=
  ((1 + δ) * (termAcc δ μ α * (1 + α) ^ M) * (1 + Φ.u) - 1) * T +
    (1 + Φ.u) * ((1 + δ) * (M * (1 + α) ^ M * ((1 + α) * η + ζ))) + Φ.eta

theorem addFftVal_err (LW : FloatLaws Φ) (L : FFTLib F) (h u : ℕ → ℕ → F) (hM uM M : ℕ) (h1 : 1 ≤ hM) (h2 : 1 ≤ uM)
    {δ μ η α ζ top : ℝ} (hL : L.Accurate Φ (hM + uM - 1) δ μ η top) (hS : L.AccurateSum Φ (hM + uM - 1) α ζ top)
    (fh : ∀ l < M, ∀ i < hM, Φ.fin (h l i)) (fu : ∀ l < M, ∀ i < uM, Φ.fin (u l i))
    (A B : ℕ → ℝ) (eA : ∀ l, A l = ∑ i ∈ range hM, |Φ.val (h l i)|) (eB : ∀ l, B l = ∑ i ∈ range uM, |Φ.val (u l i)|)
    (tA : ∀ l < M, A l ≤ top) (tB : ∀ l < M, B l ≤ top)
    (tAB : ((hM + uM - 1 : ℕ) : ℝ) * (termAcc δ μ α * (1 + α) ^ M * ∑ l ∈ range M, A l * B l +
      M * (1 + α) ^ M * ((1 + α) * η + ζ)) ≤ top) (m : ℕ) (hm : m < hM + uM - 1)
    (hf : Φ.fin (addFftVal L h u M hM uM m)) :
    |Φ.val (addFftVal L h u M hM uM m) -
      convSum (fun l i => Φ.val (h l i)) (fun l j => Φ.val (u l j)) M hM uM m / ((hM + uM - 1 : ℕ) : ℝ)| ≤
    fftSumErr Φ δ μ η α ζ M ((∑ l ∈ range M, A l * B l) / ((hM + uM - 1 : ℕ) : ℝ)) := by
  have hδ := hL.δ_nonneg
  have hμ := hL.μ_nonneg
  have hη := hL.η_nonneg
  have hα := hS.α_nonneg
  have hζ := hS.ζ_nonneg
  have hu := LW.u_nonneg
  have hA0 : ∀ l, 0 ≤ A l := fun l => by rw [eA]; exact Finset.sum_nonneg fun _ _ => abs_nonneg _
  have hB0 : ∀ l, 0 ≤ B l := fun l => by rw [eB]; exact Finset.sum_nonneg fun _ _ => abs_nonneg _
  have hAB : ∀ l, 0 ≤ A l * B l := fun l => mul_nonneg (hA0 l) (hB0 l)
  have hκ : 0 ≤ termAcc δ μ α := by unfold termAcc; positivity
  have hH : (0 : ℝ) ≤ (1 + α) ^ M := by positivity
  have hθ : 0 ≤ (1 + α) * η + ζ := by positivity
  have hW0 : 0 ≤ ∑ l ∈ range M, A l * B l := Finset.sum_nonneg fun m _ => hAB m
  have hN1 : 1 ≤ hM + uM - 1 := by omega
  have hid0 := exactAcc_idft (fun l i => Φ.val (h l i)) (fun l j => Φ.val (u l j)) hM uM h1 h2 M m hm
  have hcv : |convSum (fun l i => Φ.val (h l i)) (fun l j => Φ.val (u l j)) M hM uM m| ≤ ∑ l ∈ range M, A l * B l := by
    unfold convSum
    refine (Finset.abs_sum_le_sum_abs _ _).trans (Finset.sum_le_sum fun l _ => ?_)
    rw [eA, eB]
    exact linConv_abs_le _ _ _ _ _
  have hb : termAcc δ μ α * (1 + α) ^ M * ∑ l ∈ range M, A l * B l + M * (1 + α) ^ M * ((1 + α) * η + ζ) ≤ top := by
    have g1 : (1 : ℝ) ≤ ((hM + uM - 1 : ℕ) : ℝ) := by exact_mod_cast hN1
    have g2 : 0 ≤ termAcc δ μ α * (1 + α) ^ M * ∑ l ∈ range M, A l * B l + M * (1 + α) ^ M * ((1 + α) * η + ζ) := by
      positivity
    nlinarith
  have hsp := fun k hk => accSpec_err LW L hN1 hL hS h u hM uM M (by omega) (by omega) fh fu A B eA eB tA tB hb k hk M le_rfl
  unfold addFftVal at hf ⊢
  generalize hM + uM - 1 = N at *
  have hN : (0 : ℝ) < N := by exact_mod_cast hN1
  have hTW : ∑ l ∈ range M, A l * B l / N = (∑ l ∈ range M, A l * B l) / N := by
    simp only [div_eq_mul_inv, Finset.sum_mul]
  obtain ⟨X, hX⟩ : ∃ X : ℕ → F × F, X = fun k => if k ≤ N / 2 then accSpec L h u hM uM N M k else (lit 0, lit 0) :=
    ⟨_, rfl⟩
  rw [← hX] at hf ⊢
  have hXk : ∀ k ≤ N / 2, X k = accSpec L h u hM uM N M k := fun k hk => by rw [hX]; exact if_pos hk
  have hsum : ∑ k ∈ range N, ‖hermExt N (fun k => Φ.cval (X k)) k‖ ≤
      N * (termAcc δ μ α * (1 + α) ^ M * ((∑ l ∈ range M, A l * B l) / N) + M * (1 + α) ^ M * ((1 + α) * η + ζ)) := by
    refine hermExt_sum_le N _ _ fun k hk => ?_
    rw [hXk k hk]
    obtain ⟨_, g2, g3⟩ := hsp k hk
    rw [hTW] at g2 g3
    have := norm_add_le (Φ.cval (accSpec L h u hM uM N M k) - exactAcc N (fun l k =>
      dft N (fun i => if i < hM then Φ.val (h l i) else 0) k * dft N (fun i => if i < uM then Φ.val (u l i) else 0) k) M k)
      (exactAcc N (fun l k =>
      dft N (fun i => if i < hM then Φ.val (h l i) else 0) k * dft N (fun i => if i < uM then Φ.val (u l i) else 0) k) M k)
    rw [sub_add_cancel] at this
    linarith
  have hWN : (∑ l ∈ range M, A l * B l) / N ≤ ∑ l ∈ range M, A l * B l :=
    div_le_self hW0 (by exact_mod_cast hN1)
  obtain ⟨fc, ec⟩ := hL.c2r X (fun k hk => by rw [hXk k hk]; exact (hsp k hk).1) (hsum.trans (le_trans (by
    refine mul_le_mul_of_nonneg_left ?_ hN.le
    have := mul_le_mul_of_nonneg_left hWN (mul_nonneg hκ hH)
    linarith) tAB)) m hm
  have hid := idftHalf_close N (fun k => Φ.cval (X k)) _ _
    (fun k hk => by rw [hXk k hk]; exact (hsp k hk).2.1) m
  rw [hid0, hTW] at hid
  obtain ⟨_, hd⟩ := LW.div _ _ hf
  obtain ⟨ed, _⟩ := hd hL.len.1 (by rw [hL.len.2]; exact hN.ne')
  rw [hL.len.2] at ed
  have hcN : |convSum (fun l i => Φ.val (h l i)) (fun l j => Φ.val (u l j)) M hM uM m / N| ≤
      (∑ l ∈ range M, A l * B l) / N := by
    rw [abs_div, Nat.abs_cast]
    exact div_le_div_of_nonneg_right hcv hN.le
  have hT0 : 0 ≤ (∑ l ∈ range M, A l * B l) / N := div_nonneg hW0 hN.le
  generalize (∑ l ∈ range M, A l * B l) / (N : ℝ) = T at *
  generalize convSum (fun l i => Φ.val (h l i)) (fun l j => Φ.val (u l j)) M hM uM m = c at *
  generalize Φ.val (L.c2r N X m /. ofInt N) = r at *
  generalize Φ.val (L.c2r N X m) = v at *
  generalize idftHalf N (fun k => Φ.cval (X k)) m = w at *
  generalize ∑ k ∈ range N, ‖hermExt N (fun k => Φ.cval (X k)) k‖ = S at *
  unfold fftSumErr
  generalize termAcc δ μ α * (1 + α) ^ M = K at *
  generalize (M : ℝ) * (1 + α) ^ M * ((1 + α) * η + ζ) = θ at *
  have h1 : |v - c| ≤ N * (((1 + δ) * K - 1) * T + (1 + δ) * θ) := by
    have := abs_add_le (v - w) (w - c)
    rw [sub_add_sub_cancel] at this
    have h2 : δ * S ≤ δ * (N * (K * T + θ)) := mul_le_mul_of_nonneg_left hsum hδ
    have h3 : δ * (N * (K * T + θ)) + N * ((K - 1) * T + θ) = N * (((1 + δ) * K - 1) * T + (1 + δ) * θ) := by ring
    linarith
  have h2 : |v / N - c / N| ≤ ((1 + δ) * K - 1) * T + (1 + δ) * θ := by
    rw [← sub_div, abs_div, abs_of_pos hN, div_le_iff₀ hN]
    linarith
  have h3 : |v / N| ≤ (1 + δ) * K * T + (1 + δ) * θ := by
    have := abs_add_le (v / N - c / N) (c / N)
    rw [sub_add_cancel] at this
    linarith
  have h4 := abs_add_le (r - v / N) (v / N - c / N)
  rw [sub_add_sub_cancel] at h4
  have h5 := mul_le_mul_of_nonneg_left h3 hu
  have h6 : Φ.u * ((1 + δ) * K * T + (1 + δ) * θ) + (((1 + δ) * K - 1) * T + (1 + δ) * θ) =
      ((1 + δ) * K * (1 + Φ.u) - 1) * T + (1 + Φ.u) * ((1 + δ) * θ) := by ring
  linarith

/-- C92: sum_fftconv in floating point.  Every complete run, with any number of workers and any schedule, leaves in
each sample that is finite the exact sum of the convolutions of the stored inputs divided by the length of the result,
up to a relative error that grows with the number of inputs, of the sum over the inputs of the PRODUCTS of the
sums of the absolute values, divided by that length (plus underflow and, for '+=', the rounding of the last addition).
The division by the length is the fault that C26 states. -/
theorem C92_sum_fftconv (LW : FloatLaws Φ) (C : SumCall F) (Y : Buf F) (h : C.Sized Y) (ha : C.accepted = true)
    (hu : ¬ (C.uM = 1 ∧ 1 < C.uN)) (nth : ℕ) (h1 : 1 ≤ nth) (as : List Act) (hab : Act.abort ∉ as)
    (s' : Sys F (Prog F SIRError)) (hr : C.drv.Run nth Y as s') (n : ℕ) (hn : n < C.hN)
    (len : ℕ) (hlen : len = C.hM + C.uM - 1) (i : ℕ) (hi : i < len)
    (a b : ℕ → ℕ → F) (hA : ∀ l i, a l i = C.H.data (i + n * C.hM + C.hM * C.hN * l))
    (hB : ∀ l j, b l j = C.U.data (j + l * C.uM))
    (fa : ∀ l < C.hL, ∀ i < C.hM, Φ.fin (a l i)) (fb : ∀ l < C.hL, ∀ j < C.uM, Φ.fin (b l j))
    (A B : ℕ → ℝ) (eA : ∀ l, A l = ∑ i ∈ range C.hM, |Φ.val (a l i)|)
    (eB : ∀ l, B l = ∑ j ∈ range C.uM, |Φ.val (b l j)|)
    {δ μ η α ζ top : ℝ} (hL : C.L.Accurate Φ len δ μ η top) (hS : C.L.AccurateSum Φ len α ζ top)
    (tA : ∀ l < C.hL, A l ≤ top) (tB : ∀ l < C.hL, B l ≤ top)
    (tAB : (len : ℝ) * (termAcc δ μ α * (1 + α) ^ C.hL * ∑ l ∈ range C.hL, A l * B l +
      C.hL * (1 + α) ^ C.hL * ((1 + α) * η + ζ)) ≤ top)
    (hf : Φ.fin (s'.mem.data (n * len + i))) :
    |Φ.val (s'.mem.data (n * len + i)) - ((if C.mode = .sum then Φ.val (Y.data (n * len + i)) else 0) +
      convSum (fun l i => Φ.val (a l i)) (fun l j => Φ.val (b l j)) C.hL C.hM C.uM i / (len : ℝ))| ≤
    Φ.u * ((if C.mode = .sum then |Φ.val (Y.data (n * len + i))| else 0) + (∑ l ∈ range C.hL, A l * B l) / len) +
      (1 + Φ.u) * fftSumErr Φ δ μ η α ζ C.hL ((∑ l ∈ range C.hL, A l * B l) / len) := by
  subst hlen
  have hLN : C.hL = C.uN := by simpa [SumCall.accepted] using ha
  have hr1 := SumCall.uRows_eq hu (by rw [← hLN]; exact h.hL)
  have hlen : C.len = C.hM + C.uM - 1 := by unfold SumCall.len; rw [hr1]
  have hval : s'.mem.data (n * (C.hM + C.uM - 1) + i) =
      storeVal (addMode C.mode) (Y.data (n * (C.hM + C.uM - 1) + i)) (addFftVal C.L a b C.hL C.hM C.uM i) := by
    rw [← hlen] at hi ⊢
    obtain ⟨z', e, hv⟩ := (SumCall.prog_ok h ha hu hn).2 (Y.getCol (n * C.len) C.len)
    obtain ⟨Y', f1, _, f3, _⟩ := Prog.runBuf_at (n * C.len) C.len Y (SumCall.inside h n hn)
      (C.prog n) z' .none e
    have hok : ∀ n, n < C.hN → ¬ C.drv.PointErr Y n .outOfBounds := by
      rintro n hn ⟨fuel, m', hs⟩
      have hs' : (C.prog n).runBuf (n * C.len) Y = .ok (m', .outOfBounds) := hs
      obtain ⟨z', e, _⟩ := (SumCall.prog_ok h ha hu hn).2 (Y.getCol (n * C.len) C.len)
      obtain ⟨Y', f1, _⟩ := Prog.runBuf_at (n * C.len) C.len Y (SumCall.inside h n hn) (C.prog n) z'
        .none e
      rw [f1] at hs'
      simp at hs'
    have hcol : s'.mem.data (n * C.len + i) = Y'.data (n * C.len + i) :=
      Drv.columns (SumCall.faithful h ha hu) (SumCall.defined h ha hu) nth h1 as hab hok s' hr n hn 0
        Y' .none f1 i hi
    have hH : C.colH n = a := by funext l i; rw [hA]; rfl
    have hU : C.colU = b := by funext l i; rw [hB]; rfl
    rw [hcol, f3 i hi, hv i hi, hH, hU]
    simp only [Buf.getCol]
    rw [if_pos hi]
  rw [hval] at hf ⊢
  have hδ := hL.δ_nonneg
  have hμ := hL.μ_nonneg
  have hη := hL.η_nonneg
  have hα := hS.α_nonneg
  have hζ := hS.ζ_nonneg
  have hu0 := LW.u_nonneg
  have he0 := LW.eta_nonneg
  have hAB : ∀ l, 0 ≤ A l * B l := fun l => by
    rw [eA, eB]
    exact mul_nonneg (Finset.sum_nonneg fun _ _ => abs_nonneg _) (Finset.sum_nonneg fun _ _ => abs_nonneg _)
  have hW0 : 0 ≤ ∑ l ∈ range C.hL, A l * B l := Finset.sum_nonneg fun m _ => hAB m
  have hcv : |convSum (fun l i => Φ.val (a l i)) (fun l j => Φ.val (b l j)) C.hL C.hM C.uM i /
      ((C.hM + C.uM - 1 : ℕ) : ℝ)| ≤ (∑ l ∈ range C.hL, A l * B l) / ((C.hM + C.uM - 1 : ℕ) : ℝ) := by
    rw [abs_div, Nat.abs_cast]
    refine div_le_div_of_nonneg_right ?_ (Nat.cast_nonneg _)
    unfold convSum
    refine (Finset.abs_sum_le_sum_abs _ _).trans (Finset.sum_le_sum fun l _ => ?_)
    rw [eA, eB]
    exact linConv_abs_le _ _ _ _ _
  have hE : 0 ≤ fftSumErr Φ δ μ η α ζ C.hL ((∑ l ∈ range C.hL, A l * B l) / ((C.hM + C.uM - 1 : ℕ) : ℝ)) := by
    unfold fftSumErr termAcc
    have g1 : (1 : ℝ) ≤ (1 + δ) * ((1 + δ) ^ 2 * (1 + μ) * (1 + α) * (1 + α) ^ C.hL) * (1 + Φ.u) := by
      have k1 : (1 : ℝ) ≤ (1 + δ) ^ 2 := one_le_pow₀ (by linarith)
      have k2 : (1 : ℝ) ≤ (1 + α) ^ C.hL := one_le_pow₀ (by linarith)
      have k3 := one_le_mul_of_one_le_of_one_le k1 (by linarith : 1 ≤ 1 + μ)
      have k4 := one_le_mul_of_one_le_of_one_le k3 (by linarith : 1 ≤ 1 + α)
      have k5 := one_le_mul_of_one_le_of_one_le k4 k2
      have k6 := one_le_mul_of_one_le_of_one_le (by linarith : 1 ≤ 1 + δ) k5
      exact one_le_mul_of_one_le_of_one_le k6 (by linarith)
    have := mul_nonneg (by linarith [g1] : (0 : ℝ) ≤
      (1 + δ) * ((1 + δ) ^ 2 * (1 + μ) * (1 + α) * (1 + α) ^ C.hL) * (1 + Φ.u) - 1)
      (div_nonneg hW0 (Nat.cast_nonneg (C.hM + C.uM - 1)))
    positivity
  have key := storeVal_err LW (addMode C.mode) _ _ _ _ _ hE hcv hf
    (fun hfv => addFftVal_err LW C.L a b C.hM C.uM C.hL h.hM h.uM hL hS fa fb A B eA eB tA tB tAB i hi hfv)
  cases hm : C.mode <;> simp only [hm, addMode, stored, magnitude] at key ⊢ <;> simpa using key

/-! ### A library that is accurate -/

section Examples

theorem rndLib_accurateSum (p N : ℕ) (hN : 1 ≤ N) :
    (rndLib p).AccurateSum (rndView p) N (2 * (rndView p).u) (2 * (rndView p).eta) (rndView p).huge :=
  FFTLib.AccurateSum.of_parts (rndLaws p) (rndLib p) N hN ⟨trivial, by show (((N : ℕ) : ℤ) : ℝ) = N; simp⟩
    (fun _ _ => rfl) (fun _ _ => rfl)

/-- A 2 x 1 response for two inputs, with '+=' and the rounded transforms. -/
noncomputable def exRndSum : SumCall (Rnd 53) where
  hM := 2
  hN := 1
  hL := 2
  H := ⟨4, fun i => ⟨(i : ℝ) + 1 / 3⟩⟩
  uM := 2
  uN := 2
  U := ⟨4, fun _ => ⟨1 / 7⟩⟩
  mode := .sum
  L := rndLib 53
  S := fun _ _ => ⟨⟨3, fun _ => ⟨7⟩⟩, ⟨3, fun _ => ⟨7⟩⟩, ⟨3, fun _ => ⟨7⟩⟩, ⟨3, fun _ => (⟨7⟩, ⟨7⟩)⟩,
      ⟨3, fun _ => (⟨7⟩, ⟨7⟩)⟩, ⟨3, fun _ => (⟨7⟩, ⟨7⟩)⟩⟩
  cf := fun _ => ⟨3, fun _ => (⟨7⟩, ⟨7⟩)⟩
  c := fun _ => ⟨3, fun _ => ⟨7⟩⟩

-- a complete run that meets the hypotheses of C92_sum_fftconv: sample 1 is 1 plus a third (C26) of the sum of the
-- convolutions, up to 2^-45
example : ∃ as s', Act.abort ∉ as ∧ exRndSum.Sized ⟨3, fun _ => ⟨1⟩⟩ ∧ exRndSum.accepted = true ∧
    ¬ (exRndSum.uM = 1 ∧ 1 < exRndSum.uN) ∧ exRndSum.drv.Run 2 ⟨3, fun _ => ⟨1⟩⟩ as s' ∧
    |(s'.mem.data 1).v - (1 + ((1 / 3 + 4 / 3) * (1 / 7) + (7 / 3 + 10 / 3) * (1 / 7)) / 3)| ≤ (1 / 2) ^ 45 := by
  have hs : exRndSum.Sized ⟨3, fun _ => ⟨1⟩⟩ := by
    refine ⟨rfl, rfl, by simp [exRndSum], by simp [exRndSum], by simp [exRndSum], rfl, fun _ _ => ?_, fun _ => rfl,
      fun _ => rfl⟩
    exact ⟨rfl, rfl, rfl, rfl, rfl, rfl⟩
  have hu : ¬ (exRndSum.uM = 1 ∧ 1 < exRndSum.uN) := by simp [exRndSum]
  obtain ⟨k, s', g1, g2⟩ := Drv.run_exists (SumCall.faithful hs rfl hu) (SumCall.defined hs rfl hu) 2
  generalize Drv.roundRobin 2 k = as at g1 g2
  refine ⟨as, s', g1, hs, rfl, hu, g2, ?_⟩
  have := C92_sum_fftconv (rndLaws 53) exRndSum _ hs rfl hu 2 (by omega) as g1 s' g2 0
    (by simp [exRndSum]) 3 rfl 1 (by omega)
    (fun l i => ⟨((i + 2 * l : ℕ) : ℝ) + 1 / 3⟩) (fun _ _ => ⟨1 / 7⟩)
    (by intro l i; simp [exRndSum]) (by intro l j; simp [exRndSum])
    (fun _ _ _ _ => trivial) (fun _ _ _ _ => trivial) (fun l => 4 * l + 5 / 3) (fun _ => 2 / 7)
    (by
      intro l
      show (4 * l + 5 / 3 : ℝ) = ∑ i ∈ range 2, |((i + 2 * l : ℕ) : ℝ) + 1 / 3|
      simp only [Finset.sum_range_succ, Finset.sum_range_zero]
      rw [abs_of_nonneg (by positivity), abs_of_nonneg (by positivity)]
      push_cast
      ring)
    (by
      intro l
      show (2 / 7 : ℝ) = ∑ i ∈ range 2, |(1 / 7 : ℝ)|
      simp only [Finset.sum_range_succ, Finset.sum_range_zero]
      norm_num [abs_of_pos])
    (rndLib_accurate 53 _ (rndView 53).huge) (rndLib_accurateSum 53 _ (by norm_num))
    (by
      intro l hl
      have : (l : ℝ) < 2 := by exact_mod_cast hl
      have h2 : (1000 : ℝ) ≤ (rndView 53).huge := (rndLaws 53).huge_ge
      linarith)
    (by
      intro l hl
      have h2 : (1000 : ℝ) ≤ (rndView 53).huge := (rndLaws 53).huge_ge
      linarith)
    (by
      have h2 : (1000 : ℝ) ≤ (rndView 53).huge := (rndLaws 53).huge_ge
      refine le_trans ?_ h2
      simp only [exRndSum, rndView, termAcc, Finset.sum_range_succ, Finset.sum_range_zero]
      norm_num) trivial
  simp only [exRndSum, rndView, convSum, linConv, fftSumErr, termAcc, Finset.sum_range_succ,
    Finset.sum_range_zero] at this
  norm_num at this
  norm_num
  rw [abs_le] at this ⊢
  constructor
  · linarith [this.1]
  · linarith [this.2]

end Examples

end Dream
