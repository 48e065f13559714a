import Verif.ClaimsRound
import Verif.ExactFft

/-
C92: rounding errors of the FFT based convolution.

`FFTLib.Accurate` says what is assumed of the Fourier transforms (FFTW) and of the complex multiplication: each
coefficient is exact up to a multiple of the sum of the absolute values of the input.  This is a
specification of a library that is not part of the repository.
-/

namespace Dream
open Arith Finset

variable {F : Type} [Arith F] {Φ : FloatView F}

/-- A pair of floating point numbers read as a complex number. -/
noncomputable def FloatView.cval (Φ : FloatView F) (p : F × F) : ℂ := ⟨Φ.val p.1, Φ.val p.2⟩

/-- Both parts are finite. -/
def FloatView.cfin (Φ : FloatView F) (p : F × F) : Prop := Φ.fin p.1 ∧ Φ.fin p.2

/-- Transforms of length `N` with relative accuracy `δ`, complex products with relative accuracy `μ` and
underflow `η`; nothing overflows below `top`, and `N` is a floating point number. -/
structure FFTLib.Accurate (Φ : FloatView F) (L : FFTLib F) (N : ℕ) (δ μ η top : ℝ) : Prop where
  δ_nonneg : 0 ≤ δ
  μ_nonneg : 0 ≤ μ
  η_nonneg : 0 ≤ η
  r2c : ∀ x, (∀ i < N, Φ.fin (x i)) → ∑ i ∈ range N, |Φ.val (x i)| ≤ top → ∀ k ≤ N / 2,
    Φ.cfin (L.r2c N x k) ∧
    ‖Φ.cval (L.r2c N x k) - dft N (fun i => Φ.val (x i)) k‖ ≤ δ * ∑ i ∈ range N, |Φ.val (x i)|
  cmul : ∀ a b, Φ.cfin a → Φ.cfin b → ‖Φ.cval a‖ * ‖Φ.cval b‖ ≤ top →
    Φ.cfin (L.cmul a b) ∧ ‖Φ.cval (L.cmul a b) - Φ.cval a * Φ.cval b‖ ≤ μ * (‖Φ.cval a‖ * ‖Φ.cval b‖) + η
  c2r : ∀ X, (∀ k ≤ N / 2, Φ.cfin (X k)) →
    ∑ k ∈ range N, ‖hermExt N (fun k => Φ.cval (X k)) k‖ ≤ top → ∀ i < N,
    Φ.fin (L.c2r N X i) ∧
    |Φ.val (L.c2r N X i) - idftHalf N (fun k => Φ.cval (X k)) i| ≤
      δ * ∑ k ∈ range N, ‖hermExt N (fun k => Φ.cval (X k)) k‖
  len : Φ.fin (ofInt N) ∧ Φ.val (ofInt N) = N

/-! ### Norms -/

theorem norm_root (N : ℕ) (m : ℤ) : ‖root N m‖ = 1 := by
  unfold root
  have : (2 * Real.pi * Complex.I * m / N : ℂ) = ((2 * Real.pi * m / N : ℝ) : ℂ) * Complex.I := by
    push_cast
    ring
  rw [this]
  exact Complex.norm_exp_ofReal_mul_I _

theorem norm_dft_le (N : ℕ) (x : ℕ → ℝ) (k : ℕ) : ‖dft N x k‖ ≤ ∑ i ∈ range N, |x i| := by
  unfold dft
  refine (norm_sum_le _ _).trans (Finset.sum_le_sum fun i _ => ?_)
  rw [norm_mul, norm_root, mul_one, Complex.norm_real, Real.norm_eq_abs]

theorem hermExt_norm_le (N : ℕ) (X : ℕ → ℂ) (p : ℝ) (h : ∀ k ≤ N / 2, ‖X k‖ ≤ p) (k : ℕ) (hk : k < N) :
    ‖hermExt N X k‖ ≤ p := by
  unfold hermExt
  split
  · next h1 => exact h k h1
  · rw [RCLike.norm_conj]
    exact h _ (by omega)

theorem hermExt_sum_le (N : ℕ) (X : ℕ → ℂ) (p : ℝ) (h : ∀ k ≤ N / 2, ‖X k‖ ≤ p) :
    ∑ k ∈ range N, ‖hermExt N X k‖ ≤ N * p := by
  refine (Finset.sum_le_sum fun k hk => hermExt_norm_le N X p h k (mem_range.1 hk)).trans ?_
  rw [Finset.sum_const, card_range, nsmul_eq_mul]

/-- The backward transforms of two half spectra that are close are close. -/
theorem idftHalf_close (N : ℕ) (X Y : ℕ → ℂ) (e : ℝ) (h : ∀ k ≤ N / 2, ‖X k - Y k‖ ≤ e) (i : ℕ) :
    |idftHalf N X i - idftHalf N Y i| ≤ N * e := by
  have h1 : idftHalf N X i - idftHalf N Y i =
      (∑ k ∈ range N, hermExt N (fun k => X k - Y k) k * root N ((k * i : ℕ) : ℤ)).re := by
    unfold idftHalf
    rw [← Complex.sub_re, ← Finset.sum_sub_distrib]
    congr 1
    apply Finset.sum_congr rfl
    intro k _
    unfold hermExt
    split
    · ring
    · rw [map_sub]; ring
  rw [h1]
  refine (Complex.abs_re_le_norm _).trans ((norm_sum_le _ _).trans ?_)
  refine le_trans (le_of_eq ?_) (hermExt_sum_le N (fun k => X k - Y k) e h)
  refine Finset.sum_congr rfl fun k _ => ?_
  rw [norm_mul, norm_root, mul_one]

theorem linConv_abs_le (x y : ℕ → ℝ) (nx ny k : ℕ) :
    |linConv x y nx ny k| ≤ (∑ i ∈ range nx, |x i|) * ∑ j ∈ range ny, |y j| := by
  unfold linConv
  rw [Finset.sum_mul_sum]
  refine (Finset.abs_sum_le_sum_abs _ _).trans (Finset.sum_le_sum fun i _ => ?_)
  refine (Finset.abs_sum_le_sum_abs _ _).trans (Finset.sum_le_sum fun j _ => ?_)
  split
  · rw [abs_mul]
  · rw [abs_zero]; positivity

/-! ### One product of spectra -/

/-- Zero padding of floating point data. -/
theorem pad_val (L : FloatLaws Φ) (x : ℕ → F) (nx N i : ℕ) (hi : i < N) :
    Φ.val (if i < N then (if i < nx then x i else lit 0) else lit 0) =
      if i < nx then Φ.val (x i) else 0 := by
  rw [if_pos hi]
  split
  · rfl
  · exact L.zero.2

theorem pad_sum (L : FloatLaws Φ) (x : ℕ → F) (nx N : ℕ) (h : nx ≤ N) :
    ∑ i ∈ range N, |Φ.val (if i < N then (if i < nx then x i else lit 0) else lit 0)| =
      ∑ i ∈ range nx, |Φ.val (x i)| := by
  rw [← Finset.sum_subset (Finset.range_mono h)]
  · refine Finset.sum_congr rfl fun i hi => ?_
    have hi' := mem_range.1 hi
    rw [pad_val L x nx N i (by omega), if_pos hi']
  · intro i hi hi'
    have h1 := mem_range.1 hi
    have h2 : ¬ i < nx := fun h => hi' (mem_range.2 h)
    rw [pad_val L x nx N i h1, if_neg h2, abs_zero]

theorem pad_dft (L : FloatLaws Φ) (x : ℕ → F) (nx N k : ℕ) :
    dft N (fun i => Φ.val (if i < N then (if i < nx then x i else lit 0) else lit 0)) k =
      dft N (fun i => if i < nx then Φ.val (x i) else 0) k := by
  unfold dft
  refine Finset.sum_congr rfl fun i hi => ?_
  beta_reduce
  rw [pad_val L x nx N i (mem_range.1 hi)]

/-- Error of one coefficient of the product of the spectra. -/
theorem prodSpec_err (LW : FloatLaws Φ) (L : FFTLib F) {N : ℕ} {δ μ η top : ℝ}
    (hL : L.Accurate Φ N δ μ η top) (x y : ℕ → F) (nx ny : ℕ) (hnx : nx ≤ N) (hny : ny ≤ N)
    (hx : ∀ i < nx, Φ.fin (x i)) (hy : ∀ i < ny, Φ.fin (y i)) (A B : ℝ)
    (hA : A = ∑ i ∈ range nx, |Φ.val (x i)|) (hB : B = ∑ i ∈ range ny, |Φ.val (y i)|)
    (tA : A ≤ top) (tB : B ≤ top) (tAB : (1 + δ) * A * ((1 + δ) * B) ≤ top) (k : ℕ) (hk : k ≤ N / 2) :
    Φ.cfin (prodSpec L x y nx ny N k) ∧
    ‖Φ.cval (prodSpec L x y nx ny N k) -
      dft N (fun i => if i < nx then Φ.val (x i) else 0) k *
      dft N (fun i => if i < ny then Φ.val (y i) else 0) k‖ ≤
      ((1 + δ) ^ 2 * (1 + μ) - 1) * (A * B) + η ∧
    ‖Φ.cval (prodSpec L x y nx ny N k)‖ ≤ (1 + δ) ^ 2 * (1 + μ) * (A * B) + η := by
  have hδ := hL.δ_nonneg
  have hμ := hL.μ_nonneg
  have hA0 : 0 ≤ A := by rw [hA]; exact Finset.sum_nonneg fun _ _ => abs_nonneg _
  have hB0 : 0 ≤ B := by rw [hB]; exact Finset.sum_nonneg fun _ _ => abs_nonneg _
  have padfin : ∀ (z : ℕ → F) n, (∀ i < n, Φ.fin (z i)) → ∀ i < N,
      Φ.fin (if i < N then (if i < n then z i else lit 0) else lit 0) := by
    intro z n hz i hi
    rw [if_pos hi]
    split
    · next h => exact hz i h
    · exact LW.zero.1
  obtain ⟨fx, ex⟩ := hL.r2c (fun i => if i < N then (if i < nx then x i else lit 0) else lit 0)
    (padfin x nx hx) (by rw [pad_sum LW x nx N hnx, ← hA]; exact tA) k hk
  obtain ⟨fy, ey⟩ := hL.r2c (fun i => if i < N then (if i < ny then y i else lit 0) else lit 0)
    (padfin y ny hy) (by rw [pad_sum LW y ny N hny, ← hB]; exact tB) k hk
  rw [pad_sum LW x nx N hnx, ← hA, pad_dft LW] at ex
  rw [pad_sum LW y ny N hny, ← hB, pad_dft LW] at ey
  have dx := norm_dft_le N (fun i => if i < nx then Φ.val (x i) else 0) k
  have dy := norm_dft_le N (fun i => if i < ny then Φ.val (y i) else 0) k
  have sx : ∀ (z : ℕ → F) n, n ≤ N → ∑ i ∈ range N, |if i < n then Φ.val (z i) else 0| =
      ∑ i ∈ range n, |Φ.val (z i)| := by
    intro z n hn
    rw [← pad_sum LW z n N hn]
    refine Finset.sum_congr rfl fun i hi => ?_
    rw [pad_val LW z n N i (mem_range.1 hi)]
  rw [sx x nx hnx, ← hA] at dx
  rw [sx y ny hny, ← hB] at dy
  unfold prodSpec
  generalize L.r2c N (fun i => if i < N then (if i < nx then x i else lit 0) else lit 0) k = p at fx ex ⊢
  generalize L.r2c N (fun i => if i < N then (if i < ny then y i else lit 0) else lit 0) k = q at fy ey ⊢
  generalize dft N (fun i => if i < nx then Φ.val (x i) else 0) k = P at ex dx ⊢
  generalize dft N (fun i => if i < ny then Φ.val (y i) else 0) k = Q at ey dy ⊢
  have np : ‖Φ.cval p‖ ≤ (1 + δ) * A := by
    have := norm_add_le P (Φ.cval p - P)
    rw [add_sub_cancel] at this
    linarith
  have nq : ‖Φ.cval q‖ ≤ (1 + δ) * B := by
    have := norm_add_le Q (Φ.cval q - Q)
    rw [add_sub_cancel] at this
    linarith
  have npq : ‖Φ.cval p‖ * ‖Φ.cval q‖ ≤ (1 + δ) * A * ((1 + δ) * B) :=
    mul_le_mul np nq (norm_nonneg _) (by positivity)
  obtain ⟨f, e⟩ := hL.cmul p q fx fy (npq.trans tAB)
  have e1 : ‖Φ.cval p * Φ.cval q - P * Q‖ ≤ δ * A * ((1 + δ) * B) + A * (δ * B) := by
    have : Φ.cval p * Φ.cval q - P * Q = (Φ.cval p - P) * Φ.cval q + P * (Φ.cval q - Q) := by ring
    rw [this]
    refine (norm_add_le _ _).trans (add_le_add ?_ ?_)
    · rw [norm_mul]; exact mul_le_mul ex nq (norm_nonneg _) (by positivity)
    · rw [norm_mul]; exact mul_le_mul dx ey (norm_nonneg _) hA0
  have e2 : μ * (‖Φ.cval p‖ * ‖Φ.cval q‖) ≤ μ * ((1 + δ) * A * ((1 + δ) * B)) :=
    mul_le_mul_of_nonneg_left npq hμ
  have err : ‖Φ.cval (L.cmul p q) - P * Q‖ ≤ ((1 + δ) ^ 2 * (1 + μ) - 1) * (A * B) + η := by
    have h1 : Φ.cval (L.cmul p q) - P * Q =
        (Φ.cval (L.cmul p q) - Φ.cval p * Φ.cval q) + (Φ.cval p * Φ.cval q - P * Q) := by ring
    have h2 := norm_add_le (Φ.cval (L.cmul p q) - Φ.cval p * Φ.cval q) (Φ.cval p * Φ.cval q - P * Q)
    rw [← h1] at h2
    have h3 : μ * ((1 + δ) * A * ((1 + δ) * B)) + η + (δ * A * ((1 + δ) * B) + A * (δ * B)) =
        ((1 + δ) ^ 2 * (1 + μ) - 1) * (A * B) + η := by ring
    linarith
  refine ⟨f, err, ?_⟩
  have h4 := norm_add_le (Φ.cval (L.cmul p q) - Φ.cval p * Φ.cval q) (Φ.cval p * Φ.cval q)
  rw [sub_add_cancel, norm_mul] at h4
  have h3 : μ * ((1 + δ) * A * ((1 + δ) * B)) + η + (1 + δ) * A * ((1 + δ) * B) =
      (1 + δ) ^ 2 * (1 + μ) * (A * B) + η := by ring
  linarith

/-- Error of one sample of the FFT based convolution. -/
theorem fftconvVal_err (LW : FloatLaws Φ) (L : FFTLib F) (x y : ℕ → F) (nx ny : ℕ) (h1x : 1 ≤ nx) (h1y : 1 ≤ ny)
    {δ μ η top : ℝ} (hL : L.Accurate Φ (nx + ny - 1) δ μ η top)
    (hx : ∀ i < nx, Φ.fin (x i)) (hy : ∀ i < ny, Φ.fin (y i)) (A B : ℝ)
    (hA : A = ∑ i ∈ range nx, |Φ.val (x i)|) (hB : B = ∑ i ∈ range ny, |Φ.val (y i)|)
    (tA : A ≤ top) (tB : B ≤ top)
    (tAB : ((nx + ny - 1 : ℕ) : ℝ) * ((1 + δ) ^ 2 * (1 + μ) * (A * B) + η) ≤ top) (m : ℕ) (hm : m < nx + ny - 1)
    (hf : Φ.fin (fftconvVal L x y nx ny m)) :
    |Φ.val (fftconvVal L x y nx ny m) -
      linConv (fun i => Φ.val (x i)) (fun j => Φ.val (y j)) nx ny m| ≤
    ((1 + δ) ^ 3 * (1 + μ) * (1 + Φ.u) - 1) * (A * B) + (1 + Φ.u) * ((1 + δ) * η) + Φ.eta := by
  have hδ := hL.δ_nonneg
  have hμ := hL.μ_nonneg
  have hη := hL.η_nonneg
  have hu := LW.u_nonneg
  have hA0 : 0 ≤ A := by rw [hA]; exact Finset.sum_nonneg fun _ _ => abs_nonneg _
  have hB0 : 0 ≤ B := by rw [hB]; exact Finset.sum_nonneg fun _ _ => abs_nonneg _
  have hAB : 0 ≤ A * B := mul_nonneg hA0 hB0
  have hcv := linConv_abs_le (fun i => Φ.val (x i)) (fun j => Φ.val (y j)) nx ny m
  rw [← hA, ← hB] at hcv
  have hconv := circ_eq_lin nx ny (nx + ny - 1) (by omega) (fun i => Φ.val (x i)) (fun j => Φ.val (y j))
    (by omega) (by omega) m hm
  have hN1 : 1 ≤ nx + ny - 1 := by omega
  unfold fftconvVal at hf ⊢
  have hsp := fun k hk => prodSpec_err LW L hL x y nx ny (by omega) (by omega) hx hy A B hA hB tA tB (by
    have h1 : (1 + δ) * A * ((1 + δ) * B) ≤ (1 + δ) ^ 2 * (1 + μ) * (A * B) + η := by
      have : (1 + δ) ^ 2 * (A * B) * 1 ≤ (1 + δ) ^ 2 * (A * B) * (1 + μ) :=
        mul_le_mul_of_nonneg_left (by linarith) (by positivity)
      nlinarith
    have h2 : (1 : ℝ) ≤ ((nx + ny - 1 : ℕ) : ℝ) := by exact_mod_cast hN1
    have h3 : 0 ≤ (1 + δ) ^ 2 * (1 + μ) * (A * B) + η := by positivity
    nlinarith) k hk
  generalize nx + ny - 1 = N at *
  have hN : (0 : ℝ) < N := by exact_mod_cast hN1
  -- the spectrum handed to the backward transform
  obtain ⟨X, hX⟩ : ∃ X : ℕ → F × F, X = fun k => if k ≤ N / 2 then prodSpec L x y nx ny N k else (lit 0, lit 0) :=
    ⟨_, rfl⟩
  rw [← hX] at hf ⊢
  have hXk : ∀ k ≤ N / 2, X k = prodSpec L x y nx ny N k := fun k hk => by rw [hX]; exact if_pos hk
  have hsum : ∑ k ∈ range N, ‖hermExt N (fun k => Φ.cval (X k)) k‖ ≤
      N * ((1 + δ) ^ 2 * (1 + μ) * (A * B) + η) :=
    hermExt_sum_le N _ _ fun k hk => by rw [hXk k hk]; exact (hsp k hk).2.2
  obtain ⟨fc, ec⟩ := hL.c2r X (fun k hk => by rw [hXk k hk]; exact (hsp k hk).1) (hsum.trans tAB) m hm
  have hid := idftHalf_close N (fun k => Φ.cval (X k))
    (fun k => dft N (fun i => if i < nx then Φ.val (x i) else 0) k *
      dft N (fun i => if i < ny then Φ.val (y i) else 0) k) _
    (fun k hk => by rw [hXk k hk]; exact (hsp k hk).2.1) m
  rw [idftHalf_dft_mul N hN1, hconv, show (∑ i ∈ range nx, ∑ j ∈ range ny,
    if i + j = m then Φ.val (x i) * Φ.val (y j) else 0) =
    linConv (fun i => Φ.val (x i)) (fun j => Φ.val (y j)) nx ny m from rfl] at hid
  obtain ⟨_, hd⟩ := LW.div _ _ hf
  obtain ⟨ed, _⟩ := hd hL.len.1 (by rw [hL.len.2]; exact hN.ne')
  rw [hL.len.2] at ed
  generalize linConv (fun i => Φ.val (x i)) (fun j => Φ.val (y j)) nx ny m = c at *
  generalize Φ.val (L.c2r N X m /. ofInt N) = r at *
  generalize Φ.val (L.c2r N X m) = v at *
  generalize idftHalf N (fun k => Φ.cval (X k)) m = w at *
  generalize hS : ∑ k ∈ range N, ‖hermExt N (fun k => Φ.cval (X k)) k‖ = S at *
  generalize hAB' : A * B = T at *
  -- v = N c up to N e
  have h1 : |v - N * c| ≤ N * (((1 + δ) ^ 3 * (1 + μ) - 1) * T + (1 + δ) * η) := by
    have := abs_add_le (v - w) (w - N * c)
    rw [sub_add_sub_cancel] at this
    have h2 : δ * S ≤ δ * (N * ((1 + δ) ^ 2 * (1 + μ) * T + η)) := mul_le_mul_of_nonneg_left hsum hδ
    have h3 : δ * (N * ((1 + δ) ^ 2 * (1 + μ) * T + η)) + N * (((1 + δ) ^ 2 * (1 + μ) - 1) * T + η) =
        N * (((1 + δ) ^ 3 * (1 + μ) - 1) * T + (1 + δ) * η) := by ring
    linarith
  have h2 : |v / N - c| ≤ ((1 + δ) ^ 3 * (1 + μ) - 1) * T + (1 + δ) * η := by
    have : v / N - c = (v - N * c) / N := by field_simp
    rw [this, abs_div, abs_of_pos hN, div_le_iff₀ hN]
    linarith
  have h3 : |v / N| ≤ (1 + δ) ^ 3 * (1 + μ) * T + (1 + δ) * η := by
    have := abs_add_le (v / N - c) c
    rw [sub_add_cancel] at this
    linarith
  have h4 := abs_add_le (r - v / N) (v / N - c)
  rw [sub_add_sub_cancel] at h4
  have h5 : Φ.u * |v / N| ≤ Φ.u * ((1 + δ) ^ 3 * (1 + μ) * T + (1 + δ) * η) := mul_le_mul_of_nonneg_left h3 hu
  have h6 : Φ.u * ((1 + δ) ^ 3 * (1 + μ) * T + (1 + δ) * η) + (((1 + δ) ^ 3 * (1 + μ) - 1) * T + (1 + δ) * η) =
      ((1 + δ) ^ 3 * (1 + μ) * (1 + Φ.u) - 1) * T + (1 + Φ.u) * ((1 + δ) * η) := by ring
  linarith

/-- Storing the result with `=`, `+=` or `-=`. -/
theorem storeVal_err (LW : FloatLaws Φ) (mode : ConvMode) (z v : F) (c T E : ℝ) (hE : 0 ≤ E) (hc : |c| ≤ T)
    (hf : Φ.fin (storeVal mode z v)) (hv : Φ.fin v → |Φ.val v - c| ≤ E) :
    |Φ.val (storeVal mode z v) - stored mode (Φ.val z) c| ≤
      Φ.u * magnitude mode (Φ.val z) T + (1 + Φ.u) * E := by
  have hu := LW.u_nonneg
  have hT : 0 ≤ T := (abs_nonneg c).trans hc
  have absv : |Φ.val v - c| ≤ E → |Φ.val v| ≤ T + E := by
    intro h
    have := abs_add_le (Φ.val v - c) c
    rw [sub_add_cancel] at this
    linarith
  cases mode with
  | equ =>
    have h := hv hf
    show |Φ.val v - c| ≤ Φ.u * T + (1 + Φ.u) * E
    have := mul_nonneg hu hT
    have := mul_nonneg hu hE
    linarith
  | sum =>
    obtain ⟨_, f2, e⟩ := LW.add _ _ hf
    have h := hv f2
    have h1 := absv h
    show |Φ.val (z +. v) - (Φ.val z + c)| ≤ Φ.u * (|Φ.val z| + T) + (1 + Φ.u) * E
    have h2 := abs_add_le (Φ.val z) (Φ.val v)
    have h3 : Φ.u * |Φ.val z + Φ.val v| ≤ Φ.u * (|Φ.val z| + (T + E)) :=
      mul_le_mul_of_nonneg_left (by linarith) hu
    have h4 := abs_add_le (Φ.val (z +. v) - (Φ.val z + Φ.val v)) (Φ.val v - c)
    rw [show Φ.val (z +. v) - (Φ.val z + Φ.val v) + (Φ.val v - c) = Φ.val (z +. v) - (Φ.val z + c) by ring] at h4
    have h5 : Φ.u * (|Φ.val z| + (T + E)) + E = Φ.u * (|Φ.val z| + T) + (1 + Φ.u) * E := by ring
    linarith
  | neg =>
    obtain ⟨_, f2, e⟩ := LW.sub _ _ hf
    have h := hv f2
    have h1 := absv h
    show |Φ.val (z -. v) - (Φ.val z - c)| ≤ Φ.u * (|Φ.val z| + T) + (1 + Φ.u) * E
    have h2 := abs_sub (Φ.val z) (Φ.val v)
    have h3 : Φ.u * |Φ.val z - Φ.val v| ≤ Φ.u * (|Φ.val z| + (T + E)) :=
      mul_le_mul_of_nonneg_left (by linarith) hu
    have h4 := abs_sub (Φ.val (z -. v) - (Φ.val z - Φ.val v)) (Φ.val v - c)
    rw [show Φ.val (z -. v) - (Φ.val z - Φ.val v) - (Φ.val v - c) = Φ.val (z -. v) - (Φ.val z - c) by ring] at h4
    have h5 : Φ.u * (|Φ.val z| + (T + E)) + E = Φ.u * (|Φ.val z| + T) + (1 + Φ.u) * E := by ring
    linarith

/-- The error of a sample of an FFT based convolution with operands of total size `A` and `B`. -/
noncomputable def fftErr (Φ : FloatView F) (δ μ η A B : ℝ) : ℝ :=
  ((1 + δ) ^ 3 * (1 + μ) * (1 + Φ.u) - 1) * (A * B) + (1 + Φ.u) * ((1 + δ) * η) + Φ.eta

/-- C92: the FFT based convolution in floating point.  If the transforms and complex products have relative accuracy
`δ` and `μ`, every complete run of fftconv_p, with any number of workers and any schedule, leaves in each sample
that is finite the exact convolution of the stored inputs up to `(1+δ)^3 (1+μ) (1+u) - 1` times the PRODUCT of the
sums of the absolute values of the two columns (plus underflow and, for '+=' and '-=', the rounding of the last
addition). -/
theorem C92_fftconv_p (LW : FloatLaws Φ) (C : ConvCall F) (Y : Buf F) (h : C.Sized Y)
    (ha : C.accepted = true) (L : FFTLib F) (S : ℕ → Scratch F) (hk : C.kind = .fft L S) (nth : ℕ) (h1 : 1 ≤ nth)
    (as : List Act) (hab : Act.abort ∉ as) (s' : Sys F (Prog F SIRError))
    (hr : C.drv.Run nth Y as s') (n : ℕ) (hn : n < C.aN) (i : ℕ) (hi : i < C.len)
    (a b : ℕ → F) (rows : ℕ) (hrows : rows = if C.bM = 1 ∨ C.bN = 1 then C.bM * C.bN else C.bM)
    (hA : ∀ i, a i = C.A.data (n * C.aM + i))
    (hB : ∀ j, b j = C.B.data (if C.bM = 1 ∨ C.bN = 1 then j else n * C.bM + j))
    (fa : ∀ i < C.aM, Φ.fin (a i)) (fb : ∀ j < rows, Φ.fin (b j))
    (A B : ℝ) (eA : A = ∑ i ∈ range C.aM, |Φ.val (a i)|) (eB : B = ∑ j ∈ range rows, |Φ.val (b j)|)
    {δ μ η top : ℝ} (hL : L.Accurate Φ C.len δ μ η top) (tA : A ≤ top) (tB : B ≤ top)
    (tAB : (C.len : ℝ) * ((1 + δ) ^ 2 * (1 + μ) * (A * B) + η) ≤ top)
    (hf : Φ.fin (s'.mem.data (n * C.len + i))) :
    |Φ.val (s'.mem.data (n * C.len + i)) - stored C.mode (Φ.val (Y.data (n * C.len + i)))
      (linConv (fun i => Φ.val (a i)) (fun j => Φ.val (b j)) C.aM rows i)| ≤
    Φ.u * magnitude C.mode (Φ.val (Y.data (n * C.len + i))) (A * B) + (1 + Φ.u) * fftErr Φ δ μ η A B := by
  obtain ⟨z', e, hv⟩ := ConvCall.prog_run h ha hn (Y.getCol (n * C.len) C.len)
  obtain ⟨Y', f1, _, f3, _⟩ := Prog.runBuf_at (n * C.len) C.len Y (ConvCall.inside h n hn)
    (C.prog n) z' .none e
  rw [C29_columns h ha nth h1 as hab s' hr n hn Y' .none f1 i hi, f3 i hi, hv i hi] at hf ⊢
  have hy : Y.getCol (n * C.len) C.len i = Y.data (n * C.len + i) := by
    simp only [Buf.getCol]; rw [if_pos hi]
  have hA' : C.colA n = a := by
    funext i; rw [hA]; simp only [ConvCall.colA]; rw [Nat.add_comm]
  have hB' : C.colB n = b := by
    funext i; rw [hB]; simp only [ConvCall.colB]; rw [Nat.add_comm]
  have hbr : C.bRows = rows := hrows.symm
  have hlen : C.len = C.aM + rows - 1 := by unfold ConvCall.len; rw [hbr]
  have hrow : 1 ≤ rows := by rw [← hbr]; exact ConvCall.bRows_pos h
  unfold ConvCall.colVal at hf ⊢
  rw [hk] at hf ⊢
  simp only at hf ⊢
  rw [hA', hB', hy, hbr] at hf ⊢
  have hE : 0 ≤ fftErr Φ δ μ η A B := by
    have hδ := hL.δ_nonneg
    have hμ := hL.μ_nonneg
    have hη := hL.η_nonneg
    have hu := LW.u_nonneg
    have he := LW.eta_nonneg
    have hA0 : 0 ≤ A := by rw [eA]; exact Finset.sum_nonneg fun _ _ => abs_nonneg _
    have hB0 : 0 ≤ B := by rw [eB]; exact Finset.sum_nonneg fun _ _ => abs_nonneg _
    have g1 : 1 ≤ (1 + δ) ^ 3 := one_le_pow₀ (by linarith)
    have g2 : 1 ≤ (1 + δ) ^ 3 * (1 + μ) := by nlinarith
    have g3 : 1 ≤ (1 + δ) ^ 3 * (1 + μ) * (1 + Φ.u) := by nlinarith
    unfold fftErr
    have : 0 ≤ ((1 + δ) ^ 3 * (1 + μ) * (1 + Φ.u) - 1) * (A * B) :=
      mul_nonneg (by linarith) (mul_nonneg hA0 hB0)
    positivity
  refine storeVal_err LW C.mode _ _ _ _ _ hE ?_ hf ?_
  · rw [eA, eB]
    exact linConv_abs_le _ _ _ _ _
  · intro hfv
    rw [hlen] at hL tAB hi
    exact fftconvVal_err LW L a b C.aM rows h.aM hrow hL fa fb A B eA eB tA tB tAB i hi hfv

/-- C92: so the results of conv_p and of fftconv_p for the same arguments (mode '=') differ by at most the sum of
the two error bounds. -/
theorem C92_conv_fftconv (LW : FloatLaws Φ) (C : ConvCall F) (hk : C.kind = .time) (Y Y₂ : Buf F) (h : C.Sized Y)
    (ha : C.accepted = true) (hm : C.mode = .equ) (L : FFTLib F) (S : ℕ → Scratch F)
    (h₂ : ConvCall.Sized { C with kind := .fft L S } Y₂) (nth nth₂ : ℕ) (h1 : 1 ≤ nth) (h1₂ : 1 ≤ nth₂)
    (as as₂ : List Act) (hab : Act.abort ∉ as) (hab₂ : Act.abort ∉ as₂) (s s₂ : Sys F (Prog F SIRError))
    (hr : C.drv.Run nth Y as s) (hr₂ : (ConvCall.drv { C with kind := .fft L S }).Run nth₂ Y₂ as₂ s₂)
    (n : ℕ) (hn : n < C.aN) (i : ℕ) (hi : i < C.len)
    (a b : ℕ → F) (rows : ℕ) (hrows : rows = if C.bM = 1 ∨ C.bN = 1 then C.bM * C.bN else C.bM)
    (hA : ∀ i, a i = C.A.data (n * C.aM + i))
    (hB : ∀ j, b j = C.B.data (if C.bM = 1 ∨ C.bN = 1 then j else n * C.bM + j))
    (fa : ∀ i < C.aM, Φ.fin (a i)) (fb : ∀ j < rows, Φ.fin (b j))
    (A B : ℝ) (eA : A = ∑ i ∈ range C.aM, |Φ.val (a i)|) (eB : B = ∑ j ∈ range rows, |Φ.val (b j)|)
    {δ μ η top : ℝ} (hL : L.Accurate Φ C.len δ μ η top) (tA : A ≤ top) (tB : B ≤ top)
    (tAB : (C.len : ℝ) * ((1 + δ) ^ 2 * (1 + μ) * (A * B) + η) ≤ top)
    (hf : Φ.fin (s.mem.data (n * C.len + i))) (hf₂ : Φ.fin (s₂.mem.data (n * C.len + i))) :
    |Φ.val (s.mem.data (n * C.len + i)) - Φ.val (s₂.mem.data (n * C.len + i))| ≤
      (((1 + Φ.u) ^ (min C.aM rows + 1) - 1) * (A * B) + min C.aM rows * (1 + Φ.u) ^ min C.aM rows * Φ.eta) +
      (Φ.u * (A * B) + (1 + Φ.u) * fftErr Φ δ μ η A B) := by
  have e1 := C73_conv_p LW C Y h ha hk nth h1 as hab s hr n hn i hi (fun i => Φ.val (a i)) (fun j => Φ.val (b j)) rows
    hrows (fun i => by rw [hA]) (fun j => by rw [hB]) hf
  have e2 := C92_fftconv_p LW { C with kind := .fft L S } Y₂ h₂ ha L S rfl nth₂ h1₂ as₂ hab₂ s₂ hr₂ n hn i hi a b rows
    hrows hA hB fa fb A B eA eB hL tA tB tAB hf₂
  simp only [hm, stored, magnitude] at e1 e2
  have hpos : 0 ≤ (1 + Φ.u) ^ (min C.aM rows + 1) - 1 := by
    have := geom_ge_one LW.u_nonneg (min C.aM rows + 1)
    linarith
  have hc : linConv (fun i => |Φ.val (a i)|) (fun j => |Φ.val (b j)|) C.aM rows i ≤ A * B := by
    have := linConv_abs_le (fun i => |Φ.val (a i)|) (fun j => |Φ.val (b j)|) C.aM rows i
    simp only [abs_abs] at this
    rw [← eA, ← eB] at this
    exact (le_abs_self _).trans this
  have hc' := mul_le_mul_of_nonneg_left hc hpos
  have := abs_sub (Φ.val (s.mem.data (n * C.len + i)) -
      linConv (fun i => Φ.val (a i)) (fun j => Φ.val (b j)) C.aM rows i)
    (Φ.val (s₂.mem.data (n * C.len + i)) - linConv (fun i => Φ.val (a i)) (fun j => Φ.val (b j)) C.aM rows i)
  rw [sub_sub_sub_cancel_right] at this
  have e2' : |Φ.val (s₂.mem.data (n * C.len + i)) - linConv (fun i => Φ.val (a i)) (fun j => Φ.val (b j)) C.aM rows i| ≤
    Φ.u * (A * B) + (1 + Φ.u) * fftErr Φ δ μ η A B := e2
  linarith

/-! ### A library that is accurate -/

section Examples

/-- Exact transforms rounded to `p` digits. -/
noncomputable def rndLib (p : ℕ) : FFTLib (Rnd p) where
  r2c N x k := (⟨roundTo p (dft N (fun i => (x i).v) k).re⟩, ⟨roundTo p (dft N (fun i => (x i).v) k).im⟩)
  c2r N X i := ⟨roundTo p (idftHalf N (fun k => ⟨(X k).1.v, (X k).2.v⟩) i)⟩
  cmul a b := (⟨roundTo p (a.1.v * b.1.v - a.2.v * b.2.v)⟩, ⟨roundTo p (a.1.v * b.2.v + a.2.v * b.1.v)⟩)
  cadd a b := (⟨roundTo p (a.1.v + b.1.v)⟩, ⟨roundTo p (a.2.v + b.2.v)⟩)
  cdivr a b := (⟨roundTo p (a.1.v / b.v)⟩, ⟨roundTo p (a.2.v / b.v)⟩)

/-- Rounding both parts of a complex number. -/
theorem round_complex (p : ℕ) (z : ℂ) :
    ‖(⟨roundTo p z.re, roundTo p z.im⟩ : ℂ) - z‖ ≤ 2 * (1 / 2) ^ p * ‖z‖ := by
  have h1 := roundTo_err p z.re
  have h2 := roundTo_err p z.im
  have h3 := Complex.norm_le_abs_re_add_abs_im ((⟨roundTo p z.re, roundTo p z.im⟩ : ℂ) - z)
  simp only [Complex.sub_re, Complex.sub_im] at h3
  have h4 := Complex.abs_re_le_norm z
  have h5 := Complex.abs_im_le_norm z
  have hp : (0 : ℝ) ≤ (1 / 2) ^ p := by positivity
  have h6 := mul_le_mul_of_nonneg_left h4 hp
  have h7 := mul_le_mul_of_nonneg_left h5 hp
  linarith

theorem idftHalf_abs_le (N : ℕ) (X : ℕ → ℂ) (i : ℕ) :
    |idftHalf N X i| ≤ ∑ k ∈ range N, ‖hermExt N X k‖ := by
  unfold idftHalf
  refine (Complex.abs_re_le_norm _).trans ((norm_sum_le _ _).trans (le_of_eq ?_))
  refine Finset.sum_congr rfl fun k _ => ?_
  rw [norm_mul, norm_root, mul_one]

theorem rndLib_accurate (p N : ℕ) (top : ℝ) :
    (rndLib p).Accurate (rndView p) N (2 * (1 / 2) ^ p) (2 * (1 / 2) ^ p) 0 top where
  δ_nonneg := by positivity
  μ_nonneg := by positivity
  η_nonneg := le_rfl
  r2c x _ _ k _ := by
    refine ⟨⟨trivial, trivial⟩, (round_complex p _).trans ?_⟩
    exact mul_le_mul_of_nonneg_left (norm_dft_le N _ k) (by positivity)
  cmul a b _ _ _ := by
    refine ⟨⟨trivial, trivial⟩, ?_⟩
    have := round_complex p ((rndView p).cval a * (rndView p).cval b)
    rw [norm_mul] at this
    rw [add_zero]
    exact this
  c2r X _ _ i _ := by
    refine ⟨trivial, (roundTo_err p _).trans ?_⟩
    have := idftHalf_abs_le N (fun k => (rndView p).cval (X k)) i
    have hp : (0 : ℝ) ≤ (1 / 2) ^ p := by positivity
    have h2 : 0 ≤ ∑ k ∈ range N, ‖hermExt N (fun k => (rndView p).cval (X k)) k‖ :=
      Finset.sum_nonneg fun _ _ => norm_nonneg _
    have h3 := mul_le_mul_of_nonneg_left this hp
    refine le_trans h3 ?_
    nlinarith
  len := ⟨trivial, by show (((N : ℕ) : ℤ) : ℝ) = N; simp⟩

/-- The columns (1/3, 2/3 ...) of `exRndConv`, with '=' and the rounded transforms. -/
noncomputable def exRndFft : ConvCall (Rnd 53) :=
  { exRndConv with
    mode := .equ
    kind := .fft (rndLib 53) fun _ => ⟨⟨4, fun _ => ⟨7⟩⟩, ⟨4, fun _ => ⟨7⟩⟩, ⟨4, fun _ => ⟨7⟩⟩, ⟨4, fun _ => (⟨7⟩, ⟨7⟩)⟩,
      ⟨4, fun _ => (⟨7⟩, ⟨7⟩)⟩, ⟨4, fun _ => (⟨7⟩, ⟨7⟩)⟩⟩ }

-- a complete run that meets the hypotheses of C92_fftconv_p: the error of sample 1 of column 1 is below 2^-45
example : ∃ as s', Act.abort ∉ as ∧ exRndFft.Sized ⟨8, fun _ => ⟨1⟩⟩ ∧ exRndFft.accepted = true ∧
    exRndFft.drv.Run 2 ⟨8, fun _ => ⟨1⟩⟩ as s' ∧
    |(s'.mem.data 5).v - ((3 + 1 / 3) * (1 / 7) + (4 + 1 / 3) * (1 / 7))| ≤ (1 / 2) ^ 45 := by
  have hs : exRndFft.Sized ⟨8, fun _ => ⟨1⟩⟩ := by
    refine ⟨le_refl 6, le_refl 2, by simp [exRndFft, exRndConv], by simp [exRndFft, exRndConv],
      by simp [exRndFft, exRndConv], rfl, ?_⟩
    intro L S e n
    obtain ⟨rfl, rfl⟩ := (ConvKind.fft.injEq _ _ _ _).mp e
    exact ⟨rfl, rfl, rfl, rfl, rfl, rfl⟩
  obtain ⟨as, s', g1, g2⟩ := (C29_terminates hs rfl 2).2.2
  refine ⟨as, s', g1, hs, rfl, g2, ?_⟩
  have hsA : ∑ i ∈ range 3, |((3 + i : ℕ) : ℝ) + 1 / 3| = 13 := by
    simp only [Finset.sum_range_succ, Finset.sum_range_zero]
    norm_num
  have hsB : ∑ j ∈ range 2, |(1 / 7 : ℝ)| = 2 / 7 := by
    simp only [Finset.sum_range_succ, Finset.sum_range_zero]
    norm_num [abs_of_pos]
  have := C92_fftconv_p (rndLaws 53) exRndFft _ hs rfl (rndLib 53) _ rfl 2 (by omega) as g1 s' g2 1
    (by simp [exRndFft, exRndConv]) 1 (by simp [exRndFft, exRndConv, ConvCall.len, ConvCall.bRows])
    (fun i => ⟨((3 + i : ℕ) : ℝ) + 1 / 3⟩) (fun _ => ⟨1 / 7⟩) 2 (by simp [exRndFft, exRndConv])
    (by intro i; simp [exRndFft, exRndConv]) (by intro j; simp [exRndFft, exRndConv])
    (fun _ _ => trivial) (fun _ _ => trivial) 13 (2 / 7) hsA.symm hsB.symm (rndLib_accurate 53 _ 1000)
    (by norm_num) (by norm_num) (by
      have hlen : exRndFft.len = 4 := rfl
      rw [hlen]
      norm_num) trivial
  have hlen : exRndFft.len = 4 := rfl
  rw [hlen] at this
  simp only [exRndFft, exRndConv, rndView, stored, magnitude, linConv, fftErr, Finset.sum_range_succ,
    Finset.sum_range_zero] at this
  norm_num at this
  norm_num
  rw [abs_le] at this ⊢
  constructor
  · linarith [this.1]
  · linarith [this.2]

end Examples

end Dream
