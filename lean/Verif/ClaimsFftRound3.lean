import Verif.ClaimsFftRound2
import Verif.ClaimsOla

/-
C92: rounding errors of the overlap-and-add convolution (fftconv_ola).
-/

namespace Dream
open Arith Finset

variable {F : Type} [Arith F] {Φ : FloatView F}

/-- A sample of a block that is convolved: a sample of the column, or zero. -/
theorem OlaCall.blockVal_seen (C : OlaCall F) (hbl : 1 ≤ C.bl) (n ap q : ℕ) (hk : q * C.bl < C.aM) (j : ℕ) (hj : j < C.bl) :
    C.blockVal n (q * C.bl) (ap + q * C.bl) j =
      if q * C.bl + j < C.aM then C.seen n ap (q * C.bl + j) else lit 0 := by
  have hfi := full_iff C.aM C.bl q hbl (by omega)
  unfold blockVal seen
  by_cases hf : q * C.bl + C.bl < C.aM
  · have h5 : q * C.bl + j < lastBlock C.aM C.bl := by
      have h6 := hfi.mp hf
      unfold lastBlock at h6 ⊢
      rw [Nat.mul_comm q, Nat.mul_lt_mul_left (by omega)] at h6
      have : C.bl * (q + 1) ≤ C.bl * ((C.aM - 1) / C.bl) := Nat.mul_le_mul_left _ h6
      rw [Nat.mul_add, Nat.mul_comm C.bl q] at this
      omega
    rw [if_pos hf, if_pos (by omega), if_pos h5, Nat.add_assoc]
  · have h5 : ¬ q * C.bl + j < lastBlock C.aM C.bl := by
      have h6 := fun h => hf (hfi.mpr h)
      omega
    rw [if_neg hf]
    by_cases h7 : q * C.bl + j < C.aM
    · rw [if_pos (by omega), if_pos h7, if_neg h5]
      congr 1
      omega
    · rw [if_neg (by omega), if_neg h7]

/-- One more block: `c` is the sample so far, `v` the computed and `l` the exact contribution of the block, `r` the
result and `t` the exact contribution of the remaining blocks. -/
theorem ola_step {u κ e c v l c1 r t a ρ g m : ℝ} (hu : 0 ≤ u) (hκ : 0 ≤ κ) (he : 0 ≤ e) (hg : 1 ≤ g) (hm : 0 ≤ m)
    (hρ : 0 ≤ ρ) (hv : |v - l| ≤ κ * a + e) (hl : |l| ≤ a) (h1 : |c1 - (c + v)| ≤ u * |c + v|)
    (hr : |r - (c1 + t)| ≤ (g - 1) * (|c1| + ρ) + g * (κ * ρ + m * e)) :
    |r - (c + (l + t))| ≤ (g * (1 + u) - 1) * (|c| + (a + ρ)) + g * (1 + u) * (κ * (a + ρ) + (m + 1) * e) := by
  have a1 := abs_add_le (v - l) l
  rw [sub_add_cancel] at a1
  have a2 := abs_add_le c v
  obtain ⟨w, hw⟩ : ∃ w, w = |c| + (a + (κ * a + e)) := ⟨_, rfl⟩
  have a3 : |c + v| ≤ w := by linarith
  have a4 : |c1 - (c + v)| ≤ u * w := h1.trans (mul_le_mul_of_nonneg_left a3 hu)
  have a5 := abs_add_le (c1 - (c + v)) (c + v)
  rw [sub_add_cancel] at a5
  have a6 : |c1| ≤ (1 + u) * w := by linarith
  have a7 : (g - 1) * (|c1| + ρ) ≤ (g - 1) * ((1 + u) * w + ρ) := mul_le_mul_of_nonneg_left (by linarith) (by linarith)
  have a8 := abs_add_le (r - (c1 + t)) ((c1 - (c + v)) + (v - l))
  have a9 := abs_add_le (c1 - (c + v)) (v - l)
  rw [show r - (c1 + t) + (c1 - (c + v) + (v - l)) = r - (c + (l + t)) by ring] at a8
  have b1 : 0 ≤ g * u * ρ := mul_nonneg (mul_nonneg (by linarith) hu) hρ
  have b2 : 0 ≤ g * u * (κ * ρ) := mul_nonneg (mul_nonneg (by linarith) hu) (mul_nonneg hκ hρ)
  have b3 : 0 ≤ g * u * (m * e) := mul_nonneg (mul_nonneg (by linarith) hu) (mul_nonneg hm he)
  have key : (g * (1 + u) - 1) * (|c| + (a + ρ)) + g * (1 + u) * (κ * (a + ρ) + (m + 1) * e) -
      ((g - 1) * ((1 + u) * w + ρ) + g * (κ * ρ + m * e) + (u * w + (κ * a + e))) =
      g * u * ρ + g * u * (κ * ρ) + g * u * (m * e) := by
    rw [hw]; ring
  linarith

/-- Sum of the absolute values of the samples of blocks `q` to `q+m-1`. -/
noncomputable def OlaCall.size (C : OlaCall F) (Φ : FloatView F) (n ap q m : ℕ) : ℝ :=
  ∑ p ∈ Ico (q * C.bl) (q * C.bl + m * C.bl), |if p < C.aM then Φ.val (C.seen n ap p) else 0|

omit [Arith F] in
theorem OlaCall.size_nonneg (C : OlaCall F) (n ap q m : ℕ) : 0 ≤ C.size Φ n ap q m :=
  Finset.sum_nonneg fun _ _ => abs_nonneg _

omit [Arith F] in
theorem OlaCall.size_succ (C : OlaCall F) (n ap q m : ℕ) :
    C.size Φ n ap q (m + 1) = C.size Φ n ap q 1 + C.size Φ n ap (q + 1) m := by
  unfold OlaCall.size
  have h1 : q * C.bl + (m + 1) * C.bl = (q + 1) * C.bl + m * C.bl := by
    rw [Nat.add_mul, Nat.add_mul]; omega
  have h2 : q * C.bl + 1 * C.bl = (q + 1) * C.bl := by rw [Nat.add_mul]
  rw [h1, h2]
  exact (Finset.sum_Ico_consecutive _ (by rw [← h2]; omega) (by omega)).symm

/-- The error of a column after `m` more blocks. -/
theorem olaCol_round (LW : FloatLaws Φ) (C : OlaCall F) (hm : C.mode = .equ) (hbl : 1 ≤ C.bl) (hb : 1 ≤ C.bRows)
    (n ap : ℕ) (fa : ∀ p < C.aM, Φ.fin (C.seen n ap p)) (fb : ∀ j < C.bRows, Φ.fin (C.colB n j))
    (A B : ℝ) (hB : B = ∑ j ∈ range C.bRows, |Φ.val (C.colB n j)|)
    {δ μ η top : ℝ} (hL : C.L.Accurate Φ C.fftLen δ μ η top) (tA : A ≤ top) (tB : B ≤ top)
    (tAB : (C.fftLen : ℝ) * ((1 + δ) ^ 2 * (1 + μ) * (A * B) + η) ≤ top) :
    ∀ (fuel m q : ℕ) (y c : ℕ → F) (i : ℕ), i < C.len → m ≤ fuel → C.aM ≤ q * C.bl + m * C.bl →
    C.size Φ n ap q m ≤ A →
    Φ.fin (C.olaCol n fuel (q * C.bl) (ap + q * C.bl) y c i) →
    Φ.fin (c i) ∧
    |Φ.val (C.olaCol n fuel (q * C.bl) (ap + q * C.bl) y c i) - (Φ.val (c i) +
      ∑ p ∈ Ico (q * C.bl) (q * C.bl + m * C.bl),
        tap (fun p => Φ.val (C.seen n ap p)) (fun j => Φ.val (C.colB n j)) C.aM C.bRows p i)| ≤
      ((1 + Φ.u) ^ m - 1) * (|Φ.val (c i)| + C.size Φ n ap q m * B) +
      (1 + Φ.u) ^ m * (((1 + δ) ^ 3 * (1 + μ) * (1 + Φ.u) - 1) * (C.size Φ n ap q m * B) +
        m * ((1 + Φ.u) * ((1 + δ) * η) + Φ.eta)) := by
  have hδ := hL.δ_nonneg
  have hμ := hL.μ_nonneg
  have hη := hL.η_nonneg
  have hu := LW.u_nonneg
  have heta := LW.eta_nonneg
  have hB0 : 0 ≤ B := by rw [hB]; exact Finset.sum_nonneg fun _ _ => abs_nonneg _
  have hκ : 0 ≤ (1 + δ) ^ 3 * (1 + μ) * (1 + Φ.u) - 1 := by
    have g1 : 1 ≤ (1 + δ) ^ 3 := one_le_pow₀ (by linarith)
    have g2 : 1 ≤ (1 + δ) ^ 3 * (1 + μ) := by nlinarith
    have g3 : 1 ≤ (1 + δ) ^ 3 * (1 + μ) * (1 + Φ.u) := by nlinarith
    linarith
  have he : 0 ≤ (1 + Φ.u) * ((1 + δ) * η) + Φ.eta := by positivity
  -- nothing left to do
  have hdone : ∀ (m q : ℕ) (c : ℕ → F) (i : ℕ), C.aM ≤ q * C.bl →
      |Φ.val (c i) - (Φ.val (c i) + ∑ p ∈ Ico (q * C.bl) (q * C.bl + m * C.bl),
        tap (fun p => Φ.val (C.seen n ap p)) (fun j => Φ.val (C.colB n j)) C.aM C.bRows p i)| ≤
      ((1 + Φ.u) ^ m - 1) * (|Φ.val (c i)| + C.size Φ n ap q m * B) +
      (1 + Φ.u) ^ m * (((1 + δ) ^ 3 * (1 + μ) * (1 + Φ.u) - 1) * (C.size Φ n ap q m * B) +
        m * ((1 + Φ.u) * ((1 + δ) * η) + Φ.eta)) := by
    intro m q c i hq
    rw [Finset.sum_eq_zero (fun p hp => by rw [mem_Ico] at hp; unfold tap; rw [if_neg (by omega)]), add_zero, sub_self,
      abs_zero]
    have g1 : 0 ≤ (1 + Φ.u) ^ m - 1 := by have := geom_ge_one hu m; linarith
    have g2 := C.size_nonneg (Φ := Φ) n ap q m
    positivity
  intro fuel
  induction fuel with
  | zero =>
    intro m q y c i hi hmf hq _ hf
    obtain rfl : m = 0 := by omega
    exact ⟨hf, hdone 0 q c i (by omega)⟩
  | succ fuel ih =>
    intro m q y c i hi hmf hq hsz hf
    simp only [OlaCall.olaCol] at hf ⊢
    by_cases hk : q * C.bl < C.aM
    · rw [if_pos hk] at hf ⊢
      obtain ⟨m, rfl⟩ : ∃ m', m = m' + 1 := by
        cases m with
        | zero => omega
        | succ m => exact ⟨m, rfl⟩
      have hq1 : q * C.bl + C.bl = (q + 1) * C.bl := by rw [Nat.add_mul, Nat.one_mul]
      have hqm : q * C.bl + (m + 1) * C.bl = (q + 1) * C.bl + m * C.bl := by
        rw [Nat.add_mul, Nat.add_mul]; omega
      have hs1 := C.size_succ (Φ := Φ) n ap q m
      have hs2 := C.size_nonneg (Φ := Φ) n ap q 1
      have hs3 := C.size_nonneg (Φ := Φ) n ap (q + 1) m
      -- the next state
      generalize hc1 : (fun p => if q * C.bl ≤ p ∧ p < q * C.bl + C.fftLen ∧ p < C.len then
        c p +. C.yVal n (q * C.bl) (ap + q * C.bl) y (p - q * C.bl) else c p) = c1 at hf ⊢
      generalize C.yVal n (q * C.bl) (ap + q * C.bl) y = y1 at hf ⊢
      have hrest : Φ.fin (c1 i) ∧
          |Φ.val (C.olaCol n fuel (q * C.bl + C.bl)
            (ap + q * C.bl + if q * C.bl + C.bl < C.aM then C.bl else C.aM - q * C.bl) y1 c1 i) - (Φ.val (c1 i) +
            ∑ p ∈ Ico ((q + 1) * C.bl) ((q + 1) * C.bl + m * C.bl),
              tap (fun p => Φ.val (C.seen n ap p)) (fun j => Φ.val (C.colB n j)) C.aM C.bRows p i)| ≤
          ((1 + Φ.u) ^ m - 1) * (|Φ.val (c1 i)| + C.size Φ n ap (q + 1) m * B) +
          (1 + Φ.u) ^ m * (((1 + δ) ^ 3 * (1 + μ) * (1 + Φ.u) - 1) * (C.size Φ n ap (q + 1) m * B) +
            m * ((1 + Φ.u) * ((1 + δ) * η) + Φ.eta)) := by
        by_cases h8 : C.aM ≤ (q + 1) * C.bl
        · have h9 : C.olaCol n fuel (q * C.bl + C.bl)
            (ap + q * C.bl + if q * C.bl + C.bl < C.aM then C.bl else C.aM - q * C.bl) y1 c1 i = c1 i := by
            cases fuel with
            | zero => rfl
            | succ f => simp only [OlaCall.olaCol]; rw [if_neg (by omega)]
          rw [h9] at hf ⊢
          exact ⟨hf, hdone m (q + 1) c1 i h8⟩
        · have h9 : ap + q * C.bl + (if q * C.bl + C.bl < C.aM then C.bl else C.aM - q * C.bl) =
              ap + (q + 1) * C.bl := by
            rw [if_pos (by omega), ← hq1, Nat.add_assoc]
          rw [h9, hq1] at hf ⊢
          exact ih m (q + 1) y1 c1 i hi (by omega) (by omega) (by linarith) hf
      obtain ⟨fc1, e1⟩ := hrest
      generalize C.olaCol n fuel (q * C.bl + C.bl)
            (ap + q * C.bl + if q * C.bl + C.bl < C.aM then C.bl else C.aM - q * C.bl) y1 c1 i = r at hf e1 ⊢
      -- the contribution of the block
      have hsplit : ∑ p ∈ Ico (q * C.bl) (q * C.bl + (m + 1) * C.bl),
          tap (fun p => Φ.val (C.seen n ap p)) (fun j => Φ.val (C.colB n j)) C.aM C.bRows p i =
          ∑ p ∈ Ico (q * C.bl) (q * C.bl + C.bl),
            tap (fun p => Φ.val (C.seen n ap p)) (fun j => Φ.val (C.colB n j)) C.aM C.bRows p i +
          ∑ p ∈ Ico ((q + 1) * C.bl) ((q + 1) * C.bl + m * C.bl),
            tap (fun p => Φ.val (C.seen n ap p)) (fun j => Φ.val (C.colB n j)) C.aM C.bRows p i := by
        rw [hqm, hq1]
        exact (Finset.sum_Ico_consecutive _ (by rw [← hq1]; omega) (by omega)).symm
      have hstep : ∃ v : ℝ, Φ.fin (c i) ∧
          |v - ∑ p ∈ Ico (q * C.bl) (q * C.bl + C.bl),
            tap (fun p => Φ.val (C.seen n ap p)) (fun j => Φ.val (C.colB n j)) C.aM C.bRows p i| ≤
            ((1 + δ) ^ 3 * (1 + μ) * (1 + Φ.u) - 1) * (C.size Φ n ap q 1 * B) +
              ((1 + Φ.u) * ((1 + δ) * η) + Φ.eta) ∧
          |∑ p ∈ Ico (q * C.bl) (q * C.bl + C.bl),
            tap (fun p => Φ.val (C.seen n ap p)) (fun j => Φ.val (C.colB n j)) C.aM C.bRows p i| ≤
            C.size Φ n ap q 1 * B ∧
          |Φ.val (c1 i) - (Φ.val (c i) + v)| ≤ Φ.u * |Φ.val (c i) + v| := by
        have hfl : C.fftLen = C.bl + C.bRows - 1 := rfl
        subst hc1
        beta_reduce at fc1 ⊢
        by_cases h3 : q * C.bl ≤ i ∧ i < q * C.bl + C.fftLen ∧ i < C.len
        · rw [if_pos h3] at fc1 ⊢
          have hval : ∀ j, j < C.bl → Φ.val (C.blockVal n (q * C.bl) (ap + q * C.bl) j) =
              if q * C.bl + j < C.aM then Φ.val (C.seen n ap (q * C.bl + j)) else 0 := by
            intro j hj
            rw [C.blockVal_seen hbl n ap q hk j hj]
            split
            · rfl
            · exact LW.zero.2
          have hfin : ∀ j, j < C.bl → Φ.fin (C.blockVal n (q * C.bl) (ap + q * C.bl) j) := by
            intro j hj
            rw [C.blockVal_seen hbl n ap q hk j hj]
            split
            · next h => exact fa _ h
            · exact LW.zero.1
          have hAk : C.size Φ n ap q 1 =
              ∑ j ∈ range C.bl, |Φ.val (C.blockVal n (q * C.bl) (ap + q * C.bl) j)| := by
            unfold OlaCall.size
            rw [Nat.one_mul, Finset.sum_Ico_eq_sum_range, Nat.add_sub_cancel_left]
            refine Finset.sum_congr rfl fun j hj => ?_
            rw [hval j (mem_range.1 hj)]
          have hsA : C.size Φ n ap q 1 ≤ A := by linarith
          have hyv : C.yVal n (q * C.bl) (ap + q * C.bl) y (i - q * C.bl) =
              fftconvVal C.L (C.blockVal n (q * C.bl) (ap + q * C.bl)) (C.colB n) C.bl C.bRows (i - q * C.bl) := by
            unfold OlaCall.yVal
            rw [hm]
            rfl
          rw [hyv] at fc1 ⊢
          obtain ⟨f1, f2, ea⟩ := LW.add _ _ fc1
          have hbt := block_tap (fun p => Φ.val (C.seen n ap p)) (fun j => Φ.val (C.colB n j))
            (fun j => Φ.val (C.blockVal n (q * C.bl) (ap + q * C.bl) j)) C.aM C.bRows C.bl (q * C.bl) i h3.1 hval
          rw [← hbt]
          refine ⟨_, f1, ?_, ?_, ea⟩
          · rw [← add_assoc]
            refine fftconvVal_err LW C.L _ _ C.bl C.bRows hbl hb hL hfin fb _ B hAk hB (by linarith) tB ?_ _
              (by omega) f2
            refine le_trans ?_ tAB
            rw [← hfl]
            refine mul_le_mul_of_nonneg_left ?_ (Nat.cast_nonneg _)
            have : C.size Φ n ap q 1 * B ≤ A * B := mul_le_mul_of_nonneg_right hsA hB0
            have := mul_le_mul_of_nonneg_left this (by positivity : (0 : ℝ) ≤ (1 + δ) ^ 2 * (1 + μ))
            linarith
          · rw [hAk, hB]
            exact linConv_abs_le _ _ _ _ _
        · rw [if_neg h3] at fc1 ⊢
          have : ∑ p ∈ Ico (q * C.bl) (q * C.bl + C.bl),
              tap (fun p => Φ.val (C.seen n ap p)) (fun j => Φ.val (C.colB n j)) C.aM C.bRows p i = 0 := by
            refine Finset.sum_eq_zero fun p hp => ?_
            rw [mem_Ico] at hp
            refine tap_zero _ _ _ _ _ _ ?_
            omega
          rw [this]
          refine ⟨0, fc1, ?_, ?_, ?_⟩
          · rw [sub_zero, abs_zero]
            positivity
          · rw [abs_zero]
            positivity
          · rw [add_zero, sub_self, abs_zero]
            positivity
      obtain ⟨v, f1, s1, s2, s3⟩ := hstep
      refine ⟨f1, ?_⟩
      have := ola_step hu hκ he (geom_ge_one hu m) (Nat.cast_nonneg m) (mul_nonneg hs3 hB0) s1 s2 s3 e1
      rw [hsplit, hs1, pow_succ, add_mul (C.size Φ n ap q 1)]
      push_cast
      exact this
    · rw [if_neg hk] at hf ⊢
      exact ⟨hf, hdone m q c i (by omega)⟩

/-- C92: the overlap-and-add convolution in floating point (mode '='; the result is added to what the output contains,
zeros in a normal call).  With transforms and complex products of relative accuracy `δ` and `μ` for the length of a
block, every complete run of fftconv_ola, with any number of workers and any schedule, leaves in each sample that is
finite the old value plus the exact convolution of the columns, up to `(1+δ)^3 (1+μ) (1+u)^(blocks+1) - 1` times the
PRODUCT of the sums of the absolute values of the columns (plus underflow and the rounding of the additions to the old
value).  The product bounds all blocks together: their sizes add up to the size of the column. -/
theorem C92_fftconv_ola (LW : FloatLaws Φ) (C : OlaCall F) (Y : Buf F) (h : C.Sized Y) (ha : C.accepted = true)
    (hbl : 1 ≤ C.bl) (hm : C.mode = .equ) (nth : ℕ) (h1 : 1 ≤ nth)
    (hg : ¬ (C.bM = 1 ∨ C.bN = 1) ∨ C.bl = C.aM ∨ C.aN ≤ nth) (as : List Act)
    (hab : Act.abort ∉ as) (s' : Sys F (Prog F SIRError)) (hr : (C.drv nth).Run nth Y as s')
    (n : ℕ) (hn : n < C.aN) (i : ℕ) (hi : i < C.len)
    (a b : ℕ → F) (rows : ℕ) (hrows : rows = if C.bM = 1 ∨ C.bN = 1 then C.bM * C.bN else C.bM)
    (hA : ∀ i, a i = C.A.data (n * C.aM + i))
    (hB : ∀ j, b j = C.B.data (if C.bM = 1 ∨ C.bN = 1 then j else n * C.bM + j))
    (fa : ∀ i < C.aM, Φ.fin (a i)) (fb : ∀ j < rows, Φ.fin (b j))
    (A B : ℝ) (eA : A = ∑ i ∈ range C.aM, |Φ.val (a i)|) (eB : B = ∑ j ∈ range rows, |Φ.val (b j)|)
    (blocks : ℕ) (hblocks : blocks = (C.aM + C.bl - 1) / C.bl)
    {δ μ η top : ℝ} (hL : C.L.Accurate Φ (C.bl + rows - 1) δ μ η top) (tA : A ≤ top) (tB : B ≤ top)
    (tAB : ((C.bl + rows - 1 : ℕ) : ℝ) * ((1 + δ) ^ 2 * (1 + μ) * (A * B) + η) ≤ top)
    (hf : Φ.fin (s'.mem.data (n * C.len + i))) :
    |Φ.val (s'.mem.data (n * C.len + i)) - (Φ.val (Y.data (n * C.len + i)) +
      linConv (fun i => Φ.val (a i)) (fun j => Φ.val (b j)) C.aM rows i)| ≤
    ((1 + Φ.u) ^ blocks - 1) * (|Φ.val (Y.data (n * C.len + i))| + A * B) +
      (1 + Φ.u) ^ blocks * (((1 + δ) ^ 3 * (1 + μ) * (1 + Φ.u) - 1) * (A * B) +
        blocks * ((1 + Φ.u) * ((1 + δ) * η) + Φ.eta)) := by
  have haM : C.bl ≤ C.aM := ((C27_accepted C).mp ha).2
  have hbr : C.bRows = rows := hrows.symm
  have hrun := OlaCall.run_col h ha hbl nth h1 hg as hab s' hr n hn i hi
  rw [hrun] at hf ⊢
  generalize hap : C.apAt (OlaCall.startOf C.aN nth n) (n - OlaCall.startOf C.aN nth n) = ap at hf ⊢
  have hseen : C.seen n ap = a := by
    funext i
    rw [hA]
    unfold OlaCall.seen
    rcases OlaCall.ap_good h hbl nth h1 hg n hn with e | e
    · rw [← hap, e, ite_self]
    · have : lastBlock C.aM C.bl = 0 := by
        unfold lastBlock
        rw [e, Nat.div_eq_of_lt (by omega), Nat.mul_zero]
      rw [this, if_neg (by omega)]
  have hcolB : C.colB n = b := by
    funext i; rw [hB]; simp only [OlaCall.colB]; rw [Nat.add_comm]
  have hd : blocks * C.bl + (C.aM + C.bl - 1) % C.bl = C.aM + C.bl - 1 := by
    rw [hblocks, Nat.mul_comm]; exact Nat.div_add_mod _ _
  have hmod := Nat.mod_lt (C.aM + C.bl - 1) (show C.bl > 0 by omega)
  have hcov : C.aM ≤ blocks * C.bl := by omega
  have hle : blocks ≤ C.aM := by
    rw [hblocks]
    refine Nat.le_of_lt_succ ((Nat.div_lt_iff_lt_mul (by omega)).mpr ?_)
    have : C.aM * 1 ≤ C.aM * C.bl := Nat.mul_le_mul_left _ hbl
    rw [Nat.succ_mul]
    omega
  have hsize : C.size Φ n ap 0 blocks = A := by
    unfold OlaCall.size
    rw [Nat.zero_mul, Nat.zero_add, ← Finset.range_eq_Ico, eA, hseen]
    rw [← Finset.sum_subset (Finset.range_mono hcov)]
    · refine Finset.sum_congr rfl fun p hp => ?_
      rw [if_pos (mem_range.1 hp)]
    · intro p _ hp
      rw [mem_range] at hp
      rw [if_neg hp, abs_zero]
  have key := olaCol_round LW C hm hbl (OlaCall.bRows_pos h) n ap (by rw [hseen]; exact fa)
    (by rw [hcolB, hbr]; exact fb) A B (by rw [hcolB, hbr]; exact eB) (δ := δ) (μ := μ) (η := η) (top := top)
    (by unfold OlaCall.fftLen; rw [hbr]; exact hL) tA tB (by unfold OlaCall.fftLen; rw [hbr]; exact tAB)
    C.aM blocks 0 (C.y0 n).data (fun i => Y.data (n * C.len + i)) i hi hle (by omega) hsize.le
  rw [Nat.zero_mul, Nat.add_zero, Nat.zero_add, hsize, hseen, hcolB, hbr, ← Finset.range_eq_Ico,
    ← linConv_eq_tap _ _ _ _ i _ hcov] at key
  exact (key hf).2

section Examples

/-- Two columns (1/3, 4/3, 7/3), (10/3 ...), two filters (1/7, 1/7), blocks of 2 samples. -/
noncomputable def exRndOla : OlaCall (Rnd 53) where
  aM := 3
  aN := 2
  A := ⟨6, fun i => ⟨(i : ℝ) + 1 / 3⟩⟩
  bM := 2
  bN := 2
  B := ⟨4, fun _ => ⟨1 / 7⟩⟩
  bl := 2
  mode := .equ
  L := rndLib 53
  S := fun _ _ => ⟨⟨3, fun _ => ⟨7⟩⟩, ⟨3, fun _ => ⟨7⟩⟩, ⟨3, fun _ => ⟨7⟩⟩, ⟨3, fun _ => (⟨7⟩, ⟨7⟩)⟩,
      ⟨3, fun _ => (⟨7⟩, ⟨7⟩)⟩, ⟨3, fun _ => (⟨7⟩, ⟨7⟩)⟩⟩
  ab := fun _ _ => ⟨3, fun _ => ⟨7⟩⟩
  y0 := fun _ => ⟨3, fun _ => ⟨7⟩⟩

-- a complete run that meets the hypotheses of C92_fftconv_ola: the error of sample 2 of column 1, to which both blocks
-- contribute, is below 2^-45
example : ∃ as s', Act.abort ∉ as ∧ (exRndOla.drv 2).Run 2 ⟨8, fun _ => ⟨1⟩⟩ as s' ∧
    |(s'.mem.data 6).v - (1 + ((4 + 1 / 3) * (1 / 7) + (5 + 1 / 3) * (1 / 7)))| ≤ (1 / 2) ^ 45 := by
  have hs : exRndOla.Sized ⟨8, fun _ => ⟨1⟩⟩ :=
    ⟨rfl, rfl, by simp [exRndOla], by simp [exRndOla], rfl, fun _ _ => ⟨rfl, rfl, rfl, rfl, rfl, rfl⟩, fun _ _ => rfl,
      fun _ => rfl⟩
  have hbl : 1 ≤ exRndOla.bl := by simp [exRndOla]
  have hg : ¬ (exRndOla.bM = 1 ∨ exRndOla.bN = 1) := by simp [exRndOla]
  obtain ⟨as, s', g1, g2⟩ := (C27_terminates hs rfl hbl 2 (by omega) (.inl hg)).2.2
  refine ⟨as, s', g1, g2, ?_⟩
  have hsA : ∑ i ∈ range 3, |((3 + i : ℕ) : ℝ) + 1 / 3| = 13 := by
    simp only [Finset.sum_range_succ, Finset.sum_range_zero]
    norm_num
  have hsB : ∑ j ∈ range 2, |(1 / 7 : ℝ)| = 2 / 7 := by
    simp only [Finset.sum_range_succ, Finset.sum_range_zero]
    norm_num [abs_of_pos]
  have := C92_fftconv_ola (rndLaws 53) exRndOla _ hs rfl hbl rfl 2 (by omega) (.inl hg) as g1 s' g2 1
    (by simp [exRndOla]) 2 (by simp [exRndOla, OlaCall.len, OlaCall.bRows])
    (fun i => ⟨((3 + i : ℕ) : ℝ) + 1 / 3⟩) (fun _ => ⟨1 / 7⟩) 2 (by simp [exRndOla])
    (by intro i; simp [exRndOla]) (by intro j; simp [exRndOla])
    (fun _ _ => trivial) (fun _ _ => trivial) 13 (2 / 7) hsA.symm hsB.symm 2 rfl (rndLib_accurate 53 _ 1000)
    (by norm_num) (by norm_num) (by
      have hlen : exRndOla.bl + 2 - 1 = 3 := rfl
      rw [hlen]
      norm_num) trivial
  have hlen : exRndOla.len = 4 := rfl
  rw [hlen] at this
  simp only [exRndOla, rndView, linConv, Finset.sum_range_succ, Finset.sum_range_zero] at this
  norm_num at this
  norm_num
  rw [abs_le] at this ⊢
  constructor
  · linarith [this.1]
  · linarith [this.2]

end Examples

end Dream
