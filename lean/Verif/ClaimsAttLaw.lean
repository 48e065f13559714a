import Verif.ClaimsAtt
import Mathlib.Analysis.SpecialFunctions.Log.Base

/-
C65: the law of absorption that `dream_att` and all transducer functions with absorption use, in
exact arithmetic.
-/

namespace Dream
open Arith Finset

/-! ### Specification -/

/-- Frequency in MHz of bin `k` of a column of `len` samples, `dt` microseconds apart. -/
noncomputable def binFreq (len : ℕ) (dt : ℝ) (k : ℕ) : ℝ := k / (len * dt)

/-- Loss in neper: `alpha` dB per centimetre and megahertz, path `r` in millimetres, frequency `f` in
megahertz, with 8.686 dB per neper. -/
noncomputable def lossNeper (alpha r f : ℝ) : ℝ := alpha * (r / 10) * f / 8.686

/-- Phase lag of bin `k` with arrival index `it`: the lag of a delay by `it` samples, and the lag of
the dispersion that goes with a loss of `A` neper. -/
noncomputable def lawLag (len : ℕ) (A : ℝ) (it : ℤ) (k : ℕ) : ℝ :=
  2 * Real.pi * k * it / len + 2 / Real.pi * A * Real.log (len / (1.9 * k))

/-- The spectral coefficient. -/
noncomputable def lawCoef (P : AttPar ℝ) (r : ℝ) (it : ℤ) (k : ℕ) : ℂ :=
  let A := lossNeper P.alpha r (binFreq P.len P.dt k)
  Real.exp (-A) * Complex.exp (-(lawLag P.len A it k : ℝ) * Complex.I)

/-! ### Inversion -/

/-- The spectrum of the inverse transform of half a spectrum. -/
theorem dft_idftHalf (N : ℕ) (hN : 1 ≤ N) (X : ℕ → ℂ) (k : ℕ) (hk : k < N) :
    dft N (idftHalf N X) k =
      N * ((hermExt N X k + (starRingEnd ℂ) (hermExt N X ((N - k) % N))) / 2) := by
  have hre : ∀ z : ℂ, ((z.re : ℝ) : ℂ) = (z + (starRingEnd ℂ) z) / 2 := by
    intro z; rw [Complex.re_eq_add_conj]
  unfold dft idftHalf
  have e : ∀ j ∈ range N, ((((∑ q ∈ range N, hermExt N X q * root N ((q * j : ℕ) : ℤ)).re : ℝ)) : ℂ) *
      root N (-((j * k : ℕ) : ℤ)) =
      ∑ q ∈ range N, (hermExt N X q / 2 * root N (j * ((q : ℤ) - k)) +
        (starRingEnd ℂ) (hermExt N X q) / 2 * root N (j * (-(q : ℤ) - k))) := by
    intro j _
    rw [hre, map_sum, ← Finset.sum_add_distrib, Finset.sum_div, Finset.sum_mul]
    apply Finset.sum_congr rfl
    intro q _
    rw [map_mul, root_conj]
    have h1 : (j : ℤ) * ((q : ℤ) - k) = ((q * j : ℕ) : ℤ) + -((j * k : ℕ) : ℤ) := by push_cast; ring
    have h2 : (j : ℤ) * (-(q : ℤ) - k) = -((q * j : ℕ) : ℤ) + -((j * k : ℕ) : ℤ) := by push_cast; ring
    rw [h1, h2, root_add, root_add]
    ring
  rw [Finset.sum_congr rfl e, Finset.sum_comm]
  have s : ∀ q ∈ range N, ∑ j ∈ range N, (hermExt N X q / 2 * root N (j * ((q : ℤ) - k)) +
        (starRingEnd ℂ) (hermExt N X q) / 2 * root N (j * (-(q : ℤ) - k))) =
      (if q = k then hermExt N X q / 2 * N else 0) +
        if q = (N - k) % N then (starRingEnd ℂ) (hermExt N X q) / 2 * N else 0 := by
    intro q hq
    rw [mem_range] at hq
    rw [Finset.sum_add_distrib, ← Finset.mul_sum, ← Finset.mul_sum, root_sum N hN, root_sum N hN]
    have d1 : (N : ℤ) ∣ (q : ℤ) - k ↔ q = k := by
      constructor
      · intro h
        have := Int.eq_zero_of_abs_lt_dvd h (by rw [abs_lt]; omega)
        omega
      · rintro rfl; simp
    have d2 : (N : ℤ) ∣ -(q : ℤ) - k ↔ q = (N - k) % N := by
      by_cases hk0 : k = 0
      · subst hk0
        simp only [Nat.sub_zero, Nat.mod_self]
        constructor
        · intro h
          have := Int.eq_zero_of_abs_lt_dvd h (by rw [abs_lt]; omega)
          omega
        · rintro rfl; simp
      · rw [Nat.mod_eq_of_lt (by omega)]
        constructor
        · intro h
          have h' : (N : ℤ) ∣ (N : ℤ) + (-(q : ℤ) - k) := dvd_add (dvd_refl _) h
          have := Int.eq_zero_of_abs_lt_dvd h' (by rw [abs_lt]; omega)
          omega
        · intro h
          exact ⟨-1, by omega⟩
    simp only [d1, d2, mul_ite, mul_zero]
  rw [Finset.sum_congr rfl s, Finset.sum_add_distrib, Finset.sum_ite_eq' (range N) k,
    Finset.sum_ite_eq' (range N) ((N - k) % N), if_pos (mem_range.2 hk),
    if_pos (mem_range.2 (Nat.mod_lt _ (by omega)))]
  ring

theorem dft_smul (N : ℕ) (x : ℕ → ℝ) (c : ℝ) (k : ℕ) :
    dft N (fun i => x i / c) k = dft N x k / c := by
  unfold dft
  rw [Finset.sum_div]
  apply Finset.sum_congr rfl
  intro j _
  push_cast
  ring

/-- The coefficient that the code stores, in the units of the specification. -/
theorem attCoef_law (P : AttPar ℝ) (hdt : P.dt ≠ 0) (h1 : 1 ≤ P.len) (r : ℝ) (it : ℤ) (k : ℕ)
    (hk : 0 < k) : toC (attCoef P r it k) = lawCoef P r it k := by
  have hN : (P.len : ℝ) ≠ 0 := by exact_mod_cast (by omega : P.len ≠ 0)
  have hk' : (k : ℝ) ≠ 0 := by exact_mod_cast hk.ne'
  have hpi := Real.pi_ne_zero
  set A := lossNeper P.alpha r (binFreq P.len P.dt k) with hA
  have hq : attCoef P r it k = (Real.exp (-A) * Real.cos (-lawLag P.len A it k),
      Real.exp (-A) * Real.sin (-lawLag P.len A it k)) := by
    have x1 : -(r * 1e-3) * (P.alpha / (8.686 * 10000)) * ((k : ℝ) * (2 * Real.pi / P.len) *
        (1 / (P.dt * 1e-6))) / (2 * Real.pi) = -A := by
      rw [hA]; unfold lossNeper binFreq; field_simp; norm_num; ring
    have a1 : (1 : ℝ) / (P.dt * 1e-6 * 0.95 / Real.pi * ((k : ℝ) * (2 * Real.pi / P.len) *
        (1 / (P.dt * 1e-6)))) = P.len / (1.9 * k) := by
      field_simp; norm_num
    have w : -((k : ℝ) * (2 * Real.pi / P.len) * (1 / (P.dt * 1e-6))) * (r * 1e-3) *
        (P.alpha / (8.686 * 10000)) / (Real.pi * Real.pi) = -(2 / Real.pi * A) := by
      rw [hA]; unfold lossNeper binFreq; field_simp; norm_num; ring
    have tw : (it : ℝ) * (P.dt * 1e-6) * ((k : ℝ) * (2 * Real.pi / P.len) * (1 / (P.dt * 1e-6))) =
        2 * Real.pi * k * it / P.len := by
      field_simp
    simp only [attCoef, attTerms, r_div, r_mul, r_lit, r_pi, r_ofInt, r_exp, r_log, r_cos,
      r_sin, r_sub, r_neg, Int.cast_natCast]
    push_cast
    norm_num only at x1 a1 w tw ⊢
    rw [x1, a1, w, tw]
    have : -(2 / Real.pi * A) * Real.log (P.len / (19 / 10 * k)) - 2 * Real.pi * k * it / P.len =
        -lawLag P.len A it k := by
      unfold lawLag; norm_num only; ring
    rw [this]
  rw [hq]
  simp only [lawCoef, ← hA]
  rw [← Complex.ofReal_neg, Complex.exp_mul_I, ← Complex.ofReal_cos, ← Complex.ofReal_sin]
  have hc : ((Real.cos (-lawLag P.len A it k) : ℝ) : ℂ) + ((Real.sin (-lawLag P.len A it k) : ℝ) : ℂ) *
      Complex.I = ⟨Real.cos (-lawLag P.len A it k), Real.sin (-lawLag P.len A it k)⟩ :=
    (Complex.mk_eq_add_mul_I _ _).symm
  rw [hc]
  apply Complex.ext
  · rw [Complex.re_ofReal_mul]; rfl
  · rw [Complex.im_ofReal_mul]; rfl

/-! ### C65 -/

/-- Spectrum of the attenuated unit pulse. -/
theorem attResp_dft (P : AttPar ℝ) (hdt : P.dt ≠ 0) (r : ℝ) (it : ℤ) (k : ℕ) (hk : 0 < k)
    (hk2 : 2 * k ≤ P.len) :
    dft P.len (attResp exactLib P r it) k =
      if 2 * k = P.len then ((lawCoef P r it k).re : ℂ) else lawCoef P r it k := by
  have h1 : 1 ≤ P.len := by omega
  have hNc : (P.len : ℂ) ≠ 0 := by exact_mod_cast (by omega : P.len ≠ 0)
  have e : attResp exactLib P r it = fun i => idftHalf P.len (fun k => toC (if k ≤ P.len / 2 then
      attHalf P r it k else (lit 0, lit 0))) i / (P.len : ℝ) := by
    funext i
    simp only [attResp, exactLib, r_div, r_ofInt, Int.cast_natCast]
  rw [e, dft_smul, dft_idftHalf _ h1 _ _ (by omega), Nat.mod_eq_of_lt (by omega), Complex.ofReal_natCast,
    mul_div_cancel_left₀ _ hNc]
  have hconj : toC (attConj P r it k) = (starRingEnd ℂ) (toC (attCoef P r it k)) := by
    apply Complex.ext <;> simp [toC, attConj, attCoef]
  by_cases hny : 2 * k = P.len
  · rw [if_pos hny]
    have hkk : P.len - k = k := by omega
    have hh : hermExt P.len (fun k => toC (if k ≤ P.len / 2 then attHalf P r it k else
        (lit 0, lit 0))) k = (starRingEnd ℂ) (lawCoef P r it k) := by
      unfold hermExt
      rw [if_pos (by omega)]
      simp only
      rw [if_pos (by omega), attHalf, if_neg (by omega), if_pos hny, hconj,
        attCoef_law P hdt h1 r it k hk]
    rw [hkk, hh, Complex.conj_conj, add_comm, ← Complex.re_eq_add_conj]
  · rw [if_neg hny]
    have hh : hermExt P.len (fun k => toC (if k ≤ P.len / 2 then attHalf P r it k else
        (lit 0, lit 0))) k = lawCoef P r it k := by
      unfold hermExt
      rw [if_pos (by omega)]
      simp only
      rw [if_pos (by omega), attHalf, if_neg (by omega), if_neg hny,
        attCoef_law P hdt h1 r it k hk]
    have hg : hermExt P.len (fun k => toC (if k ≤ P.len / 2 then attHalf P r it k else
        (lit 0, lit 0))) (P.len - k) = (starRingEnd ℂ) (lawCoef P r it k) := by
      unfold hermExt
      rw [if_neg (by omega), show P.len - (P.len - k) = k by omega]
      simp only
      rw [if_pos (by omega), attHalf,
        if_neg (by omega), if_neg hny, attCoef_law P hdt h1 r it k hk]
    rw [hh, hg, Complex.conj_conj, add_self_div_two]

/-- C65, `dream_att`: in exact arithmetic, for every set of points, delays, sampling and sound speed,
every bin `k` strictly between zero and half the sampling rate of column `n` of the result is
`exp(-A)` times a phase lag, where `A` is the loss of `alpha` dB/(cm MHz) over the distance of point
`n` at the frequency of bin `k`, and the lag is that of the arrival index and of the dispersion.  (At
exactly half the sampling rate the column has the real part.) -/
theorem C65_spectrum (D : AttCall ℝ) (xc : Buf (ℝ × ℝ)) (x m : Buf ℝ)
    (hs : D.Sized m) (hxc : xc.size = D.P.len) (hx : x.size = D.P.len) (it : ℕ → ℤ)
    (hit : ∀ n, n < D.No → castIdx D.ty (trunc (D.time n)) = .ok (it n))
    (hz : ∀ i, i < m.size → m.data i = 0) (hdt : D.P.dt ≠ 0) :
    ∃ m', dreamAtt exactLib D xc x m = .ok m' ∧
      ∀ n, n < D.No → ∀ k, 0 < k → 2 * k ≤ D.P.len →
        dft D.P.len (fun i => m'.data (n * D.P.len + i)) k =
          if 2 * k = D.P.len then ((lawCoef D.P (D.dist n) (it n) k).re : ℂ)
          else lawCoef D.P (D.dist n) (it n) k := by
  obtain ⟨m', e1, e2, e3⟩ := C43_columns exactLib D xc x m hs hxc hx it hit
  refine ⟨m', e1, fun n hn k hk hk2 => ?_⟩
  rw [← attResp_dft D.P hdt (D.dist n) (it n) k hk hk2]
  unfold dft
  apply Finset.sum_congr rfl
  intro i hi
  rw [mem_range] at hi
  have : n * D.P.len + i < m.size := by
    have : (n + 1) * D.P.len ≤ D.No * D.P.len := Nat.mul_le_mul_right _ hn
    rw [Nat.add_mul, Nat.one_mul] at this
    rw [hs.out]; omega
  show ((m'.data (n * D.P.len + i) : ℝ) : ℂ) * _ = _
  rw [e3 n hn i hi, hz _ this]
  simp

/-- C65: the amplitude is `exp(-A)`. -/
theorem lawCoef_norm (P : AttPar ℝ) (r : ℝ) (it : ℤ) (k : ℕ) :
    ‖lawCoef P r it k‖ = Real.exp (-lossNeper P.alpha r (binFreq P.len P.dt k)) := by
  simp only [lawCoef]
  rw [norm_mul, ← Complex.ofReal_neg, Complex.norm_exp_ofReal_mul_I, mul_one, Complex.norm_real,
    Real.norm_of_nonneg (Real.exp_nonneg _)]

/-- C65: expressed in decibel the amplitude of every bin is `-alpha * (path in cm) * (frequency in
MHz)` up to the factor `20/(8.686 ln 10)` (the code rounds `20/ln 10` to 8.686). -/
theorem C65_decibel (P : AttPar ℝ) (r : ℝ) (it : ℤ) (k : ℕ) :
    20 * Real.logb 10 ‖lawCoef P r it k‖ =
      -(P.alpha * (r / 10) * binFreq P.len P.dt k) * (20 / (8.686 * Real.log 10)) := by
  rw [lawCoef_norm, Real.logb, Real.log_exp]
  unfold lossNeper
  ring

/-- C65: with a non-negative coefficient no bin is amplified, and a longer path never has less
loss, in any bin, for `dream_att` and for every hit of a transducer function alike. -/
theorem C65_monotone (P : AttPar ℝ) (ha : 0 ≤ P.alpha) (hdt : 0 < P.dt) (r₁ r₂ : ℝ) (h0 : 0 ≤ r₁)
    (h12 : r₁ ≤ r₂) (it₁ it₂ : ℤ) (k : ℕ) (hk : 0 < k) (hk2 : 2 * k < P.len) :
    ‖dft P.len (attResp exactLib P r₂ it₂) k‖ ≤ ‖dft P.len (attResp exactLib P r₁ it₁) k‖ ∧
      ‖dft P.len (attResp exactLib P r₁ it₁) k‖ ≤ 1 := by
  rw [attResp_dft P hdt.ne' _ _ _ hk hk2.le, attResp_dft P hdt.ne' _ _ _ hk hk2.le,
    if_neg (by omega), if_neg (by omega), lawCoef_norm, lawCoef_norm]
  have hf : 0 ≤ binFreq P.len P.dt k := by unfold binFreq; positivity
  constructor
  · rw [Real.exp_le_exp, neg_le_neg_iff]
    unfold lossNeper
    gcongr
  · rw [Real.exp_le_one_iff, neg_nonpos]
    unfold lossNeper
    positivity

/-- C65 for the transducer functions: every hit of a surface element with distance `r`, arrival index
`it` and strength `ai` adds to bin `k` of the column `ai` times the coefficient of the law. -/
theorem C65_hit (P : AttPar ℝ) (hdt : P.dt ≠ 0) (r : ℝ) (it : ℤ) (ai : ℝ) (c : ℕ → ℝ) (k : ℕ)
    (hk : 0 < k) (hk2 : 2 * k < P.len) :
    dft P.len (colAtt P.len (attResp exactLib P r it) ai c) k =
      dft P.len c k + ai * lawCoef P r it k := by
  have h := attResp_dft P hdt r it k hk hk2.le
  rw [if_neg (by omega)] at h
  rw [← h]
  unfold dft
  rw [Finset.mul_sum, ← Finset.sum_add_distrib]
  apply Finset.sum_congr rfl
  intro i hi
  rw [mem_range] at hi
  simp only [colAtt, if_pos hi, r_add, r_mul]
  push_cast
  ring

-- 1 dB/(cm MHz) over 8.686 mm, eight samples of 1/8 microsecond: bin 2 is 2 MHz and the loss
-- 0.2 neper.
example : lossNeper 1 8.686 (binFreq 8 (1/8) 2) = 0.2 := by
  unfold lossNeper binFreq; norm_num

example : ‖dft 8 (attResp exactLib ⟨8, 1/8, 1⟩ 8.686 3) 2‖ = Real.exp (-0.2) := by
  rw [attResp_dft ⟨8, 1/8, 1⟩ (by norm_num) 8.686 3 2 (by norm_num) (by norm_num),
    if_neg (by norm_num), lawCoef_norm]
  congr 1
  unfold lossNeper binFreq
  norm_num

end Dream
