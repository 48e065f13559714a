import Verif.Fft
import Verif.RealArith
import Mathlib.RingTheory.RootsOfUnity.Complex
import Mathlib.Analysis.SpecialFunctions.Complex.Circle
import Mathlib.Algebra.BigOperators.Ring.Finset

/-
The exact discrete Fourier transform as an instance of `FFTLib`, and the two facts about it that
are used: the inversion of a Hermitian spectrum and the convolution theorem.
-/

namespace Dream
open Arith Finset

/-- exp(2 pi i m / N) -/
noncomputable def root (N : ℕ) (m : ℤ) : ℂ := Complex.exp (2 * Real.pi * Complex.I * m / N)

theorem root_zero (N : ℕ) : root N 0 = 1 := by simp [root]

theorem root_add (N : ℕ) (a b : ℤ) : root N (a + b) = root N a * root N b := by
  unfold root
  rw [← Complex.exp_add]
  congr 1
  push_cast
  ring

theorem root_nat_mul (N : ℕ) (a : ℤ) (k : ℕ) : root N (k * a) = root N a ^ k := by
  induction k with
  | zero => simp [root_zero]
  | succ k ih =>
    rw [pow_succ, ← ih, ← root_add]
    congr 1
    push_cast
    ring

theorem root_period (N : ℕ) (hN : 1 ≤ N) (q : ℤ) : root N (N * q) = 1 := by
  unfold root
  have hN' : (N : ℂ) ≠ 0 := by exact_mod_cast (by omega : N ≠ 0)
  rw [Complex.exp_eq_one_iff]
  refine ⟨q, ?_⟩
  push_cast
  field_simp

theorem root_eq_one (N : ℕ) (hN : 1 ≤ N) (m : ℤ) : root N m = 1 ↔ (N : ℤ) ∣ m := by
  constructor
  · intro h
    unfold root at h
    rw [Complex.exp_eq_one_iff] at h
    obtain ⟨q, hq⟩ := h
    have hN' : (N : ℂ) ≠ 0 := by exact_mod_cast (by omega : N ≠ 0)
    have hpi : (2 * Real.pi * Complex.I : ℂ) ≠ 0 := Complex.two_pi_I_ne_zero
    refine ⟨q, ?_⟩
    have h2 : (2 * Real.pi * Complex.I : ℂ) * m = (2 * Real.pi * Complex.I) * (N * q) := by
      field_simp at hq
      linear_combination (2 * Real.pi * Complex.I : ℂ) * hq
    have h3 := mul_left_cancel₀ hpi h2
    exact_mod_cast h3
  · rintro ⟨q, rfl⟩
    exact root_period N hN q

theorem root_conj (N : ℕ) (m : ℤ) : (starRingEnd ℂ) (root N m) = root N (-m) := by
  unfold root
  rw [← Complex.exp_conj]
  congr 1
  simp only [map_div₀, map_mul, Complex.conj_ofReal, Complex.conj_I, map_ofNat, map_natCast,
    map_intCast]
  push_cast
  ring

/-- Orthogonality. -/
theorem root_sum (N : ℕ) (hN : 1 ≤ N) (m : ℤ) :
    ∑ k ∈ range N, root N (k * m) = if (N : ℤ) ∣ m then (N : ℂ) else 0 := by
  simp only [root_nat_mul]
  split
  · next h =>
    rw [(root_eq_one N hN m).2 h]
    simp
  · next h =>
    have h1 : root N m ≠ 1 := fun h2 => h ((root_eq_one N hN m).1 h2)
    rw [geom_sum_eq h1, ← root_nat_mul, root_period N hN m]
    simp

/-- Complex number of a pair. -/
def toC (p : ℝ × ℝ) : ℂ := ⟨p.1, p.2⟩

def ofC (z : ℂ) : ℝ × ℝ := (z.re, z.im)

@[simp] theorem toC_ofC (z : ℂ) : toC (ofC z) = z := rfl
@[simp] theorem ofC_toC (p : ℝ × ℝ) : ofC (toC p) = p := rfl

/-- Forward transform: `X_k = Σ_j x_j exp(-2πi jk/N)`. -/
noncomputable def dft (N : ℕ) (x : ℕ → ℝ) (k : ℕ) : ℂ :=
  ∑ j ∈ range N, (x j : ℂ) * root N (-(j * k : ℕ))

/-- The spectrum of length `N` that the first `N/2+1` coefficients stand for. -/
noncomputable def hermExt (N : ℕ) (X : ℕ → ℂ) (k : ℕ) : ℂ :=
  if k ≤ N / 2 then X k else (starRingEnd ℂ) (X (N - k))

/-- Backward transform of a half spectrum (FFTW manual, "What FFTW Really Computes"): the real
part discards the imaginary parts of the coefficients 0 and N/2, which FFTW does not look at. -/
noncomputable def idftHalf (N : ℕ) (X : ℕ → ℂ) (i : ℕ) : ℝ :=
  (∑ k ∈ range N, hermExt N X k * root N ((k * i : ℕ) : ℤ)).re

/-- Exact transforms and complex arithmetic. -/
noncomputable def exactLib : FFTLib ℝ where
  r2c N x k := ofC (dft N x k)
  c2r N X i := idftHalf N (fun k => toC (X k)) i
  cmul p q := (p.1 * q.1 - p.2 * q.2, p.1 * q.2 + p.2 * q.1)
  cadd p q := (p.1 + q.1, p.2 + q.2)
  cdivr p x := (p.1 / x, p.2 / x)

theorem exact_cmul (p q : ℝ × ℝ) : toC (exactLib.cmul p q) = toC p * toC q := by
  apply Complex.ext <;> simp [toC, exactLib]

theorem exact_cadd (p q : ℝ × ℝ) : toC (exactLib.cadd p q) = toC p + toC q := by
  apply Complex.ext <;> simp [toC, exactLib]

theorem exact_cdivr (p : ℝ × ℝ) (x : ℝ) : toC (exactLib.cdivr p x) = toC p / (x : ℂ) := by
  apply Complex.ext <;> simp [toC, exactLib, Complex.div_ofReal_re, Complex.div_ofReal_im]

/-- The spectrum of real data is Hermitian. -/
theorem dft_conj (N : ℕ) (hN : 1 ≤ N) (x : ℕ → ℝ) (k : ℕ) (hk : k ≤ N) :
    (starRingEnd ℂ) (dft N x (N - k)) = dft N x k := by
  unfold dft
  rw [map_sum]
  apply Finset.sum_congr rfl
  intro j _
  rw [map_mul, Complex.conj_ofReal, root_conj]
  congr 1
  have : (-(-((j * (N - k) : ℕ) : ℤ))) = N * (j : ℤ) + -((j * k : ℕ) : ℤ) := by
    push_cast [Nat.cast_sub hk]
    ring
  rw [this, root_add, root_period N hN, one_mul]

theorem hermExt_dft (N : ℕ) (hN : 1 ≤ N) (x : ℕ → ℝ) (k : ℕ) (hk : k < N) :
    hermExt N (dft N x) k = dft N x k := by
  unfold hermExt
  split
  · rfl
  · exact dft_conj N hN x k hk.le

/-- Only the first `N/2+1` coefficients matter. -/
theorem idftHalf_congr (N : ℕ) (X Y : ℕ → ℂ) (h : ∀ k, k ≤ N / 2 → X k = Y k) (i : ℕ) :
    idftHalf N X i = idftHalf N Y i := by
  unfold idftHalf
  congr 1
  apply Finset.sum_congr rfl
  intro k hk
  rw [mem_range] at hk
  unfold hermExt
  split
  · next h1 => rw [h k h1]
  · next h1 => rw [h (N - k) (by omega)]

theorem idftHalf_add (N : ℕ) (X Y : ℕ → ℂ) (i : ℕ) :
    idftHalf N (fun k => X k + Y k) i = idftHalf N X i + idftHalf N Y i := by
  unfold idftHalf
  rw [← Complex.add_re, ← Finset.sum_add_distrib]
  congr 1
  apply Finset.sum_congr rfl
  intro k _
  unfold hermExt
  split
  · ring
  · rw [map_add]; ring

theorem idftHalf_smul (N : ℕ) (X : ℕ → ℂ) (s : ℝ) (i : ℕ) :
    idftHalf N (fun k => X k * s) i = idftHalf N X i * s := by
  unfold idftHalf
  have : ∑ k ∈ range N, hermExt N (fun k => X k * s) k * root N ((k * i : ℕ) : ℤ) =
      (∑ k ∈ range N, hermExt N X k * root N ((k * i : ℕ) : ℤ)) * s := by
    rw [Finset.sum_mul]
    apply Finset.sum_congr rfl
    intro k _
    unfold hermExt
    split
    · ring
    · rw [map_mul, Complex.conj_ofReal]; ring
  rw [this, Complex.re_mul_ofReal]

theorem idftHalf_zero (N : ℕ) (i : ℕ) : idftHalf N (fun _ => 0) i = 0 := by
  unfold idftHalf hermExt
  simp

/-- Convolution theorem for real data. -/
theorem idftHalf_dft_mul (N : ℕ) (hN : 1 ≤ N) (x y : ℕ → ℝ) (m : ℕ) :
    idftHalf N (fun k => dft N x k * dft N y k) m =
      N * ∑ i ∈ range N, ∑ j ∈ range N, if (N : ℤ) ∣ (m : ℤ) - i - j then x i * y j else 0 := by
  have h1 : ∑ k ∈ range N, hermExt N (fun k => dft N x k * dft N y k) k *
      root N ((k * m : ℕ) : ℤ) =
      ∑ i ∈ range N, ∑ j ∈ range N, ((x i * y j : ℝ) : ℂ) *
        ∑ k ∈ range N, root N (k * ((m : ℤ) - i - j)) := by
    have : ∀ k ∈ range N, hermExt N (fun k => dft N x k * dft N y k) k * root N ((k * m : ℕ) : ℤ) =
        ∑ i ∈ range N, ∑ j ∈ range N, ((x i * y j : ℝ) : ℂ) * root N (k * ((m : ℤ) - i - j)) := by
      intro k hk
      rw [mem_range] at hk
      have he : hermExt N (fun k => dft N x k * dft N y k) k = dft N x k * dft N y k := by
        unfold hermExt
        split
        · rfl
        · rw [map_mul, dft_conj N hN x k hk.le, dft_conj N hN y k hk.le]
      rw [he]
      unfold dft
      rw [Finset.sum_mul_sum, Finset.sum_mul]
      apply Finset.sum_congr rfl
      intro i _
      rw [Finset.sum_mul]
      apply Finset.sum_congr rfl
      intro j _
      have : (k : ℤ) * ((m : ℤ) - i - j) =
          -((i * k : ℕ) : ℤ) + (-((j * k : ℕ) : ℤ) + ((k * m : ℕ) : ℤ)) := by
        push_cast; ring
      rw [this, root_add, root_add]
      push_cast
      ring
    rw [Finset.sum_congr rfl this, Finset.sum_comm]
    apply Finset.sum_congr rfl
    intro i _
    rw [Finset.sum_comm]
    apply Finset.sum_congr rfl
    intro j _
    rw [Finset.mul_sum]
  unfold idftHalf
  rw [h1, Finset.mul_sum]
  have h2 : ∀ i ∈ range N, ∀ j ∈ range N,
      ((x i * y j : ℝ) : ℂ) * ∑ k ∈ range N, root N (k * ((m : ℤ) - i - j)) =
      (((N : ℝ) * if (N : ℤ) ∣ (m : ℤ) - i - j then x i * y j else 0 : ℝ) : ℂ) := by
    intro i _ j _
    rw [root_sum N hN]
    split <;> push_cast <;> ring
  rw [Finset.sum_congr rfl fun i hi => Finset.sum_congr rfl fun j hj => h2 i hi j hj]
  rw [Complex.re_sum]
  apply Finset.sum_congr rfl
  intro i _
  rw [Complex.re_sum, Finset.mul_sum]
  apply Finset.sum_congr rfl
  intro j _
  exact Complex.ofReal_re _

/-- With zero padding to the full length the circular convolution is the linear one. -/
theorem circ_eq_lin (nx ny N : ℕ) (hN : nx + ny ≤ N + 1) (x y : ℕ → ℝ)
    (hx0 : nx ≤ N) (hy0 : ny ≤ N) (m : ℕ) (hm : m < N) :
    (∑ i ∈ range N, ∑ j ∈ range N, if (N : ℤ) ∣ (m : ℤ) - i - j then
      (if i < nx then x i else 0) * (if j < ny then y j else 0) else 0) =
      ∑ i ∈ range nx, ∑ j ∈ range ny, if i + j = m then x i * y j else 0 := by
  rw [← Finset.sum_subset (Finset.range_mono hx0)]
  · apply Finset.sum_congr rfl
    intro i hi
    rw [mem_range] at hi
    rw [← Finset.sum_subset (Finset.range_mono hy0)]
    · apply Finset.sum_congr rfl
      intro j hj
      rw [mem_range] at hj
      rw [if_pos hi, if_pos hj]
      have : (N : ℤ) ∣ (m : ℤ) - i - j ↔ i + j = m := by
        constructor
        · rintro ⟨q, hq⟩
          have h1 : (m : ℤ) - i - j < N := by omega
          have h2 : -(N : ℤ) < (m : ℤ) - i - j := by omega
          rw [hq] at h1 h2
          have hq1 : q < 1 := by nlinarith
          have hq2 : -1 < q := by nlinarith
          have : q = 0 := by omega
          subst this
          omega
        · intro h
          exact ⟨0, by omega⟩
      by_cases h : i + j = m
      · rw [if_pos h, if_pos (this.2 h)]
      · rw [if_neg h, if_neg (fun h2 => h (this.1 h2))]
    · intro j _ hj
      rw [mem_range] at hj
      simp [hj]
  · intro i _ hi
    rw [mem_range] at hi
    simp [hi]

end Dream
