import Verif.RealArith
import Mathlib.Data.Real.Basic
import Mathlib.Data.Int.Log
import Mathlib.Analysis.SpecialFunctions.Sqrt
import Mathlib.Algebra.Order.BigOperators.Group.Finset
import Mathlib.Algebra.BigOperators.Intervals
import Mathlib.Tactic.Linarith
import Mathlib.Tactic.Ring
import Mathlib.Tactic.Positivity

/-
The standard model of floating point arithmetic, and the error of sums.

This is a specification, not a model of code of the repository: the code's `double` operations are an
arbitrary `Arith F`, and `FloatLaws` says what IEEE 754 guarantees about them.
-/

namespace Dream
open Arith

/-- How floating point numbers are read as real numbers. -/
structure FloatView (F : Type) where
  /-- the real number a finite value stands for -/
  val : F → ℝ
  /-- neither infinite nor NaN -/
  fin : F → Prop
  /-- unit roundoff (2^-53 for `double`) -/
  u : ℝ
  /-- largest error of a product, quotient or square root by underflow (2^-1075 for `double`, 0 if
  there is no underflow) -/
  eta : ℝ
  /-- products and quotients of at least this size are not affected by underflow (2^-1022 for
  `double`) -/
  tiny : ℝ
  /-- products of at most this size do not overflow (2^1023 for `double`) -/
  huge : ℝ

/-- Not affected by underflow. -/
def FloatView.Safe {F : Type} (Φ : FloatView F) (x : ℝ) : Prop := x = 0 ∨ Φ.tiny ≤ |x|

/-- The standard model: each operation with a finite result has finite operands and is exact up to one
rounding (IEEE 754 addition, subtraction and square root never lose digits by underflow); small
integers are exact, `M_PI` is rounded once, comparisons are exact and `std::rint` and the conversion to an
integer are defined for finite values only. -/
structure FloatLaws {F : Type} [Arith F] (Φ : FloatView F) : Prop where
  u_nonneg : 0 ≤ Φ.u
  eta_nonneg : 0 ≤ Φ.eta
  tiny_le : Φ.tiny ≤ 1
  huge_ge : 1000 ≤ Φ.huge
  zero : Φ.fin (lit 0) ∧ Φ.val (lit 0) = 0
  add : ∀ a b, Φ.fin (a +. b) → Φ.fin a ∧ Φ.fin b ∧
    |Φ.val (a +. b) - (Φ.val a + Φ.val b)| ≤ Φ.u * |Φ.val a + Φ.val b|
  sub : ∀ a b, Φ.fin (a -. b) → Φ.fin a ∧ Φ.fin b ∧
    |Φ.val (a -. b) - (Φ.val a - Φ.val b)| ≤ Φ.u * |Φ.val a - Φ.val b|
  mul : ∀ a b, Φ.fin (a *. b) → Φ.fin a ∧ Φ.fin b ∧
    |Φ.val (a *. b) - Φ.val a * Φ.val b| ≤ Φ.u * |Φ.val a * Φ.val b| + Φ.eta ∧
    (Φ.Safe (Φ.val a * Φ.val b) →
      |Φ.val (a *. b) - Φ.val a * Φ.val b| ≤ Φ.u * |Φ.val a * Φ.val b|)
  mul_fin : ∀ a b, Φ.fin a → Φ.fin b → |Φ.val a * Φ.val b| ≤ Φ.huge → Φ.fin (a *. b)
  div : ∀ a b, Φ.fin (a /. b) → Φ.fin a ∧ (Φ.fin b → Φ.val b ≠ 0 →
    |Φ.val (a /. b) - Φ.val a / Φ.val b| ≤ Φ.u * |Φ.val a / Φ.val b| + Φ.eta ∧
    (Φ.Safe (Φ.val a / Φ.val b) →
      |Φ.val (a /. b) - Φ.val a / Φ.val b| ≤ Φ.u * |Φ.val a / Φ.val b|))
  neg : ∀ a, (Φ.fin (Arith.neg a) ↔ Φ.fin a) ∧ (Φ.fin a → Φ.val (Arith.neg a) = -Φ.val a)
  add_fin : ∀ a b, Φ.fin a → Φ.fin b → |Φ.val a + Φ.val b| ≤ Φ.huge → Φ.fin (a +. b)
  div_fin : ∀ a b, Φ.fin a → Φ.fin b → Φ.val b ≠ 0 → |Φ.val a / Φ.val b| ≤ Φ.huge → Φ.fin (a /. b)
  sqrt : ∀ a, Φ.fin (Arith.sqrt a) → Φ.fin a ∧
    |Φ.val (Arith.sqrt a) - Real.sqrt (Φ.val a)| ≤ Φ.u * Real.sqrt (Φ.val a)
  small : ∀ n : ℕ, n ≤ 1000 → Φ.fin (lit n) ∧ Φ.val (lit n) = n
  pi : Φ.fin (Arith.pi) ∧ |Φ.val Arith.pi - Real.pi| ≤ Φ.u * |Real.pi|
  le : ∀ a b, Φ.fin a → Φ.fin b → (Arith.le a b = true ↔ Φ.val a ≤ Φ.val b)
  lt : ∀ a b, Φ.fin a → Φ.fin b → (Arith.lt a b = true ↔ Φ.val a < Φ.val b)
  rint : ∀ a i, Arith.rint a = some i → Φ.fin a ∧ i = rintR (Φ.val a)
  trunc : ∀ a i, Arith.trunc a = some i → Φ.fin a ∧ i = truncR (Φ.val a)

variable {F : Type} [Arith F] {Φ : FloatView F}

theorem geom_ge_one {u : ℝ} (hu : 0 ≤ u) (n : ℕ) : 1 ≤ (1 + u) ^ n := one_le_pow₀ (by linarith)

/-- One rounded addition `s' = s + t` where `s` stands for `S` and `t` for `p`. -/
theorem acc_step {u κ η E A H p s' s t S : ℝ} {c : ℝ} (hu : 0 ≤ u) (hη : 0 ≤ η) (hκ : 1 ≤ κ)
    (hc : 0 ≤ c) (hp : |s' - (s + t)| ≤ u * |s + t|)
    (ht : |t - p| ≤ (κ - 1) * |p| + η) (hs : |s - S| ≤ E) (hS : |S| ≤ A) (hH : 1 ≤ H)
    (hE : E ≤ (κ * H - 1) * A + c * H * η) :
    |s' - (S + p)| ≤ (κ * (H * (1 + u)) - 1) * (A + |p|) + (c + 1) * (H * (1 + u)) * η := by
  generalize hq : |p| = q at *
  have hq0 : 0 ≤ q := hq ▸ abs_nonneg p
  have hA : 0 ≤ A := (abs_nonneg S).trans hS
  generalize hδ : (κ - 1) * q + η = δ at ht
  have h1 : |s| ≤ A + E := by
    have : |s| ≤ |S| + |s - S| := by
      have := abs_add_le S (s - S)
      simpa using this
    linarith
  have h2 : |t| ≤ q + δ := by
    have : |t| ≤ |p| + |t - p| := by
      have := abs_add_le p (t - p)
      simpa using this
    linarith
  have h3 : |s + t| ≤ A + E + (q + δ) := (abs_add_le s t).trans (by linarith)
  have h4 : |s' - (S + p)| ≤ |s' - (s + t)| + (|s - S| + |t - p|) := by
    have e : s' - (S + p) = (s' - (s + t)) + ((s - S) + (t - p)) := by ring
    rw [e]
    exact (abs_add_le _ _).trans (add_le_add le_rfl (abs_add_le _ _))
  have h5 : u * |s + t| ≤ u * (A + E + (q + δ)) := mul_le_mul_of_nonneg_left h3 hu
  have h6 : (1 + u) * E ≤ (1 + u) * ((κ * H - 1) * A + c * H * η) :=
    mul_le_mul_of_nonneg_left hE (by linarith)
  have h7 : (κ * (1 + u) - 1) * q ≤ (κ * (H * (1 + u)) - 1) * q := by
    apply mul_le_mul_of_nonneg_right _ hq0
    have : (1 + u) ≤ H * (1 + u) := by nlinarith
    nlinarith
  have h8 : (1 + u) * η ≤ H * (1 + u) * η := by
    apply mul_le_mul_of_nonneg_right _ hη
    nlinarith
  have e1 : u * (A + E + (q + δ)) + (E + δ) = (1 + u) * E + u * A + u * q + (1 + u) * δ := by ring
  have e2 : (1 + u) * δ = (1 + u) * (κ - 1) * q + (1 + u) * η := by rw [← hδ]; ring
  have e3 : (1 + u) * ((κ * H - 1) * A + c * H * η) + u * A =
      (κ * (H * (1 + u)) - 1) * A + c * (H * (1 + u)) * η := by ring
  have e4 : u * q + (1 + u) * (κ - 1) * q = (κ * (1 + u) - 1) * q := by ring
  nlinarith

/-- Rounded accumulation: `s (n+1)` is `s n`, or (for the `n` in `act`) the rounded sum of `s n` and a
term that stands for `p n` up to the factor `κ` and the absolute error `η`. -/
theorem fold_err (hu : 0 ≤ Φ.u) {η κ : ℝ} (hη : 0 ≤ η) (hκ : 1 ≤ κ) (s : ℕ → F) (p : ℕ → ℝ)
    (act : ℕ → Prop) [DecidablePred act] (h0 : ∀ n, ¬ act n → s (n + 1) = s n)
    (h1 : ∀ n, act n → Φ.fin (s (n + 1)) → Φ.fin (s n) ∧ ∃ τ,
      |Φ.val (s (n + 1)) - (Φ.val (s n) + τ)| ≤ Φ.u * |Φ.val (s n) + τ| ∧
      |τ - p n| ≤ (κ - 1) * |p n| + η) (N : ℕ) (hf : Φ.fin (s N)) :
    Φ.fin (s 0) ∧
    |Φ.val (s N) - (Φ.val (s 0) + ∑ n ∈ Finset.range N, if act n then p n else 0)| ≤
      (κ * (1 + Φ.u) ^ ((Finset.range N).filter act).card - 1) *
        (|Φ.val (s 0)| + ∑ n ∈ Finset.range N, if act n then |p n| else 0) +
      ((Finset.range N).filter act).card * (1 + Φ.u) ^ ((Finset.range N).filter act).card * η := by
  induction N with
  | zero =>
    refine ⟨hf, ?_⟩
    simp only [Finset.range_zero, Finset.sum_empty, add_zero, sub_self, abs_zero, Finset.filter_empty,
      Finset.card_empty, pow_zero, mul_one, Nat.cast_zero, zero_mul]
    exact mul_nonneg (by linarith) (abs_nonneg _)
  | succ N ih =>
    by_cases ha : act N
    · obtain ⟨g1, τ, g2, g3⟩ := h1 N ha hf
      obtain ⟨i1, i2⟩ := ih g1
      refine ⟨i1, ?_⟩
      have hcard : ((Finset.range (N + 1)).filter act).card =
          ((Finset.range N).filter act).card + 1 := by
        rw [Finset.range_add_one, Finset.filter_insert, if_pos ha, Finset.card_insert_of_notMem (by simp)]
      rw [hcard, Finset.sum_range_succ, Finset.sum_range_succ, if_pos ha, if_pos ha, ← add_assoc,
        ← add_assoc, pow_succ]
      push_cast
      refine acc_step hu hη hκ (Nat.cast_nonneg _) g2 g3 le_rfl ?_ (geom_ge_one hu _) i2
      refine (abs_add_le _ _).trans (add_le_add le_rfl ?_)
      refine (Finset.abs_sum_le_sum_abs _ _).trans (Finset.sum_le_sum fun n _ => ?_)
      split <;> simp
    · rw [h0 N ha] at hf ⊢
      obtain ⟨i1, i2⟩ := ih hf
      refine ⟨i1, ?_⟩
      have hcard : (Finset.range (N + 1)).filter act = (Finset.range N).filter act := by
        rw [Finset.range_add_one, Finset.filter_insert, if_neg ha]
      rw [hcard, Finset.sum_range_succ, Finset.sum_range_succ, if_neg ha, if_neg ha, add_zero, add_zero]
      exact i2

/-! ### Relative closeness of non-negative numbers -/

/-- `x` and `y` agree up to `k` roundings: each is at least `(1-u)^k` times the other. -/
def Near (u : ℝ) (k : ℕ) (x y : ℝ) : Prop :=
  0 ≤ y ∧ y * (1 - u) ^ k ≤ x ∧ x * (1 - u) ^ k ≤ y

section Near
variable {u : ℝ} {k l : ℕ} {x y x' y' z : ℝ}

theorem Near.nonneg (h1 : u ≤ 1) (h : Near u k x y) : 0 ≤ x :=
  le_trans (mul_nonneg h.1 (pow_nonneg (by linarith) k)) h.2.1

theorem Near.refl (h0 : 0 ≤ u) (h1 : u ≤ 1) (hx : 0 ≤ x) (k : ℕ) : Near u k x x := by
  have hp : (1 - u) ^ k ≤ 1 := pow_le_one₀ (by linarith) (by linarith)
  exact ⟨hx, mul_le_of_le_one_right hx hp, mul_le_of_le_one_right hx hp⟩

theorem Near.of_rnd (h0 : 0 ≤ u) (h1 : u ≤ 1) (hy : 0 ≤ y) (h : |x - y| ≤ u * |y|) :
    Near u 1 x y := by
  rw [abs_of_nonneg hy, abs_le] at h
  refine ⟨hy, ?_, ?_⟩
  · rw [pow_one]; linarith
  · rw [pow_one]
    have : x * (1 - u) ≤ (y + u * y) * (1 - u) :=
      mul_le_mul_of_nonneg_right (by linarith) (by linarith)
    have h2 : 0 ≤ u * u * y := by positivity
    nlinarith

theorem Near.trans (h0 : 0 ≤ u) (h1 : u ≤ 1) (h : Near u k x y) (h' : Near u l y z) :
    Near u (k + l) x z := by
  have hk : 0 ≤ (1 - u) ^ k := pow_nonneg (by linarith) k
  have hl : 0 ≤ (1 - u) ^ l := pow_nonneg (by linarith) l
  refine ⟨h'.1, ?_, ?_⟩
  · rw [pow_add]
    calc z * ((1 - u) ^ k * (1 - u) ^ l) = z * (1 - u) ^ l * (1 - u) ^ k := by ring
      _ ≤ y * (1 - u) ^ k := mul_le_mul_of_nonneg_right h'.2.1 hk
      _ ≤ x := h.2.1
  · rw [pow_add]
    calc x * ((1 - u) ^ k * (1 - u) ^ l) = x * (1 - u) ^ k * (1 - u) ^ l := by ring
      _ ≤ y * (1 - u) ^ l := mul_le_mul_of_nonneg_right h.2.2 hl
      _ ≤ z := h'.2.2

theorem Near.mono (h0 : 0 ≤ u) (h1 : u ≤ 1) (hkl : k ≤ l) (h : Near u k x y) : Near u l x y := by
  obtain ⟨d, rfl⟩ := Nat.exists_eq_add_of_le hkl
  exact h.trans h0 h1 (Near.refl h0 h1 h.1 d)

theorem Near.mul (h0 : 0 ≤ u) (h1 : u ≤ 1) (h : Near u k x y) (h' : Near u l x' y') :
    Near u (k + l) (x * x') (y * y') := by
  have hk : 0 ≤ (1 - u) ^ k := pow_nonneg (by linarith) k
  have hl : 0 ≤ (1 - u) ^ l := pow_nonneg (by linarith) l
  have hx := h.nonneg h1
  have hx' := h'.nonneg h1
  refine ⟨mul_nonneg h.1 h'.1, ?_, ?_⟩
  · rw [pow_add]
    calc y * y' * ((1 - u) ^ k * (1 - u) ^ l) = (y * (1 - u) ^ k) * (y' * (1 - u) ^ l) := by ring
      _ ≤ x * x' := mul_le_mul h.2.1 h'.2.1 (mul_nonneg h'.1 hl) hx
  · rw [pow_add]
    calc x * x' * ((1 - u) ^ k * (1 - u) ^ l) = (x * (1 - u) ^ k) * (x' * (1 - u) ^ l) := by ring
      _ ≤ y * y' := mul_le_mul h.2.2 h'.2.2 (mul_nonneg hx' hl) h.1

theorem Near.inv (_h0 : 0 ≤ u) (h1 : u < 1) (hy : 0 < y) (h : Near u k x y) :
    0 < x ∧ Near u k x⁻¹ y⁻¹ := by
  have hk : 0 < (1 - u) ^ k := pow_pos (by linarith) k
  have hx : 0 < x := lt_of_lt_of_le (mul_pos hy hk) h.2.1
  refine ⟨hx, inv_nonneg.2 hy.le, ?_, ?_⟩
  · rw [inv_mul_le_iff₀ hy, le_mul_inv_iff₀ hx, mul_comm]
    exact h.2.2
  · rw [inv_mul_le_iff₀ hx, le_mul_inv_iff₀ hy, mul_comm]
    exact h.2.1

theorem Near.div (h0 : 0 ≤ u) (h1 : u < 1) (hy : 0 < y') (h : Near u k x y) (h' : Near u l x' y') :
    Near u (k + l) (x / x') (y / y') := by
  rw [div_eq_mul_inv, div_eq_mul_inv]
  exact h.mul h0 h1.le (h'.inv h0 h1 hy).2

theorem Near.add (h : Near u k x y) (h' : Near u k x' y') : Near u k (x + x') (y + y') :=
  ⟨add_nonneg h.1 h'.1, by rw [add_mul]; exact add_le_add h.2.1 h'.2.1,
    by rw [add_mul]; exact add_le_add h.2.2 h'.2.2⟩

theorem Near.sqrt (h0 : 0 ≤ u) (h1 : u ≤ 1) (h : Near u (2 * k) x y) :
    Near u k (Real.sqrt x) (Real.sqrt y) := by
  have hk : 0 ≤ (1 - u) ^ k := pow_nonneg (by linarith) k
  have hs : Real.sqrt ((1 - u) ^ (2 * k)) = (1 - u) ^ k := by
    rw [mul_comm, pow_mul, Real.sqrt_sq hk]
  refine ⟨Real.sqrt_nonneg _, ?_, ?_⟩
  · rw [← hs, ← Real.sqrt_mul h.1]
    exact Real.sqrt_le_sqrt h.2.1
  · rw [← hs, ← Real.sqrt_mul (h.nonneg h1)]
    exact Real.sqrt_le_sqrt h.2.2

theorem Near.sq_of_abs (h0 : 0 ≤ u) (h1 : u ≤ 1) (h : |x - y| ≤ u * |y|) : Near u 2 (x * x) (y * y) := by
  have hn : Near u 1 |x| |y| := by
    refine Near.of_rnd h0 h1 (abs_nonneg y) ?_
    rw [abs_abs]
    exact (abs_abs_sub_abs_le_abs_sub x y).trans h
  have := hn.mul h0 h1 hn
  rwa [abs_mul_abs_self, abs_mul_abs_self] at this

/-- The distance of the two numbers. -/
theorem Near.abs_sub (h0 : 0 ≤ u) (h1 : u < 1) (h : Near u k x y) :
    |x - y| ≤ (((1 - u) ^ k)⁻¹ - 1) * y := by
  have hk : 0 < (1 - u) ^ k := pow_pos (by linarith) k
  have hk1 : (1 - u) ^ k ≤ 1 := pow_le_one₀ (by linarith) (by linarith)
  generalize hg : (1 - u) ^ k = g at *
  have hx : x ≤ y * g⁻¹ := by rw [le_mul_inv_iff₀ hk]; exact hg ▸ h.2.2
  have hy : y * g ≤ x := hg ▸ h.2.1
  have h2 : 1 - g ≤ g⁻¹ - 1 := by
    have : g * g⁻¹ = 1 := mul_inv_cancel₀ hk.ne'
    have h3 : 1 ≤ g⁻¹ := (one_le_inv₀ hk).2 hk1
    nlinarith
  rw [abs_le]
  constructor
  · have := mul_le_mul_of_nonneg_right h2 h.1
    linarith
  · linarith

end Near

/-! ### A rounded arithmetic -/

/-- Round to the nearest number with `p` binary digits (halves up, unbounded exponent). -/
noncomputable def roundTo (p : ℕ) (x : ℝ) : ℝ :=
  (2 : ℝ) ^ (Int.log 2 |x| + 1 - p) * ⌊x / (2 : ℝ) ^ (Int.log 2 |x| + 1 - p) + 1 / 2⌋

theorem roundTo_err (p : ℕ) (x : ℝ) : |roundTo p x - x| ≤ (1 / 2) ^ p * |x| := by
  unfold roundTo
  generalize hq : (2 : ℝ) ^ (Int.log 2 |x| + 1 - p) = q
  have hpos : 0 < q := by rw [← hq]; positivity
  by_cases hx : x = 0
  · subst hx
    have : ⌊(0 : ℝ) / q + 1 / 2⌋ = 0 := by rw [Int.floor_eq_zero_iff]; norm_num
    rw [this]
    simp
  · have h1 : |q * (⌊x / q + 1 / 2⌋ : ℝ) - x| ≤ q / 2 := by
      have f1 := Int.floor_le (x / q + 1 / 2)
      have f2 := Int.lt_floor_add_one (x / q + 1 / 2)
      have e : x = q * (x / q) := by field_simp
      rw [abs_le]
      constructor
      · nlinarith
      · nlinarith
    refine h1.trans ?_
    have h2 : (2 : ℝ) ^ (Int.log 2 |x|) ≤ |x| := by
      have := Int.zpow_log_le_self (b := 2) (r := |x|) (by norm_num) (abs_pos.2 hx)
      exact_mod_cast this
    have h3 : q / 2 = (1 / 2) ^ p * (2 : ℝ) ^ (Int.log 2 |x|) := by
      rw [← hq, show Int.log 2 |x| + 1 - (p : ℤ) = Int.log 2 |x| + (1 + -(p : ℤ)) by ring,
        zpow_add₀ (by norm_num), zpow_add₀ (by norm_num), zpow_one, zpow_neg, zpow_natCast, one_div,
        inv_pow]
      ring
    rw [h3]
    exact mul_le_mul_of_nonneg_left h2 (by positivity)

/-- The real numbers with every operation rounded to `p` binary digits. -/
structure Rnd (p : ℕ) where
  v : ℝ

open Classical in
noncomputable instance (p : ℕ) : Arith (Rnd p) where
  lit q := ⟨(q : ℝ)⟩
  ofInt i := ⟨(i : ℝ)⟩
  pi := ⟨roundTo p Real.pi⟩
  add a b := ⟨roundTo p (a.v + b.v)⟩
  sub a b := ⟨roundTo p (a.v - b.v)⟩
  mul a b := ⟨roundTo p (a.v * b.v)⟩
  div a b := ⟨roundTo p (a.v / b.v)⟩
  neg a := ⟨-a.v⟩
  sqrt a := ⟨roundTo p (Real.sqrt a.v)⟩
  abs a := ⟨|a.v|⟩
  sin a := ⟨roundTo p (Real.sin a.v)⟩
  cos a := ⟨roundTo p (Real.cos a.v)⟩
  asin a := ⟨roundTo p (Real.arcsin a.v)⟩
  acos a := ⟨roundTo p (Real.arccos a.v)⟩
  atan a := ⟨roundTo p (Real.arctan a.v)⟩
  exp a := ⟨roundTo p (Real.exp a.v)⟩
  log a := ⟨roundTo p (Real.log a.v)⟩
  le a b := decide (a.v ≤ b.v)
  lt a b := decide (a.v < b.v)
  eq a b := decide (a.v = b.v)
  rint a := some (rintR a.v)
  trunc a := some (truncR a.v)

/-- Its reading as real numbers. -/
noncomputable def rndView (p : ℕ) : FloatView (Rnd p) where
  val := fun a => a.v
  fin := fun _ => True
  u := (1 / 2) ^ p
  eta := 0
  tiny := 0
  huge := 2 ^ 1023

theorem rndLaws (p : ℕ) : FloatLaws (rndView p) where
  u_nonneg := by show (0 : ℝ) ≤ (1 / 2) ^ p; positivity
  eta_nonneg := le_rfl
  tiny_le := zero_le_one
  huge_ge := by
    show (1000 : ℝ) ≤ 2 ^ 1023
    have h1 : (2 : ℝ) ^ 10 ≤ 2 ^ 1023 := pow_le_pow_right₀ (by norm_num) (by norm_num)
    have h2 : (1000 : ℝ) ≤ 2 ^ 10 := by norm_num
    exact h2.trans h1
  mul_fin := fun _ _ _ _ _ => trivial
  zero := ⟨trivial, by show ((0 : ℚ) : ℝ) = 0; simp⟩
  small := fun n _ => ⟨trivial, by show (((n : ℕ) : ℚ) : ℝ) = n; simp⟩
  pi := ⟨trivial, roundTo_err p Real.pi⟩
  add := fun _ _ _ => ⟨trivial, trivial, roundTo_err p _⟩
  sub := fun _ _ _ => ⟨trivial, trivial, roundTo_err p _⟩
  mul := fun a b _ => ⟨trivial, trivial, by
    rw [show (rndView p).eta = 0 from rfl, add_zero]; exact roundTo_err p (a.v * b.v),
    fun _ => roundTo_err p (a.v * b.v)⟩
  div := fun a b _ => ⟨trivial, fun _ _ => ⟨by
    rw [show (rndView p).eta = 0 from rfl, add_zero]; exact roundTo_err p (a.v / b.v),
    fun _ => roundTo_err p (a.v / b.v)⟩⟩
  neg := fun _ => ⟨Iff.rfl, fun _ => rfl⟩
  add_fin := fun _ _ _ _ _ => trivial
  div_fin := fun _ _ _ _ _ _ => trivial
  sqrt := fun a _ => ⟨trivial, by
    have := roundTo_err p (Real.sqrt a.v)
    rwa [abs_of_nonneg (Real.sqrt_nonneg a.v)] at this⟩
  le := fun a b _ _ => by
    show decide (a.v ≤ b.v) = true ↔ a.v ≤ b.v
    simp
  lt := fun a b _ _ => by
    show decide (a.v < b.v) = true ↔ a.v < b.v
    simp
  rint := fun a i h => ⟨trivial, by
    have : some (rintR a.v) = some i := h
    simpa [rndView] using this.symm⟩
  trunc := fun a i h => ⟨trivial, by
    have : some (truncR a.v) = some i := h
    simpa [rndView] using this.symm⟩

/-- Integers of at most `p` digits are not changed. -/
theorem roundTo_nat (p n : ℕ) (hn : n < 2 ^ p) : roundTo p n = n := by
  unfold roundTo
  by_cases h0 : n = 0
  · subst h0
    simp only [Nat.cast_zero, zero_div, zero_add]
    rw [show ⌊(1 : ℝ) / 2⌋ = 0 by rw [Int.floor_eq_zero_iff]; norm_num]
    simp
  · have hpos : (0 : ℝ) < n := by exact_mod_cast Nat.pos_of_ne_zero h0
    rw [abs_of_pos hpos, Int.log_natCast]
    have hl : Nat.log 2 n + 1 ≤ p := by
      have := Nat.log_lt_of_lt_pow h0 hn
      omega
    obtain ⟨m, hm⟩ := Nat.exists_eq_add_of_le hl
    have e : (2 : ℝ) ^ ((Nat.log 2 n : ℤ) + 1 - (p : ℤ)) = ((2 : ℝ) ^ m)⁻¹ := by
      rw [← zpow_natCast, ← zpow_neg]
      congr 1
      omega
    rw [e, div_inv_eq_mul]
    have f : ⌊(n : ℝ) * 2 ^ m + 1 / 2⌋ = ((n * 2 ^ m : ℕ) : ℤ) := by
      rw [Int.floor_eq_iff]
      push_cast
      constructor <;> linarith
    rw [f]
    push_cast
    field_simp

end Dream
