import Verif.KernelCol
import Mathlib.Analysis.SpecialFunctions.Trigonometric.Basic
import Mathlib.Analysis.SpecialFunctions.Trigonometric.Inverse
import Mathlib.Analysis.SpecialFunctions.Trigonometric.Arctan
import Mathlib.Analysis.SpecialFunctions.Log.Basic
import Mathlib.Algebra.Order.Floor.Ring
import Mathlib.Algebra.Order.Floor.Semiring
import Mathlib.Tactic.Linarith
import Mathlib.Tactic.Ring
import Mathlib.Tactic.FieldSimp
import Mathlib.Tactic.Positivity

/-
Exact real arithmetic as an instance of `Arith`.
-/

namespace Dream
open Arith

/-- `std::rint` in the default rounding mode: to nearest, ties to even. -/
noncomputable def rintR (x : ℝ) : ℤ :=
  if x - ⌊x⌋ < 1 / 2 then ⌊x⌋
  else if x - ⌊x⌋ > 1 / 2 then ⌊x⌋ + 1
  else if Even ⌊x⌋ then ⌊x⌋ else ⌊x⌋ + 1

/-- Conversion of a floating point number to an integer type: towards zero. -/
noncomputable def truncR (x : ℝ) : ℤ := if 0 ≤ x then ⌊x⌋ else ⌈x⌉

open Classical in
/-- Exact real arithmetic. -/
noncomputable instance realArith : Arith ℝ where
  lit q := (q : ℝ)
  ofInt i := (i : ℝ)
  pi := Real.pi
  add := (· + ·)
  sub := (· - ·)
  mul := (· * ·)
  div := (· / ·)
  neg := fun x => -x
  sqrt := Real.sqrt
  abs := fun x => |x|
  sin := Real.sin
  cos := Real.cos
  asin := Real.arcsin
  acos := Real.arccos
  atan := Real.arctan
  exp := Real.exp
  log := Real.log
  le a b := decide (a ≤ b)
  lt a b := decide (a < b)
  eq a b := decide (a = b)
  rint x := some (rintR x)
  trunc x := some (truncR x)

section simps
variable (a b : ℝ)
@[simp] theorem r_lit (q : ℚ) : (lit q : ℝ) = (q : ℝ) := rfl
@[simp] theorem r_add : Arith.add a b = a + b := rfl
@[simp] theorem r_sub : Arith.sub a b = a - b := rfl
@[simp] theorem r_mul : Arith.mul a b = a * b := rfl
@[simp] theorem r_div : Arith.div a b = a / b := rfl
@[simp] theorem r_neg : Arith.neg a = -a := rfl
@[simp] theorem r_sqrt : Arith.sqrt a = Real.sqrt a := rfl
@[simp] theorem r_abs : Arith.abs a = |a| := rfl
@[simp] theorem r_sin : Arith.sin a = Real.sin a := rfl
@[simp] theorem r_cos : Arith.cos a = Real.cos a := rfl
@[simp] theorem r_asin : Arith.asin a = Real.arcsin a := rfl
@[simp] theorem r_acos : Arith.acos a = Real.arccos a := rfl
@[simp] theorem r_atan : Arith.atan a = Real.arctan a := rfl
@[simp] theorem r_exp : Arith.exp a = Real.exp a := rfl
@[simp] theorem r_log : Arith.log a = Real.log a := rfl
@[simp] theorem r_pi : (Arith.pi : ℝ) = Real.pi := rfl
@[simp] theorem r_ofInt (i : ℤ) : (Arith.ofInt i : ℝ) = (i : ℝ) := rfl
@[simp] theorem r_le : (Arith.le a b = true) ↔ a ≤ b := by simp [Arith.le]
@[simp] theorem r_lt : (Arith.lt a b = true) ↔ a < b := by simp [Arith.lt]
@[simp] theorem r_eq : (Arith.eq a b = true) ↔ a = b := by simp [Arith.eq]
@[simp] theorem r_rint : Arith.rint a = some (rintR a) := rfl
@[simp] theorem r_trunc : Arith.trunc a = some (truncR a) := rfl
end simps

/-! ### Rounding -/

/-- `rintR` is within one half. -/
theorem rintR_near (x : ℝ) : |x - rintR x| ≤ 1 / 2 := by
  have h0 := Int.floor_le x
  have h1 := Int.lt_floor_add_one x
  unfold rintR
  split
  · rw [abs_le]; constructor <;> linarith
  · split
    · push_cast; rw [abs_le]; constructor <;> linarith
    · split
      · rw [abs_le]; constructor <;> linarith
      · push_cast; rw [abs_le]; constructor <;> linarith

/-- Rounding commutes with even integer shifts. -/
theorem rintR_sub_even (x : ℝ) (k : ℤ) (hk : Even k) : rintR (x - k) = rintR x - k := by
  unfold rintR
  rw [Int.floor_sub_intCast]
  push_cast
  have h1 : x - (k : ℝ) - ((⌊x⌋ : ℝ) - k) = x - ⌊x⌋ := by ring
  rw [h1]
  have h2 : Even (⌊x⌋ - k) ↔ Even ⌊x⌋ := by
    rw [Int.even_sub]; simp [hk]
  simp only [h2]
  split_ifs <;> ring

theorem rintR_intCast (k : ℤ) : rintR (k : ℝ) = k := by
  unfold rintR
  rw [Int.floor_intCast]
  simp

/-- Away from ties, rounding commutes with every integer shift. -/
theorem rintR_sub_int (x : ℝ) (k : ℤ) (hx : x - ⌊x⌋ ≠ 1 / 2) : rintR (x - k) = rintR x - k := by
  unfold rintR
  rw [Int.floor_sub_intCast]
  push_cast
  have h1 : x - (k : ℝ) - ((⌊x⌋ : ℝ) - k) = x - ⌊x⌋ := by ring
  rw [h1]
  split_ifs with h2 h3 h4 h5
  · rfl
  · ring
  all_goals first | rfl | (exfalso; apply hx; linarith)

/-! ### Loops in exact arithmetic -/

/-- Number of passes of `while (x <= xmax) { ...; x += dx; }` starting at `x0`. -/
noncomputable def passes (dx xmax x0 : ℝ) : ℕ := ⌊(xmax - x0) / dx + 1⌋₊

theorem passes_pos_iff {dx xmax x0 : ℝ} (hdx : 0 < dx) : 0 < passes dx xmax x0 ↔ x0 ≤ xmax := by
  unfold passes
  rw [Nat.floor_pos]
  constructor
  · intro h
    have : 0 ≤ (xmax - x0) / dx := by linarith
    rw [le_div_iff₀ hdx] at this
    linarith
  · intro h
    have : 0 ≤ (xmax - x0) / dx := div_nonneg (by linarith) hdx.le
    linarith

theorem passes_succ {dx xmax x0 : ℝ} (hdx : 0 < dx) (h : x0 ≤ xmax) :
    passes dx xmax x0 = passes dx xmax (x0 + dx) + 1 := by
  unfold passes
  have h1 : (xmax - (x0 + dx)) / dx = (xmax - x0) / dx - 1 := by field_simp; ring
  rw [h1]
  have h2 : 0 ≤ (xmax - x0) / dx := div_nonneg (by linarith) hdx.le
  have h3 : (xmax - x0) / dx - 1 + 1 = (xmax - x0) / dx := by ring
  rw [h3]
  rw [Nat.floor_add_one h2]

/-- The loop visits `x0, x0+dx, x0+2dx, ...` and ends. -/
theorem visits_real {dx : ℝ} (hdx : 0 < dx) (xmax : ℝ) (fuel : ℕ) (x0 : ℝ)
    (hf : passes dx xmax x0 < fuel) :
    visits dx xmax fuel x0 =
      some ((List.range (passes dx xmax x0)).map (fun j : ℕ => x0 + (j : ℝ) * dx)) := by
  induction fuel generalizing x0 with
  | zero => omega
  | succ n ih =>
    unfold visits
    by_cases h : x0 ≤ xmax
    · rw [if_pos (by simpa using h)]
      have hs := passes_succ hdx h
      rw [r_add, ih (x0 + dx) (by omega)]
      rw [hs, List.range_succ_eq_map, List.map_cons, List.map_map]
      simp only [Option.map_some, Option.some.injEq, List.cons.injEq]
      refine ⟨by simp, ?_⟩
      apply List.map_congr_left
      intro j _
      simp only [Function.comp_apply, Nat.succ_eq_add_one]
      push_cast; ring
    · rw [if_neg (by simpa using h)]
      have : passes dx xmax x0 = 0 := by
        by_contra hp
        exact h ((passes_pos_iff hdx).mp (Nat.pos_of_ne_zero hp))
      rw [this]; rfl

/-- With too little fuel the loop has not ended (so `passes` is exact). -/
theorem visits_real_none {dx : ℝ} (hdx : 0 < dx) (xmax : ℝ) (fuel : ℕ) (x0 : ℝ)
    (hf : fuel ≤ passes dx xmax x0) : visits dx xmax fuel x0 = none := by
  induction fuel generalizing x0 with
  | zero => rfl
  | succ n ih =>
    unfold visits
    have h : x0 ≤ xmax := (passes_pos_iff hdx).mp (by omega)
    rw [if_pos (by simpa using h), r_add]
    have hs := passes_succ hdx h
    rw [ih (x0 + dx) (by omega)]; rfl

/-- With step zero the loop never ends. -/
theorem visits_zero {xmax x0 : ℝ} (h : x0 ≤ xmax) (fuel : ℕ) : visits 0 xmax fuel x0 = none := by
  induction fuel with
  | zero => rfl
  | succ n ih =>
    unfold visits
    rw [if_pos (by simpa using h)]
    have : (x0 +. 0 : ℝ) = x0 := by simp
    rw [this, ih]; rfl

/-- Number of grid points across an aperture of width `a`. -/
theorem passes_aperture {a dx : ℝ} (hdx : 0 < dx) :
    passes dx (a / 2) (-a / 2 + dx / 2) = ⌊a / dx + 1 / 2⌋₊ := by
  unfold passes
  congr 1
  field_simp; ring

/-- Points of a row with positive step. -/
theorem Row.points_real (row : Row ℝ) {dx : ℝ} (hdx : 0 < dx) (fuel : ℕ)
    (hf : passes dx row.xmax row.x0 < fuel) :
    row.points dx fuel =
      some ((List.range (passes dx row.xmax row.x0)).map
        (fun j : ℕ => row.pt (row.x0 + (j : ℝ) * dx))) := by
  simp only [Row.points, visits_real hdx _ _ _ hf, Option.map_some, List.map_map]
  rfl

theorem rowsPoints_real (row : ℝ → Row ℝ) {dx : ℝ} (hdx : 0 < dx) (fuel : ℕ) (ys : List ℝ)
    (hf : ∀ y ∈ ys, passes dx (row y).xmax (row y).x0 < fuel) :
    rowsPoints row dx fuel ys =
      some (ys.flatMap fun y => (List.range (passes dx (row y).xmax (row y).x0)).map
        (fun j : ℕ => (row y).pt ((row y).x0 + (j : ℝ) * dx))) := by
  induction ys with
  | nil => rfl
  | cons y ys ih =>
    simp only [rowsPoints]
    rw [Row.points_real _ hdx fuel (hf y (by simp)), ih (fun z hz => hf z (by simp [hz]))]
    rfl

/-- Points of a sweep with positive steps. -/
theorem Sweep.points_real (g : Sweep ℝ) (hdx : 0 < g.dx) (hdy : 0 < g.dy) (fuel : ℕ)
    (hfy : passes g.dy g.ymax g.y0 < fuel)
    (hfx : ∀ q < passes g.dy g.ymax g.y0,
      passes g.dx (g.row (g.y0 + (q : ℝ) * g.dy)).xmax (g.row (g.y0 + (q : ℝ) * g.dy)).x0 < fuel) :
    g.points fuel =
      some ((List.range (passes g.dy g.ymax g.y0)).flatMap fun q : ℕ =>
        (List.range (passes g.dx (g.row (g.y0 + (q : ℝ) * g.dy)).xmax
          (g.row (g.y0 + (q : ℝ) * g.dy)).x0)).map
        (fun j : ℕ => (g.row (g.y0 + (q : ℝ) * g.dy)).pt
          ((g.row (g.y0 + (q : ℝ) * g.dy)).x0 + (j : ℝ) * g.dx))) := by
  simp only [Sweep.points, visits_real hdy _ _ _ hfy, Option.bind_some]
  rw [rowsPoints_real g.row hdx fuel]
  · rw [List.flatMap_map]
  · intro y hy
    rw [List.mem_map] at hy
    obtain ⟨q, hq, rfl⟩ := hy
    exact hfx q (List.mem_range.mp hq)

end Dream
