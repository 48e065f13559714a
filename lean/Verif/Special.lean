import Verif.RealArith
import Verif.Arr

/-
Special values of IEEE 754 arithmetic: NaN and infinities.

This is a specification, not a model of code of the repository: `IeeeLaws` says what IEEE 754 guarantees
about the special values of the arithmetic the code uses; `XReal` is an arithmetic that obeys it.
-/

namespace Dream
open Arith

/-- `nan`: is a NaN; `bad`: is a NaN or infinite.  A NaN operand gives a NaN, comparisons with NaN are
false, the root of a negative number is NaN; an operand that is not finite gives a result that is not
finite (except in a denominator); the quotient by zero is not finite; `std::rint` of such a value and its
integer part are no integers; the sign does not matter in a square. -/
structure IeeeLaws {F : Type} [Arith F] (nan bad : F → Prop) : Prop where
  nan_bad : ∀ a, nan a → bad a
  add_nan : ∀ a b, nan a ∨ nan b → nan (a +. b)
  sub_nan : ∀ a b, nan a ∨ nan b → nan (a -. b)
  mul_nan : ∀ a b, nan a ∨ nan b → nan (a *. b)
  div_nan : ∀ a b, nan a ∨ nan b → nan (a /. b)
  neg_nan : ∀ a, nan a → nan (Arith.neg a)
  abs_nan : ∀ a, nan a → nan (Arith.abs a)
  sqrt_nan : ∀ a, nan a → nan (Arith.sqrt a)
  asin_nan : ∀ a, nan a → nan (Arith.asin a)
  atan_nan : ∀ a, nan a → nan (Arith.atan a)
  le_nan : ∀ a b, nan a ∨ nan b → Arith.le a b = false
  lt_nan : ∀ a b, nan a ∨ nan b → Arith.lt a b = false
  sqrt_neg : ∀ a, Arith.lt a (lit 0) = true → nan (Arith.sqrt a)
  add_bad : ∀ a b, bad a ∨ bad b → bad (a +. b)
  sub_bad : ∀ a b, bad a ∨ bad b → bad (a -. b)
  mul_bad : ∀ a b, bad a ∨ bad b → bad (a *. b)
  div_bad : ∀ a b, bad a → bad (a /. b)
  div_zero : ∀ a, bad (a /. lit 0)
  sqrt_bad : ∀ a, bad a → bad (Arith.sqrt a)
  neg_bad : ∀ a, bad a → bad (Arith.neg a)
  neg_sq : ∀ a : F, Arith.neg a *. Arith.neg a = a *. a
  rint_bad : ∀ a, bad a → Arith.rint a = none
  trunc_bad : ∀ a, bad a → Arith.trunc a = none

/-! ### An arithmetic with NaN and infinities -/

/-- Real numbers, two infinities (`true`: the negative one) and NaN. -/
inductive XReal
  | num (x : ℝ)
  | inf (s : Bool)
  | nan

namespace XReal
open Classical in
/-- Sum: infinities of different sign cancel to NaN. -/
noncomputable def add : XReal → XReal → XReal
  | .num x, .num y => .num (x + y)
  | .inf s, .inf t => if s = t then .inf s else .nan
  | .inf s, .num _ => .inf s
  | .num _, .inf s => .inf s
  | _, _ => .nan

/-- Negation. -/
noncomputable def neg : XReal → XReal
  | .num x => .num (-x)
  | .inf s => .inf (!s)
  | .nan => .nan

open Classical in
/-- Product: infinity times zero is NaN. -/
noncomputable def mul : XReal → XReal → XReal
  | .num x, .num y => .num (x * y)
  | .inf s, .inf t => .inf (xor s t)
  | .inf s, .num x => if x = 0 then .nan else .inf (xor s (decide (x < 0)))
  | .num x, .inf s => if x = 0 then .nan else .inf (xor s (decide (x < 0)))
  | _, _ => .nan

open Classical in
/-- Quotient. -/
noncomputable def div : XReal → XReal → XReal
  | .num x, .num y =>
    if y = 0 then (if x = 0 then .nan else .inf (decide (x < 0))) else .num (x / y)
  | .inf _, .inf _ => .nan
  | .inf s, .num x => .inf (xor s (decide (x < 0)))
  | .num _, .inf _ => .num 0
  | _, _ => .nan

open Classical in
/-- A function defined on the numbers with property `D`, with given values at the infinities. -/
noncomputable def lift (f : ℝ → ℝ) (D : ℝ → Prop) (neginf posinf : XReal) : XReal → XReal
  | .num x => if D x then .num (f x) else .nan
  | .inf true => neginf
  | .inf false => posinf
  | .nan => .nan

open Classical in
/-- Order: NaN is not comparable. -/
noncomputable def le : XReal → XReal → Bool
  | .num x, .num y => decide (x ≤ y)
  | .inf true, .num _ => true
  | .inf true, .inf _ => true
  | .inf false, .inf false => true
  | .num _, .inf false => true
  | _, _ => false

open Classical in
/-- Strict order. -/
noncomputable def lt : XReal → XReal → Bool
  | .num x, .num y => decide (x < y)
  | .inf true, .num _ => true
  | .inf true, .inf false => true
  | .num _, .inf false => true
  | _, _ => false

/-- NaN. -/
def isNan : XReal → Prop
  | .nan => True
  | _ => False

/-- NaN or infinite. -/
def isBad : XReal → Prop
  | .num _ => False
  | _ => True

end XReal

noncomputable instance xrealArith : Arith XReal where
  lit q := .num (q : ℝ)
  ofInt n := .num (n : ℝ)
  pi := .num Real.pi
  add := XReal.add
  sub a b := XReal.add a (XReal.neg b)
  mul := XReal.mul
  div := XReal.div
  neg := XReal.neg
  sqrt := XReal.lift Real.sqrt (fun x => 0 ≤ x) .nan (.inf false)
  abs := XReal.lift (fun x => |x|) (fun _ => True) (.inf false) (.inf false)
  sin := XReal.lift Real.sin (fun _ => True) .nan .nan
  cos := XReal.lift Real.cos (fun _ => True) .nan .nan
  asin := XReal.lift Real.arcsin (fun x => |x| ≤ 1) .nan .nan
  acos := XReal.lift Real.arccos (fun x => |x| ≤ 1) .nan .nan
  atan := XReal.lift Real.arctan (fun _ => True) (.num (-(Real.pi / 2))) (.num (Real.pi / 2))
  exp := XReal.lift Real.exp (fun _ => True) (.num 0) (.inf false)
  log := XReal.lift Real.log (fun x => 0 < x) .nan (.inf false)
  le := XReal.le
  lt := XReal.lt
  eq a b := XReal.le a b && XReal.le b a
  rint
    | .num x => some (rintR x)
    | _ => none
  trunc
    | .num x => some (truncR x)
    | _ => none

/-- The arithmetic `XReal` obeys the laws. -/
theorem xrealLaws : IeeeLaws XReal.isNan XReal.isBad where
  nan_bad a h := by cases a <;> simp_all [XReal.isNan, XReal.isBad]
  add_nan a b h := by
    rcases h with h | h <;> cases a <;> cases b <;> simp_all [XReal.isNan, Arith.add, XReal.add]
  sub_nan a b h := by
    rcases h with h | h <;> cases a <;> cases b <;>
      simp_all [XReal.isNan, Arith.sub, XReal.add, XReal.neg]
  mul_nan a b h := by
    rcases h with h | h <;> cases a <;> cases b <;> simp_all [XReal.isNan, Arith.mul, XReal.mul]
  div_nan a b h := by
    rcases h with h | h <;> cases a <;> cases b <;> simp_all [XReal.isNan, Arith.div, XReal.div]
  neg_nan a h := by cases a <;> simp_all [XReal.isNan, Arith.neg, XReal.neg]
  abs_nan a h := by cases a <;> simp_all [XReal.isNan, Arith.abs, XReal.lift]
  sqrt_nan a h := by cases a <;> simp_all [XReal.isNan, Arith.sqrt, XReal.lift]
  asin_nan a h := by cases a <;> simp_all [XReal.isNan, Arith.asin, XReal.lift]
  atan_nan a h := by cases a <;> simp_all [XReal.isNan, Arith.atan, XReal.lift]
  le_nan a b h := by
    rcases h with h | h <;> cases a <;> cases b <;> simp_all [XReal.isNan, Arith.le, XReal.le]
    all_goals (rename_i s; cases s <;> rfl)
  lt_nan a b h := by
    rcases h with h | h <;> cases a <;> cases b <;> simp_all [XReal.isNan, Arith.lt, XReal.lt]
    all_goals (rename_i s; cases s <;> rfl)
  sqrt_neg a h := by
    cases a with
    | num x =>
      have : x < 0 := by simpa [Arith.lt, Arith.lit, XReal.lt] using h
      simp [Arith.sqrt, XReal.lift, XReal.isNan, not_le.mpr this]
    | inf s =>
      cases s
      · simp [Arith.lt, Arith.lit, XReal.lt] at h
      · simp [Arith.sqrt, XReal.lift, XReal.isNan]
    | nan => simp [Arith.sqrt, XReal.lift, XReal.isNan]
  add_bad a b h := by
    rcases h with h | h <;> cases a <;> cases b <;>
      simp_all [XReal.isBad, Arith.add, XReal.add]
    all_goals (split <;> first | trivial | (rename_i h; split at h <;> simp at h))
  sub_bad a b h := by
    rcases h with h | h <;> cases a <;> cases b <;>
      simp_all [XReal.isBad, Arith.sub, XReal.add, XReal.neg]
    all_goals (split <;> first | trivial | (rename_i h; split at h <;> simp at h))
  mul_bad a b h := by
    rcases h with h | h <;> cases a <;> cases b <;>
      simp_all [XReal.isBad, Arith.mul, XReal.mul]
    all_goals (split <;> first | trivial | (rename_i h; split at h <;> simp at h))
  div_bad a b h := by
    cases a <;> cases b <;> simp_all [XReal.isBad, Arith.div, XReal.div]
  div_zero a := by
    cases a <;> simp [XReal.isBad, Arith.div, Arith.lit, XReal.div]
    split <;> first | trivial | (rename_i h; split at h <;> simp at h)
  sqrt_bad a h := by
    cases a with
    | num x => exact h.elim
    | inf s => cases s <;> simp [Arith.sqrt, XReal.lift, XReal.isBad]
    | nan => simp [Arith.sqrt, XReal.lift, XReal.isBad]
  neg_bad a h := by cases a <;> simp_all [XReal.isBad, Arith.neg, XReal.neg]
  neg_sq a := by
    cases a with
    | num x => simp [Arith.neg, Arith.mul, XReal.neg, XReal.mul]
    | inf s => simp [Arith.neg, Arith.mul, XReal.neg, XReal.mul]
    | nan => rfl
  rint_bad a h := by cases a <;> simp_all [XReal.isBad, Arith.rint]
  trunc_bad a h := by cases a <;> simp_all [XReal.isBad, Arith.trunc]

end Dream
