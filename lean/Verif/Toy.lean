import Verif.Driver

/-
A small computable arithmetic used only to show that hypotheses of theorems can be met.
-/

namespace Dream

/-- Integer arithmetic; `sqrt` is the integer square root by search, the transcendental
functions are dummies. -/
@[reducible] def toyArith : Arith Int where
  lit q := q.num / q.den
  ofInt i := i
  pi := 3
  add := (· + ·)
  sub := (· - ·)
  mul := (· * ·)
  div := (· / ·)
  neg := fun x => -x
  sqrt x := ((List.range 50).filter (fun n => n * n ≤ x.toNat)).length - 1
  abs x := x.natAbs
  sin x := x
  cos _ := 1
  asin x := x
  acos x := x
  atan x := x
  exp _ := 1
  log _ := 0
  le a b := decide (a ≤ b)
  lt a b := decide (a < b)
  eq a b := decide (a = b)
  rint x := some x
  trunc x := some x

/-- Two observation points in front of a 2x2 rectangle, response length 12; the second point
is far away and its response is out of bounds. -/
@[reducible] def toyCall (level : ErrorLevel) : SirCall Int where
  k := .rect 1 4 4
  p := { dx := 2, dy := 2, dt := 1, delay := 0, v := 100, cp := 1000 }
  att := none
  nt := 12
  ty := .signed
  level := level
  No := 2
  Ro := { size := 6, data := fun i => [0, 0, 0, 0, 5, 40].getD i 0 }
  delayType := .single
  delay := { size := 1, data := fun _ => 0 }

/-- A zeroed output matrix. -/
@[reducible] def toyOut : Buf Int := { size := 24, data := fun _ => 0 }

end Dream
