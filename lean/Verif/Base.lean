/-
Common vocabulary of the model: enums of include/dream.h, outcomes, uninterpreted
arithmetic, buffers with explicit bounds.
-/

namespace Dream

/-! ### Enums (include/dream.h 41-107) -/

/-- include/dream.h 41-46 -/
inductive SIRError
  | none | ignoreOutOfBounds | warnOutOfBounds | outOfBounds
  deriving DecidableEq, Repr

/-- include/dream.h 48-54 -/
inductive ErrorLevel
  | none | ignore | warn | stop | parallelStop
  deriving DecidableEq, Repr

/-- include/dream.h 56-59 -/
inductive DelayType
  | single | multiple
  deriving DecidableEq, Repr

/-- include/dream.h 61-70 -/
inductive FocusMet
  | none | x | negx | y | negy | xy | x_y | ud
  deriving DecidableEq, Repr

/-- include/dream.h 72-77 -/
inductive SteerMet
  | none | x | y | xy
  deriving DecidableEq, Repr

/-- include/dream.h 79-88 -/
inductive ApodMet
  | triangle | gauss | raisedCosine | hann | hamming | simplySupported | clamped | ud
  deriving DecidableEq, Repr

/-- include/dream.h 90-94 -/
inductive ConvMode
  | equ | sum | neg
  deriving DecidableEq, Repr

/-- include/dream.h 96-101 -/
inductive DASType
  | saft | tfm | rcaColtx | rcaRowtx
  deriving DecidableEq, Repr

/-- `dream_out_of_bounds_err`, src/dream_error.cc 40-75.  The printed message is not
modelled (only the returned code). -/
def oobErr : ErrorLevel → SIRError
  | .ignore => .ignoreOutOfBounds
  | .warn => .warnOutOfBounds
  | .stop => .outOfBounds
  | .parallelStop => .outOfBounds
  | .none => .none

/-! ### Outcomes -/

/-- Reasons for undefined behaviour that the model distinguishes. -/
inductive UB
  | oob      -- access outside a buffer
  | cast     -- float to integer conversion of a value that is not representable
  | null     -- null pointer dereference
  deriving DecidableEq, Repr

/-- Result of running a piece of code: a value, undefined behaviour, or "still running
when the fuel was used up". -/
inductive Outcome (α : Type) : Type
  | ok (a : α) : Outcome α
  | ub (e : UB) : Outcome α
  | fuel : Outcome α
  deriving DecidableEq, Repr

namespace Outcome

@[simp] def bind {α β : Type} (x : Outcome α) (f : α → Outcome β) : Outcome β :=
  match x with
  | .ok a => f a
  | .ub e => .ub e
  | .fuel => .fuel

@[simp] def map {α β : Type} (f : α → β) (x : Outcome α) : Outcome β :=
  match x with
  | .ok a => .ok (f a)
  | .ub e => .ub e
  | .fuel => .fuel

instance : Monad Outcome where
  pure := Outcome.ok
  bind := Outcome.bind

@[simp] theorem pure_eq {α : Type} (a : α) : (pure a : Outcome α) = .ok a := rfl
@[simp] theorem bind_ok {α β : Type} (a : α) (f : α → Outcome β) : (Outcome.ok a >>= f) = f a := rfl
@[simp] theorem bind_ub {α β : Type} (e : UB) (f : α → Outcome β) :
    ((Outcome.ub e : Outcome α) >>= f) = .ub e := rfl
@[simp] theorem bind_fuel {α β : Type} (f : α → Outcome β) :
    ((Outcome.fuel : Outcome α) >>= f) = .fuel := rfl

theorem bind_eq_ok {α β : Type} {x : Outcome α} {f : α → Outcome β} {b : β} :
    (x >>= f) = .ok b ↔ ∃ a, x = .ok a ∧ f a = .ok b := by
  cases x <;> simp [Bind.bind]

theorem map_eq_ok {α β : Type} {x : Outcome α} {f : α → β} {b : β} :
    x.map f = .ok b ↔ ∃ a, x = .ok a ∧ f a = b := by
  cases x <;> simp

theorem map_map {α β γ : Type} (x : Outcome α) (f : α → β) (g : β → γ) :
    (x.map f).map g = x.map (g ∘ f) := by
  cases x <;> rfl

/-- `x` is undefined behaviour. -/
def isUB {α : Type} : Outcome α → Prop
  | .ub _ => True
  | _ => False

/-- `x` is an access outside a buffer. -/
def isOOB {α : Type} (x : Outcome α) : Prop := x = .ub .oob

end Outcome

/-! ### Uninterpreted arithmetic

`Arith F` has operations and **no laws**.  A theorem for all `[Arith F]` holds for IEEE
`double` and `float` (with NaN and infinities) and for the exact reals alike. -/

class Arith (F : Type) where
  lit : Rat → F              -- decimal literals of the source text
  ofInt : Int → F            -- (double) n
  pi : F                     -- M_PI
  add : F → F → F
  sub : F → F → F
  mul : F → F → F
  div : F → F → F
  neg : F → F
  sqrt : F → F
  abs : F → F
  sin : F → F
  cos : F → F
  asin : F → F
  acos : F → F
  atan : F → F
  exp : F → F
  log : F → F
  le : F → F → Bool
  lt : F → F → Bool
  eq : F → F → Bool
  rint : F → Option Int      -- std::rint, `none` when the value is no integer (NaN, inf)
  trunc : F → Option Int     -- truncation towards zero, `none` for NaN, inf

namespace Arith
scoped infixl:65 " +. " => Arith.add
scoped infixl:65 " -. " => Arith.sub
scoped infixl:70 " *. " => Arith.mul
scoped infixl:70 " /. " => Arith.div
end Arith

/-- The index type `dream_idx_type` (include/dream.h 104-136): signed (Octave, Python) or
unsigned (MATLAB, Julia, plain C++), 64 bits wide. -/
inductive IdxTy
  | signed | unsigned
  deriving DecidableEq, Repr

/-- Values representable in the index type. -/
def IdxTy.fits : IdxTy → Int → Bool
  | .signed, i => decide (-(2 : Int) ^ 63 ≤ i ∧ i < (2 : Int) ^ 63)
  | .unsigned, i => decide (0 ≤ i ∧ i < (2 : Int) ^ 64)

/-- `(dream_idx_type) x` for a floating point `x` whose integral part is given: undefined
behaviour unless the value is representable (C++ [conv.fpint]). -/
def castIdx (ty : IdxTy) : Option Int → Outcome Int
  | some i => if ty.fits i then .ok i else .ub .cast
  | none => .ub .cast

/-! ### Buffers -/

/-- A block of memory: `size` elements.  Contents outside are never observed. -/
structure Buf (F : Type) where
  size : Nat
  data : Nat → F

namespace Buf
variable {F : Type}

/-- Checked read `p[i]`. -/
def read (b : Buf F) (i : Int) : Outcome F :=
  if 0 ≤ i ∧ i < (b.size : Int) then .ok (b.data i.toNat) else .ub .oob

/-- Checked write `p[i] = x`. -/
def write (b : Buf F) (i : Int) (x : F) : Outcome (Buf F) :=
  if 0 ≤ i ∧ i < (b.size : Int) then
    .ok { b with data := fun j => if j = i.toNat then x else b.data j }
  else .ub .oob

end Buf

end Dream
