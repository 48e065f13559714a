import Verif.Base

/-!
Specification of the error codes, written apart from the model: what a user is told about each error
level (README / user manual: "ignore", "warn", "stop").
-/

namespace Dream

/-- The code a call reports when something fell outside the output window, by error level: an ignored
error, a warning, an error (both stop levels), nothing. -/
def codeOf (l : ErrorLevel) : SIRError :=
  if l = .ignore then .ignoreOutOfBounds
  else if l = .warn then .warnOutOfBounds
  else if l = .none then .none
  else .outOfBounds

/-- `dream_out_of_bounds_err` (src/dream_error.cc 40-75) returns the specified code. -/
theorem oobErr_eq (l : ErrorLevel) : oobErr l = codeOf l := by cases l <;> rfl

end Dream
