import Verif.Partition

/-
The text of the environment variable DREAM_NUM_THREADS and the number of workers chosen from it.
-/

namespace Dream

/-- `isspace` in the C locale: blank, tab, newline, vertical tab, form feed, carriage return.  Used by
`std::stoul` (through `strtoul`) to skip leading white space. -/
def isBlank (c : Char) : Bool := c = ' ' || (9 ≤ c.toNat && c.toNat ≤ 13)

/-- Result of `std::stoul(env_p)`, src/dreamrect.cc 191: throw `std::invalid_argument` (no number),
throw `std::out_of_range` (does not fit 64 bits), or a value. -/
inductive Stoul where
  | invalid
  | range
  | value (n : Nat)
deriving DecidableEq

/-- Digit loop of `strtoul` with base 10; stops at the first character that is not a digit. -/
def readDigits (acc : Nat) : List Char → Nat
  | c :: cs => if c.isDigit then readDigits (acc * 10 + (c.toNat - 48)) cs else acc
  | [] => acc

/-- `std::stoul(s)` for a 64-bit `unsigned long`: skip white space, take one optional sign, read
decimal digits, ignore what follows.  A minus sign negates modulo 2^64. -/
def stoul (s : List Char) : Stoul :=
  match s.dropWhile isBlank with
  | [] => .invalid
  | c :: r =>
    let digits := if c = '-' ∨ c = '+' then r else c :: r
    match digits with
    | [] => .invalid
    | d :: _ =>
      if d.isDigit then
        let n := readDigits 0 digits
        if 2 ^ 64 ≤ n then .range
        else .value (if c = '-' then (2 ^ 64 - n) % 2 ^ 64 else n)
      else .invalid

/-- Types of `dream_threads`, `nthreads` and the number of columns in a driver.
* `signed`: all `dream_idx_type` in Octave and Python (include/dream.h 108, 125), e.g.
  src/dreamrect.cc 187-205;
* `unsigned`: the same in MATLAB and Julia (include/dream.h 119, 130);
* `mixed`: `unsigned int dream_threads` with `size_t nthreads`, extra_src/mex_conv_p.cc 139, 228-245,
  extra_src/mex_copy_p.cc 140, 201-218;
* `u32`: all `unsigned int`, extra_src/rect_sir.cc 147, 158-175, extra_src/oct_circ_sir.cc 227,
  311-328. -/
inductive CntTy where
  | signed
  | unsigned
  | mixed
  | u32
deriving DecidableEq

/-- Conversion of the `unsigned long` to the type of `dream_threads`. -/
def CntTy.env : CntTy → Nat → Int
  | .signed, n => if n < 2 ^ 63 then n else (n : Int) - 2 ^ 64
  | .unsigned, n => n
  | .mixed, n => (n % 2 ^ 32 : Nat)
  | .u32, n => (n % 2 ^ 32 : Nat)

/-- Conversion of the number of columns in `nthreads > (unsigned int) No`. -/
def CntTy.cols : CntTy → Nat → Int
  | .u32, No => (No % 2 ^ 32 : Nat)
  | _, No => No

/-- The number of workers, src/dreamrect.cc 186-205 and the same text in all drivers; `none`: an
exception leaves the driver.  `env = none`: the variable is not set.  (extra_src/oct_scirc_sir.cc
334-343 does not look at the variable: there `env` is always `none`.) -/
def chooseThreads (t : CntTy) (hw : Nat) (env : Option String) (No : Nat) : Option Nat :=
  let rest (n : Int) : Option Nat :=
    let n := if n > t.cols No then t.cols No else n
    let n := if n < 1 then 1 else n
    some n.toNat
  match env with
  | none => rest hw
  | some s =>
    match stoul s.toList with
    | .invalid => none
    | .range => none
    | .value e => rest (if t.env e < hw then t.env e else hw)

end Dream
