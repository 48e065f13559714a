import Verif.Arr

/-
The MATLAB/Octave scripts of m_files: `arr_focus_delays` and `h2o_soundspeed`.
-/

namespace Dream
open Arith

variable {F : Type} [Arith F]

/-! ### arr_focus_delays -/

/-- `norm([xp(l) zp(l)]' - [gx(l) 0]')` with `xp = foc*tan(ang*pi/180)` and `zp = foc`,
m_files/arr_focus_delays.m 17-18, 22, 30.  Simplifications: the tangent is written as a quotient, and
`norm` of a vector of two as the square root of the sum of squares (LAPACK scales). -/
def focNorm (foc ang x : F) : F :=
  let t := ang *. pi /. lit 180
  let xp := foc *. (sin t /. cos t)
  sqrt ((xp -. x) *. (xp -. x) +. (foc -. lit 0) *. (foc -. lit 0))

/-- `for l=1:L, if r(l) > m, m = r(l); end, end`, m_files/arr_focus_delays.m 20-26 (and `max`, 35):
the value of `m` after `k` passes. -/
def runMax (r : Nat → F) (c : F) : Nat → F
  | 0 => c
  | k + 1 => if lt (runMax r c k) (r k) then r k else runMax r c k

/-- `arr_focus_delays`, m_files/arr_focus_delays.m 15-39.  The vectors are functions of the (zero
based) element number; `L` is the number of elements. -/
def arrFocusDelays (L : Nat) (gx : Nat → F) (cp foc ang : F) : Nat → F :=
  let r := fun n => focNorm foc ang (gx n)
  let rMax := runMax r (lit 0) L
  let d := fun n => (rMax -. r n) *. lit 1000 /. cp
  if lt foc (lit 0) then fun n => abs (d n -. runMax d (d 0) L) else d

/-! ### h2o_soundspeed -/

/-- The pressure units, m_files/h2o_soundspeed.m 37-60. -/
inductive PressureUnit
  | pa | bar | at | atm | mmHg | psi
  deriving DecidableEq, Repr

/-- `switch lower(unit)`, m_files/h2o_soundspeed.m 37-60; anything else counts as Pascal. -/
def PressureUnit.ofText (s : List Char) : PressureUnit :=
  let s := s.map Char.toLower
  if s = ['p', 'a'] then .pa
  else if s = ['b', 'a', 'r'] then .bar
  else if s = ['a', 't'] then .at
  else if s = ['a', 't', 'm'] then .atm
  else if s = ['m', 'm', 'h', 'g'] then .mmHg
  else if s = ['p', 's', 'i'] then .psi
  else .pa

/-- Technical atmospheres per unit, m_files/h2o_soundspeed.m 40, 43, 46, 49, 52, 55. -/
def PressureUnit.factor : PressureUnit → F
  | .pa => lit (10197 / 1000000000)
  | .bar => lit (10197 / 10000)
  | .at => lit 1
  | .atm => lit (10332 / 10000)
  | .mmHg => lit (13595 / 10000000)
  | .psi => lit (70307 / 1000000)

/-- The polynomial of m_files/h2o_soundspeed.m 67-91, term by term and as written there: line 86 reads
`- 0.161674495909-8  .* S.^2 .* P.^2`. -/
def h2oPoly (T P S : F) : F :=
  let dT := lit (501109398873 / 100000000000) *. T
    -. lit (550946843172 / 10000000000000) *. (T *. T)
    +. lit (221535969240 / 1000000000000000) *. (T *. T *. T)
  let dS := lit (132952290781 / 100000000000) *. S
    +. lit (128955756844 / 1000000000000000) *. (S *. S *. S)
  let dP := lit (156059257041 / 1000000000000) *. P
    +. lit (244998688441 / 10000000000000000) *. (P *. P)
    -. lit (883392332513 / 100000000000000000000) *. (P *. P *. P)
  let dSTP := neg (lit (127562783426 / 10000000000000)) *. T *. S
    +. lit (635191613389 / 100000000000000) *. T *. P
    +. lit (265484716608 / 10000000000000000000) *. (T *. T) *. (P *. P)
    -. lit (159349479045 / 100000000000000000) *. T *. (P *. P *. P)
    +. lit (522116437235 / 1000000000000000000000) *. T *. (P *. P *. P)
    -. lit (438031096213 / 1000000000000000000) *. (T *. T *. T) *. P
    -. lit (161674495909 / 1000000000000)
    -. lit 8 *. (S *. S) *. (P *. P)
    +. lit (968403156410 / 10000000000000000) *. (T *. T) *. S
    +. lit (485639620015 / 100000000000000000) *. T *. (S *. S) *. P
    -. lit (340597039004 / 1000000000000000) *. T *. S *. P
  lit (1402392 / 1000) +. dT +. dS +. dP +. dSTP

/-- `h2o_soundspeed(T,P,unit,S)` for numbers, m_files/h2o_soundspeed.m 23-92; arguments that are left
out are `none`. -/
def h2oSoundspeed (T : F) (P : Option F) (unit : Option (List Char)) (S : Option F) : F :=
  let S := S.getD (lit 0)
  let u := PressureUnit.ofText (unit.getD ['P', 'a'])
  let P := P.getD (lit 101325)
  h2oPoly T (P *. u.factor) S

end Dream
