import Verif.Model.Outcome
import Mathlib.Data.Int.Log
import Mathlib.Data.Rat.Floor
import Mathlib.Algebra.Order.Field.Rat
/-!
# IEEE-754 arithmetic

Exact model of binary32 (`float`) and binary64 (`double`) arithmetic with rounding to
nearest, ties to even, as used by `cost_matrix_from_score_matrix`
(track_matching.hpp:134-166).  Values are rationals, infinities and NaN.

Simplification: the sign of zero is not represented (it cannot influence the modelled
function, whose results are converted to `int`).  Assumption: the implementation
evaluates in the declared types (`FLT_EVAL_METHOD == 0`) in round-to-nearest mode.
-/

namespace Mot

/-- A binary floating-point format: precision (bits of the significand), exponent of
the smallest positive number, and `2 ^ emax` as the first unrepresentable power. -/
structure Fmt where
  prec : ℕ
  emin : ℤ
  emax : ℤ

/-- `float` -/
def binary32 : Fmt := ⟨24, -149, 128⟩
/-- `double` -/
def binary64 : Fmt := ⟨53, -1074, 1024⟩

/-- rounding to the nearest integer, ties to even -/
def roundHalfEven (y : ℚ) : ℤ :=
  if y - ⌊y⌋ < 1 / 2 then ⌊y⌋
  else if 1 / 2 < y - ⌊y⌋ then ⌊y⌋ + 1
  else if ⌊y⌋ % 2 = 0 then ⌊y⌋ else ⌊y⌋ + 1

namespace Fmt

/-- exponent of the unit in the last place at `x` -/
def ulpExp (f : Fmt) (x : ℚ) : ℤ := max (Int.log 2 |x| - (f.prec - 1)) f.emin

/-- rounding to the format without regard to overflow -/
def round (f : Fmt) (x : ℚ) : ℚ :=
  roundHalfEven (x / (2 : ℚ) ^ f.ulpExp x) * (2 : ℚ) ^ f.ulpExp x

end Fmt

/-- A floating-point datum. -/
inductive FP
  | nan
  | inf (neg : Bool)
  | fin (q : ℚ)
  deriving DecidableEq

namespace FP

/-- correctly rounded result of an operation with exact result `x` -/
def ofRat (f : Fmt) (x : ℚ) : FP :=
  if |f.round x| < (2 : ℚ) ^ f.emax then fin (f.round x) else inf (decide (x < 0))

/-- division -/
def div (f : Fmt) : FP → FP → FP
  | nan, _ => nan
  | _, nan => nan
  | inf _, inf _ => nan
  | inf s, fin b => inf (s != decide (b < 0))
  | fin _, inf _ => fin 0
  | fin a, fin b =>
    if b = 0 then (if a = 0 then nan else inf (decide (a < 0))) else ofRat f (a / b)

/-- subtraction -/
def sub (f : Fmt) : FP → FP → FP
  | nan, _ => nan
  | _, nan => nan
  | inf s, inf t => if s = t then nan else inf s
  | inf s, fin _ => inf s
  | fin _, inf s => inf (!s)
  | fin a, fin b => ofRat f (a - b)

/-- multiplication -/
def mul (f : Fmt) : FP → FP → FP
  | nan, _ => nan
  | _, nan => nan
  | inf s, inf t => inf (s != t)
  | inf s, fin b => if b = 0 then nan else inf (s != decide (b < 0))
  | fin a, inf s => if a = 0 then nan else inf (s != decide (a < 0))
  | fin a, fin b => ofRat f (a * b)

/-- conversion to another format (`double` to `float`) -/
def conv (f : Fmt) : FP → FP
  | nan => nan
  | inf s => inf s
  | fin a => ofRat f a

/-- `a > b` (false when an operand is NaN) -/
def gt : FP → FP → Bool
  | nan, _ => false
  | _, nan => false
  | inf s, inf t => !s && t
  | inf s, fin _ => !s
  | fin _, inf s => s
  | fin a, fin b => decide (b < a)

/-- truncation towards zero -/
def trunc (q : ℚ) : ℤ := if 0 ≤ q then ⌊q⌋ else ⌈q⌉

/-- `static_cast<int>(x)`: undefined for NaN, infinities and values whose truncation
does not fit ([conv.fpint]) -/
def toInt : FP → Outcome ℤ
  | fin q =>
    if -(2 : ℤ) ^ 31 ≤ trunc q ∧ trunc q < (2 : ℤ) ^ 31 then .ok (trunc q) else .ub .badCast
  | _ => .ub .badCast

/-- `std::numeric_limits<float>::max()` = (2^24 - 1) * 2^104 -/
def fltMax : FP := fin ((2 ^ 24 - 1) * 2 ^ 104)

end FP

end Mot
