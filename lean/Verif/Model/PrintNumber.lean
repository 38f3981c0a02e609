import Verif.Model.Print
import Verif.Model.FloatMotion
import Mathlib.Data.Int.Log
import Mathlib.Data.Nat.Digits.Defs
/-!
# Printing states and objects (src/ctrv_model.cpp, src/ctra_model.cpp, utils.hpp)

Text written to `std::cout` by `print_state`, `print_entity_visitor` and `print_container`.
The stream is in its initial state: numbers are written as by `printf` with `%g` and six
significant digits (the C standard, 7.21.6.1), correctly rounded, halves to even.

Not modelled: the sign of zero and of NaN, failure of the stream.  The text that the `units`
library writes after a number is a parameter.
-/

namespace Mot

/-- a digit -/
def digitChar (d : ℕ) : Fin 256 := Fin.ofNat 256 (48 + d)

/-- the six significant digits of a positive number, as a number between 100000 and 999999, and the
decimal exponent of the first of them -/
def sixDigits (a : ℚ) : ℕ × ℤ :=
  let e := Int.log 10 a
  let m := (roundHalfEven (a / 10 ^ (e - 5))).toNat
  if m = 1000000 then (100000, e + 1) else (m, e)

/-- the digits of a number below 1000000 -/
def sixList (m : ℕ) : List ℕ :=
  [m / 100000 % 10, m / 10000 % 10, m / 1000 % 10, m / 100 % 10, m / 10 % 10, m % 10]

/-- `%g` removes trailing zeros of the fraction -/
def stripZeros : List ℕ → List ℕ
  | [] => []
  | d :: l => if d = 0 ∧ stripZeros l = [] then [] else d :: stripZeros l

/-- digits before and after the decimal point; without a fraction there is no point -/
def pointText (ints frac : List ℕ) : Text :=
  ints.map digitChar ++ if frac = [] then [] else 46 :: frac.map digitChar

/-- the exponent: a sign and at least two digits -/
def exponentText (e : ℤ) : Text :=
  (if e < 0 then 45 else 43) ::
    ((if e.natAbs < 10 then [0, e.natAbs] else (Nat.digits 10 e.natAbs).reverse).map digitChar)

/-- `%g` for a positive number -/
def positiveText (a : ℚ) : Text :=
  let ds := sixList (sixDigits a).1
  let x := (sixDigits a).2
  if -4 ≤ x ∧ x < 6 then
    if 0 ≤ x then pointText (ds.take (x.toNat + 1)) (stripZeros (ds.drop (x.toNat + 1)))
    else pointText [0] (List.replicate (-x - 1).toNat 0 ++ stripZeros ds)
  else pointText (ds.take 1) (stripZeros (ds.drop 1)) ++ 101 :: exponentText x

/-- `std::cout << x` for a `double`; a `float` is converted first, which changes nothing -/
def FP.text : FP → Text
  | nan => ascii "nan"
  | inf s => if s then ascii "-inf" else ascii "inf"
  | fin q => if q = 0 then ascii "0" else if q < 0 then 45 :: positiveText (-q) else positiveText q

/-- the units that are printed -/
inductive PrintUnit
  | length | speed | angle | rate | acceleration | time

/-- what the `units` library writes after a number of the given unit, for instance ` m` -/
abbrev UnitText := PrintUnit → Text

section
variable (unit : UnitText) {m : Libm}

/-- one line with a number: `std::cout << label << value << "\n"` -/
def printLine (label : String) (x : FP) (u : PrintUnit) : Text :=
  ascii label ++ x.text ++ unit u ++ endl

/-- `print_state(CtrvState)`, src/ctrv_model.cpp:83-91 -/
def CtrvStateF.print (s : CtrvStateF m) : Text :=
  ascii "CtrvState: " ++ endl ++ printLine unit "x: " s.x .length ++ printLine unit "y: " s.y .length ++
    printLine unit "velocity: " s.v .speed ++ printLine unit "yaw: " (m.getAngle s.yaw) .angle ++
    printLine unit "yaw rate: " s.yawRate .rate

/-- `print_state(CtraState)`, src/ctra_model.cpp:92-101 -/
def CtraStateF.print (s : CtraStateF m) : Text :=
  ascii "CtraState: " ++ endl ++ printLine unit "x: " s.x .length ++ printLine unit "y: " s.y .length ++
    printLine unit "velocity: " s.v .speed ++ printLine unit "yaw: " (m.getAngle s.yaw) .angle ++
    printLine unit "yaw rate: " s.yawRate .rate ++ printLine unit "acceleration: " s.a .acceleration

/-- a number in a column of the given width, aligned to the right (`std::setw`) -/
def padText (w : ℕ) (t : Text) : Text := List.replicate (w - t.length) 32 ++ t

/-- the width of the columns: the greatest length of an element -/
def matrixWidth {n : ℕ} (M : Fin n → Fin n → FP) : ℕ :=
  ((List.finRange n).flatMap fun i => (List.finRange n).map fun j => (M i j).text.length).foldr max 0

/-- `std::cout << matrix` for an Eigen matrix with the default format: elements are aligned and
separated by one space, rows by a newline -/
def printMatrix {n : ℕ} (M : Fin n → Fin n → FP) : Text :=
  (endl).intercalate ((List.finRange n).map fun i =>
    (ascii " ").intercalate ((List.finRange n).map fun j => padText (matrixWidth M) (M i j).text))

/-- an object, dynamic_object.hpp:38-50, as it is computed -/
structure EntityF (S : Type) (n : ℕ) where
  timestamp : FP
  state : S
  covariance : Fin n → Fin n → FP
  uuid : Uuid
  semanticClass : SemanticClass

/-- `print_entity_visitor`, utils.hpp:78-84 -/
def printEntity {S : Type} {n : ℕ} (printState : S → Text) (o : EntityF S n) : Text :=
  printLine unit "Timestamp: " o.timestamp .time ++ ascii "UUID: " ++ o.uuid.print ++ endl ++
    printState o.state ++ endl ++ ascii "Covariance:" ++ endl ++ printMatrix o.covariance ++
    endl ++ ascii "------------------------------------------------------------" ++ endl ++ endl

/-- `std::visit(print_entity_visitor, entity)` -/
def printVariant : EntityF (CtrvStateF m) 5 ⊕ EntityF (CtraStateF m) 6 → Text
  | .inl o => printEntity unit (CtrvStateF.print unit) o
  | .inr o => printEntity unit (CtraStateF.print unit) o

/-- `print_container`, utils.hpp:93-99 -/
def printContainer (os : List (EntityF (CtrvStateF m) 5 ⊕ EntityF (CtraStateF m) 6)) : Text :=
  os.flatMap (printVariant unit)

end

end Mot
