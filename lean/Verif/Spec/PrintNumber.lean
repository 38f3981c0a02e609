import Verif.Model.PrintNumber
import Verif.Spec.Print
/-!
# What printed text means

The value of a decimal numeral, rounding to six significant digits, and which numbers of an object
a report shows.
-/

namespace Mot.Spec

open Mot

/-- the value of a sequence of digits -/
def digitsValue (t : Text) : ℕ := t.foldl (fun n c => 10 * n + (c.val - 48)) 0

/-- the value of an exponent: an optional sign and digits -/
def exponentValue : Text → ℤ
  | [] => 0
  | c :: r => if c = 45 then -digitsValue r else if c = 43 then digitsValue r else digitsValue (c :: r)

/-- the value of a numeral without sign: digits, optionally a point and digits, optionally `e` and
an exponent -/
def unsignedValue (t : Text) : ℚ :=
  let mantissa := t.takeWhile (· ≠ 101)
  let exponent := (t.dropWhile (· ≠ 101)).drop 1
  let ints := mantissa.takeWhile (· ≠ 46)
  let frac := (mantissa.dropWhile (· ≠ 46)).drop 1
  digitsValue (ints ++ frac) * 10 ^ (exponentValue exponent - frac.length)

/-- the value of a decimal numeral -/
def decimalValue : Text → ℚ
  | [] => 0
  | c :: r => if c = 45 then -unsignedValue r else unsignedValue (c :: r)

/-- `r` is `q` rounded to six significant digits, halves to even -/
def Rounds6 (q r : ℚ) : Prop :=
  (q = 0 ∧ r = 0) ∨ ∃ e n : ℤ, 10 ^ e ≤ |q| ∧ |q| < 10 ^ (e + 1) ∧ r = n * 10 ^ (e - 5) ∧
    |r - q| ≤ 10 ^ (e - 5) / 2 ∧ (|r - q| = 10 ^ (e - 5) / 2 → Even n)

/-- two numbers that a report shows alike -/
def LookAlike : FP → FP → Prop
  | .nan, .nan => True
  | .inf s, .inf s' => s = s'
  | .fin q, .fin q' => ∃ r, Rounds6 q r ∧ Rounds6 q' r
  | _, _ => False

/-- the library writes a space and then something on the same line -/
def IsUnitText (unit : UnitText) : Prop := ∀ u, newline ∉ unit u ∧ ∃ r, unit u = space :: r

/-- two objects of which a report shows the same: identity and all numbers to six digits.  The
semantic class is not shown. -/
def LookAlikeObjects {S : Type} {n : ℕ} (states : S → S → Prop) (o o' : EntityF S n) : Prop :=
  LookAlike o.timestamp o'.timestamp ∧ o.uuid = o'.uuid ∧ states o.state o'.state ∧
    ∀ i j, LookAlike (o.covariance i j) (o'.covariance i j)

/-- CTRV states of which a report shows the same -/
def LookAlikeCtrv {m : Libm} (s s' : CtrvStateF m) : Prop :=
  LookAlike s.x s'.x ∧ LookAlike s.y s'.y ∧ LookAlike s.v s'.v ∧
    LookAlike (m.getAngle s.yaw) (m.getAngle s'.yaw) ∧ LookAlike s.yawRate s'.yawRate

/-- CTRA states of which a report shows the same -/
def LookAlikeCtra {m : Libm} (s s' : CtraStateF m) : Prop :=
  LookAlike s.x s'.x ∧ LookAlike s.y s'.y ∧ LookAlike s.v s'.v ∧
    LookAlike (m.getAngle s.yaw) (m.getAngle s'.yaw) ∧ LookAlike s.yawRate s'.yawRate ∧ LookAlike s.a s'.a

/-- objects of either motion model -/
def LookAlikeVariants {m : Libm} : EntityF (CtrvStateF m) 5 ⊕ EntityF (CtraStateF m) 6 →
    EntityF (CtrvStateF m) 5 ⊕ EntityF (CtraStateF m) 6 → Prop
  | .inl o, .inl o' => LookAlikeObjects LookAlikeCtrv o o'
  | .inr o, .inr o' => LookAlikeObjects LookAlikeCtra o o'
  | _, _ => False

/-- the UUID of an object of either motion model -/
def variantUuid {m : Libm} : EntityF (CtrvStateF m) 5 ⊕ EntityF (CtraStateF m) 6 → Uuid
  | .inl o => o.uuid
  | .inr o => o.uuid

end Mot.Spec
