import Verif.Model.FloatLlt
import Mathlib.LinearAlgebra.Matrix.PosDef
import Verif.Spec.FloatPredict
import Verif.Spec.FloatSigma
import Verif.Spec.FloatLlt
import Verif.Spec.FloatPipeline
import Verif.Spec.FloatMotion
/-!
# Vocabulary for statements about ordinary objects in floating-point arithmetic
-/

namespace Mot.Spec

open Matrix

/-- a covariance matrix of ordinary size: symmetric, with variances between 2⁻⁴⁰ and 2¹⁶, and positive definite with a margin of
2⁻¹⁶ of the variances -/
structure OrdinaryCov {n : ℕ} (P : Matrix (Fin n) (Fin n) ℚ) : Prop where
  symm : Pᵀ = P
  lower : ∀ i, 1 / 2 ^ 40 ≤ P i i
  upper : ∀ i, P i i ≤ 2 ^ 16
  margin : (real P - (1 / 2 ^ 16 : ℝ) • diagonal fun i => real P i i).PosDef

/-- state vector of ordinary size: the position within 2²², the heading from 0 to 2π, everything else at most 2⁸ -/
structure OrdinaryState {n : ℕ} (z : Fin n → ℚ) : Prop where
  position : ∀ i : Fin n, i.1 < 2 → |z i| ≤ 2 ^ 22
  heading : ∀ i : Fin n, i.1 = 3 → 0 ≤ z i ∧ (z i : ℝ) < 2 * Real.pi
  other : ∀ i : Fin n, i.1 = 2 ∨ 3 < i.1 → |z i| ≤ 2 ^ 8

/-- each of the turn rates is 0 or at least `ε` in size -/
def ClearTurns (ε : ℚ) (ws : List FP) : Prop := ∀ q, .fin q ∈ ws → q = 0 ∨ ε ≤ |q|

/-- `q` is a finite number of size at most `B` -/
def FiniteWithin (x : FP) (B : ℚ) : Prop := ∃ q, x = .fin q ∧ |q| ≤ B

variable {m : Libm}

/-- what a CTRV state reads as: x, y, speed, heading, turn rate -/
def ctrvNumbers (s : CtrvStateF m) : Fin 5 → FP := ![s.x, s.y, s.v, m.getAngle s.yaw, s.yawRate]

/-- what a CTRA state reads as: x, y, speed, heading, turn rate, acceleration -/
def ctraNumbers (s : CtraStateF m) : Fin 6 → FP := ![s.x, s.y, s.v, m.getAngle s.yaw, s.yawRate, s.a]

/-- all numbers of the object are finite; its coordinates are at most `B`, and its heading is from 0 to 2π -/
inductive FiniteObj (B : ℚ) : FObj m → Prop
  | ctrv {o : DynObj (CtrvStateF m) (Matrix (Fin 5) (Fin 5) FP)} {q : Fin 5 → ℚ} {P : Matrix (Fin 5) (Fin 5) ℚ}
      (h : ∀ i, ctrvNumbers o.state i = .fin (q i)) (hP : o.covariance = finite P) (hx : |q 0| ≤ B) (hy : |q 1| ≤ B)
      (h0 : 0 ≤ q 3) (h1 : (q 3 : ℝ) < 2 * Real.pi) : FiniteObj B (.inl o)
  | ctra {o : DynObj (CtraStateF m) (Matrix (Fin 6) (Fin 6) FP)} {q : Fin 6 → ℚ} {P : Matrix (Fin 6) (Fin 6) ℚ}
      (h : ∀ i, ctraNumbers o.state i = .fin (q i)) (hP : o.covariance = finite P) (hx : |q 0| ≤ B) (hy : |q 1| ≤ B)
      (h0 : 0 ≤ q 3) (h1 : (q 3 : ℝ) < 2 * Real.pi) : FiniteObj B (.inr o)

/-- `o'` is a result of predicting the ordinary object `o` over at most 64 s with the default transform; no sigma point turns so
slowly that the turn formulas break down -/
inductive OrdinaryPrediction : FObj m → FObj m → Prop
  | ctrv {o o' : DynObj (CtrvStateF m) (Matrix (Fin 5) (Fin 5) FP)} {z : Fin 5 → ℚ} {P : Matrix (Fin 5) (Fin 5) ℚ}
      (hs : ∀ i, ctrvNumbers o.state i = .fin (z i)) (hz : OrdinaryState z) (hd : IsDouble (z 4))
      (hP : o.covariance = finite P) (hP' : OrdinaryCov P) {L : Matrix (Fin 5) (Fin 5) FP} {r : Option (Fin 5)}
      (hL : IsLltF o.covariance L r)
      (hw : ClearTurns (1 / 2 ^ 60) ((o.state :: sigmaPointsF o.state L (.fin 2)).map (·.yawRate))) {T : ℚ} (hT : |T| ≤ 64)
      (h : IsTransformF (.fin 1) (.fin 2) (.fin 1) o.state L (.fin T) o'.state o'.covariance) :
      OrdinaryPrediction (.inl o) (.inl o')
  | ctra {o o' : DynObj (CtraStateF m) (Matrix (Fin 6) (Fin 6) FP)} {z : Fin 6 → ℚ} {P : Matrix (Fin 6) (Fin 6) ℚ}
      (hs : ∀ i, ctraNumbers o.state i = .fin (z i)) (hz : OrdinaryState z) (hd : IsDouble (z 4))
      (hP : o.covariance = finite P) (hP' : OrdinaryCov P) {L : Matrix (Fin 6) (Fin 6) FP} {r : Option (Fin 6)}
      (hL : IsLltF o.covariance L r)
      (hw : ClearTurns (1 / 2 ^ 14) ((o.state :: sigmaPointsF o.state L (.fin 2)).map (·.yawRate))) {T : ℚ} (hT : |T| ≤ 64)
      (h : IsTransformF (.fin 1) (.fin 2) (.fin 1) o.state L (.fin T) o'.state o'.covariance) :
      OrdinaryPrediction (.inr o) (.inr o')

end Mot.Spec
