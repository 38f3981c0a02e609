import Mathlib.Algebra.Order.Field.Rat
import Mathlib.Data.Fin.VecNotation
/-!
# Vocabulary for the computed prediction of speed, turn rate and acceleration
-/

namespace Mot.Spec

/-- bound for the error of a predicted covariance of two quantities: `σ`, `σ'` are their standard deviations, `S`, `S'` their
sizes -/
def keptErr (σ S σ' S' : ℚ) : ℚ := (σ * S' + σ' * S) / 2 ^ 14 + S * S' / 2 ^ 36 + 1 / 2 ^ 50

/-- the linear part of the CTRA motion: speed changes by acceleration times duration, turn rate and acceleration are kept -/
def speedUp (T : ℚ) (x : Fin 6 → ℚ) : Fin 6 → ℚ := fun j => if j = 2 then x 2 + x 5 * T else x j

end Mot.Spec
