import Verif.Spec.Ieee
/-!
# Representable numbers
-/

namespace Mot.Spec

/-- `x` is a finite `float` -/
def IsFloat (x : ℚ) : Prop :=
  ∃ m e : ℤ, Canonical 24 (-149) m e ∧ x = m * (2 : ℚ) ^ e ∧ |x| < 2 ^ 128

end Mot.Spec
