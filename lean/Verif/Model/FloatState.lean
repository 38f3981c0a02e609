import Verif.Model.FloatPredict
/-!
# Arithmetic of angles, states, process noise and augmented states in floating-point arithmetic
(angle.hpp, ctrv_model.hpp, ctra_model.hpp, augmented_state.hpp)

What prediction and clustering use is in `FloatMotion.lean` (`Libm.addAng`) and `FloatPredict.lean`
(`Libm.subAng`, `MotionModelF`); here is the rest.  Every number is a `double`; the vectors have
`float` entries.
-/

namespace Mot

local infixl:65 " ⊞ " => FP.add binary64
local infixl:65 " ⊟ " => FP.sub binary64
local infixl:70 " ⊠ " => FP.mul binary64

/-- `operator*=` / `operator*`, angle.hpp:96-112 -/
def Libm.mulAng (m : Libm) (l : m.Ang) (r : FP) : m.Ang := m.ofRad (r ⊠ m.getAngle l)

/-- `operator/=` / `operator/`, angle.hpp:114-124 -/
def Libm.divAng (m : Libm) (l : m.Ang) (r : FP) : m.Ang := m.ofRad (FP.div binary64 (m.getAngle l) r)

variable {m : Libm}

/-- `operator*=` / `operator*`, ctrv_model.hpp:184-215; the factor is a `float`, converted to `double` -/
def CtrvStateF.mul (s : CtrvStateF m) (k : FP) : CtrvStateF m :=
  ⟨s.x ⊠ k.conv binary64, s.y ⊠ k.conv binary64, s.v ⊠ k.conv binary64, m.mulAng s.yaw (k.conv binary64),
    s.yawRate ⊠ k.conv binary64⟩

namespace ProcessNoiseF

/-- `from_eigen_vector`, ctrv_model.hpp:241-247, ctra_model.hpp:207-213 -/
def ofVec (w : Fin 2 → FP) : ProcessNoiseF := ⟨(w 0).conv binary64, (w 1).conv binary64⟩

/-- `operator+=` / `operator+`, ctrv_model.hpp:259-265, 309-313, ctra_model.hpp:225-231, 275-279 -/
def add (n k : ProcessNoiseF) : ProcessNoiseF := ⟨n.lin ⊞ k.lin, n.ang ⊞ k.ang⟩

/-- `operator-=` / `operator-`, ctrv_model.hpp:276-282, 324-328, ctra_model.hpp:242-248, 290-294 -/
def sub (n k : ProcessNoiseF) : ProcessNoiseF := ⟨n.lin ⊟ k.lin, n.ang ⊟ k.ang⟩

end ProcessNoiseF

/-- `AugmentedState`, augmented_state.hpp:36-40 -/
structure AugmentedF (S : Type) where
  state : S
  noise : ProcessNoiseF

namespace AugmentedF
variable {S : Type} {n : ℕ} [MotionModelF S n]

/-- `from_eigen_vector`, augmented_state.hpp:52-61 -/
def ofVec (w : Fin (n + 2) → FP) : AugmentedF S :=
  ⟨MotionModelF.ofVec fun i => w ⟨i.1, by omega⟩, ProcessNoiseF.ofVec fun i => w ⟨n + i.1, by omega⟩⟩

/-- `operator+=` / `operator+`, augmented_state.hpp:97-105, 119-126 -/
def add (a b : AugmentedF S) : AugmentedF S := ⟨MotionModelF.add a.state b.state, a.noise.add b.noise⟩

/-- `operator-=` / `operator-`, augmented_state.hpp:140-148, 162-169 -/
def sub (a b : AugmentedF S) : AugmentedF S := ⟨MotionModelF.sub a.state b.state, a.noise.sub b.noise⟩

end AugmentedF

end Mot
