import Verif.Model.Fusing
import Verif.Model.Rounding
/-!
# Process noise and augmented states (ctrv_model.hpp, ctra_model.hpp, augmented_state.hpp)

In exact real arithmetic.
-/

namespace Mot

namespace ProcessNoise

/-- `from_eigen_vector`, ctrv_model.hpp:241-247, ctra_model.hpp:207-213 -/
def ofVec (w : Fin 2 → ℝ) : ProcessNoise := ⟨w 0, w 1⟩

/-- `operator+=` / `operator+`, ctrv_model.hpp:259-265, 309-313, ctra_model.hpp:225-231, 275-279 -/
noncomputable def add (m n : ProcessNoise) : ProcessNoise := ⟨m.lin + n.lin, m.ang + n.ang⟩

/-- `operator-=` / `operator-`, ctrv_model.hpp:276-282, 324-328, ctra_model.hpp:242-248, 290-294 -/
noncomputable def sub (m n : ProcessNoise) : ProcessNoise := ⟨m.lin - n.lin, m.ang - n.ang⟩

/-- `operator==`, ctrv_model.hpp:294-298, ctra_model.hpp:260-264 -/
def eq (m n : ProcessNoise) : Prop := unitsEq m.lin n.lin ∧ unitsEq m.ang n.ang

end ProcessNoise

/-- What augmented states use of a state type besides `MotionModel`. -/
class StateExtras (S : Type) where
  /-- `operator==`, ctrv_model.hpp:139-143, ctra_model.hpp:146-151 -/
  eq : S → S → Prop
  /-- `utils::round_to_decimal_place`, ctrv_model.hpp:412-424, ctra_model.hpp:378-391 -/
  round : S → ℕ → S

/-- ctrv_model.hpp -/
noncomputable instance : StateExtras CtrvState := ⟨CtrvState.eq, CtrvState.round⟩
/-- ctra_model.hpp -/
noncomputable instance : StateExtras CtraState := ⟨CtraState.eq, CtraState.round⟩

/-- `AugmentedState`, augmented_state.hpp:36-40; both noise types are `ProcessNoise` -/
structure Augmented (S : Type) where
  state : S
  noise : ProcessNoise

namespace Augmented
variable {S : Type} {n : ℕ} [MotionModel S n] [StateExtras S]

/-- `from_eigen_vector`, augmented_state.hpp:52-61 (`kNumVars` = n + 2, line 45) -/
def ofVec (w : Fin (n + 2) → ℝ) : Augmented S :=
  ⟨MotionModel.ofVec fun i => w ⟨i.1, by omega⟩, ProcessNoise.ofVec fun i => w ⟨n + i.1, by omega⟩⟩

/-- `operator==`, augmented_state.hpp:77-83 -/
def eq (a b : Augmented S) : Prop := StateExtras.eq a.state b.state ∧ a.noise.eq b.noise

/-- `operator+=` / `operator+`, augmented_state.hpp:97-105, 119-126 -/
noncomputable def add (a b : Augmented S) : Augmented S :=
  ⟨MotionModel.add a.state b.state, a.noise.add b.noise⟩

/-- `operator-=` / `operator-`, augmented_state.hpp:140-148, 162-169 -/
noncomputable def sub (a b : Augmented S) : Augmented S :=
  ⟨MotionModel.sub a.state b.state, a.noise.sub b.noise⟩

/-- `utils::round_to_decimal_place`, augmented_state.hpp:183-190 -/
noncomputable def round (a : Augmented S) (d : ℕ) : Augmented S :=
  ⟨StateExtras.round a.state d, a.noise.round d⟩

end Augmented

end Mot
