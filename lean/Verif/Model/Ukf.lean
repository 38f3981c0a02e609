import Verif.Model.Fusing
/-!
# Unscented transform and prediction (unscented_transform.hpp,
unscented_kalman_filter.hpp, temporal_alignment.hpp)

In exact real arithmetic.  `Eigen::VectorXf` is a list of numbers, an `Eigen::MatrixXf`
whose rows are points is the list of its rows.  `covariance.llt().matrixL()` is the
parameter `chol`; the theorems assume its documented contract (`IsLlt` in
Verif.Spec.Ukf).
-/

namespace Mot

open Matrix

/-- type of `covariance.llt().matrixL()` -/
abbrev Chol := ∀ n : ℕ, Matrix (Fin n) (Fin n) ℝ → Matrix (Fin n) (Fin n) ℝ

/-- `generate_lambda`, unscented_transform.hpp:37-40 -/
def generateLambda (n : ℕ) (α κ : ℝ) : ℝ := α * α * (n + κ) - n

open Classical in
/-- `generate_weights`, unscented_transform.hpp:51-64.  `none`: division by zero. -/
noncomputable def generateWeights (n : ℕ) (α β lam : ℝ) : Option (List ℝ × List ℝ) :=
  if n + lam = 0 then none
  else
    let wm0 := lam / (n + lam)
    let wc0 := lam / (n + lam) + (1 - α * α + β)
    let wmi := 1 / 2 * (1 / (n + lam))
    some (wm0 :: List.replicate (2 * n) wmi, wc0 :: List.replicate (2 * n) wmi)

section
variable {S : Type} {n : ℕ} [MotionModel S n]

/-- loop of `generate_sigma_points`, unscented_transform.hpp:84-90; `r` is
`std::sqrt(covariance.rows() + lambda)` and `L` is `covariance_sqrt` -/
noncomputable def sigmaLoop (s : S) (L : Matrix (Fin n) (Fin n) ℝ) (r : ℝ) : List S :=
  (List.finRange n).flatMap fun j =>
    let d : S := MotionModel.ofVec (r • L.col j)
    [MotionModel.add s d, MotionModel.sub s d]

open Classical in
/-- `generate_sigma_points`, unscented_transform.hpp:78-101.  `none`: square root of a
negative number. -/
noncomputable def sigmaPoints (chol : Chol) (s : S) (P : Matrix (Fin n) (Fin n) ℝ) (lam : ℝ) :
    Option (List S) :=
  if n + lam < 0 then none else some (sigmaLoop s (chol n P) (Real.sqrt (n + lam)))

/-- `generate_sigma_points_and_weights`, unscented_transform.hpp:189-198 -/
noncomputable def sigmaPointsAndWeights (chol : Chol) (s : S) (P : Matrix (Fin n) (Fin n) ℝ)
    (α β κ : ℝ) : Option (List S × List ℝ × List ℝ) :=
  let lam := generateLambda n α κ
  match sigmaPoints chol s P lam, generateWeights n α β lam with
  | some σ, some (wm, wc) => some (σ, wm, wc)
  | _, _ => none

/-- `mean_and_sigma_points_to_matrix_xf`, unscented_transform.hpp:140-150 -/
def pointsToRows (mean : S) (σ : List S) : List (Fin n → ℝ) :=
  MotionModel.toVec mean :: σ.map MotionModel.toVec

end

section
variable {n : ℕ}

/-- `stack_vector_into_matrix`, unscented_transform.hpp:109-117 -/
def stackVector (x : Fin n → ℝ) (rows : ℕ) : List (Fin n → ℝ) := List.replicate rows x

/-- `compute_unscented_transform`, unscented_transform.hpp:160-168: `Wmᵀ σ` and
`yᵀ diag(Wc) y`, written as sums over the rows.  Different numbers of rows and weights
violate a precondition of Eigen's product. -/
noncomputable def computeUt (rows : List (Fin n → ℝ)) (wm wc : List ℝ) :
    Outcome ((Fin n → ℝ) × Matrix (Fin n) (Fin n) ℝ) :=
  if wm.length = rows.length ∧ wc.length = rows.length then
    let x := (List.zipWith (fun w p => w • p) wm rows).sum
    let y := List.zipWith (fun p q => p - q) rows (stackVector x rows.length)
    let P := (List.zipWith (fun w p => vecMulVec p (w • p)) wc y).sum
    .ok (x, P)
  else .ub .sizeMismatch

end

section
variable {S : Type} {n : ℕ} [MotionModel S n]

/-- `unscented_kalman_filter_predict`, unscented_kalman_filter.hpp:60-98 -/
noncomputable def ukfPredict (chol : Chol) (s : S) (P : Matrix (Fin n) (Fin n) ℝ)
    (dt α β κ : ℝ) : Outcome (S × Matrix (Fin n) (Fin n) ℝ) :=
  match sigmaPointsAndWeights chol s P α β κ with
  | none => .ub .notReal
  | some (σ, wm, wc) =>
    let mean := MotionModel.next s dt
    let σ' := σ.map fun p => MotionModel.next p dt
    let rows := (pointsToRows mean σ').map rotateYaw
    match computeUt rows wm wc with
    | .ok (x, C) => .ok (MotionModel.ofVec x, C)
    | .throw e => .throw e
    | .ub w => .ub w

/-- `UkfPredictionVisitor::operator()`, unscented_kalman_filter.hpp:132-141, with the
members `alpha_`, `beta_`, `kappa_`.  Note the order of the last two arguments. -/
noncomputable def ukfVisitor (chol : Chol) (α β κ : ℝ)
    (o : DynObj S (Matrix (Fin n) (Fin n) ℝ)) (time : ℝ) :
    Outcome (DynObj S (Matrix (Fin n) (Fin n) ℝ)) :=
  match ukfPredict chol o.state o.covariance (time - o.timestamp) α κ β with
  | .ok (s, C) => .ok { o with state := s, covariance := C, timestamp := time }
  | .throw e => .throw e
  | .ub w => .ub w

end

/-- A function object that changes a state and a covariance, given a duration. -/
abbrev Propagator (S C : Type) := ℝ → Act (S × C) Unit

/-- `UnscentedTransform::operator()`, temporal_alignment.hpp:54-62.  Note the order of the
last two arguments. -/
noncomputable def unscentedTransform {S : Type} {n : ℕ} [MotionModel S n] (chol : Chol)
    (α β κ : ℝ) : Propagator S (Matrix (Fin n) (Fin n) ℝ) := fun dt x =>
  match ukfPredict chol x.1 x.2 dt α κ β with
  | .ok y => (y, .ok ())
  | .throw e => (x, .throw e)
  | .ub w => (x, .ub w)

/-- `default_unscented_transform`, temporal_alignment.hpp:65 -/
noncomputable def defaultUt {S : Type} {n : ℕ} [MotionModel S n] (chol : Chol) :
    Propagator S (Matrix (Fin n) (Fin n) ℝ) := unscentedTransform chol 1 2 1

/-- `propagate_to_time` for plain objects, temporal_alignment.hpp:81-87 -/
def propagate {S C : Type} (time : ℝ) (prop : Propagator S C) : Act (DynObj S C) Unit := fun o =>
  match prop (time - o.timestamp) (o.state, o.covariance) with
  | ((s, c), .ok ()) => ({ o with state := s, covariance := c, timestamp := time }, .ok ())
  | ((s, c), e) => ({ o with state := s, covariance := c }, e)

/-- `propagate_to_time` for variants, temporal_alignment.hpp:103-112; the propagator is
instantiated for each alternative -/
def propagate2 {S₁ C₁ S₂ C₂ : Type} (time : ℝ) (prop₁ : Propagator S₁ C₁)
    (prop₂ : Propagator S₂ C₂) : Act (Obj2 S₁ C₁ S₂ C₂) Unit
  | .inl o => match propagate time prop₁ o with
    | (o', r) => (.inl o', r)
  | .inr o => match propagate time prop₂ o with
    | (o', r) => (.inr o', r)

/-- `predict_to_time`, temporal_alignment.hpp:126-132: works on a copy -/
def predict {S C : Type} (o : DynObj S C) (time : ℝ) (prop : Propagator S C) :
    Outcome (DynObj S C) :=
  match propagate time prop o with
  | (o', .ok ()) => .ok o'
  | (_, .throw e) => .throw e
  | (_, .ub w) => .ub w

/-- `predict_to_time` for variants -/
def predict2 {S₁ C₁ S₂ C₂ : Type} (o : Obj2 S₁ C₁ S₂ C₂) (time : ℝ) (prop₁ : Propagator S₁ C₁)
    (prop₂ : Propagator S₂ C₂) : Outcome (Obj2 S₁ C₁ S₂ C₂) :=
  match propagate2 time prop₁ prop₂ o with
  | (o', .ok ()) => .ok o'
  | (_, .throw e) => .throw e
  | (_, .ub w) => .ub w

end Mot
