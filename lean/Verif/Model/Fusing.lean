import Verif.Model.Motion
import Verif.Model.Matching
/-!
# Fusing (fusing.hpp)

In exact real arithmetic.
-/

namespace Mot

open Matrix

/-- What generic code uses of a state type with `n` variables. -/
class MotionModel (S : Type) (n : outParam ℕ) where
  /-- `to_eigen_vector`, ctrv_model.hpp:76-86, ctra_model.hpp:80-91 -/
  toVec : S → Fin n → ℝ
  /-- `from_eigen_vector`, ctrv_model.hpp:59-68, ctra_model.hpp:61-71 -/
  ofVec : (Fin n → ℝ) → S
  /-- `operator+`, ctrv_model.hpp:154-158, ctra_model.hpp:162-166 -/
  add : S → S → S
  /-- `operator-`, ctrv_model.hpp:169-173, ctra_model.hpp:177-181 -/
  sub : S → S → S
  /-- `get_next_state`, src/ctrv_model.cpp:32-61, src/ctra_model.cpp:32-70 -/
  next : S → ℝ → S

/-- ctrv_model.hpp -/
noncomputable instance : MotionModel CtrvState 5 where
  toVec := CtrvState.toVec
  ofVec := CtrvState.ofVec
  add := CtrvState.add
  sub := CtrvState.sub
  next := CtrvState.next

/-- ctra_model.hpp -/
noncomputable instance : MotionModel CtraState 6 where
  toVec := CtraState.toVec
  ofVec := CtraState.ofVec
  add := CtraState.add
  sub := CtraState.sub
  next := CtraState.next

/-- the literal `3.14159265359`, fusing.hpp:64-65, 68-69; unscented_kalman_filter.hpp:86 -/
noncomputable def yawCut : ℝ := 314159265359 / 100000000000

/-- `if (mean[3] > 3.14159265359) mean[3] -= 2 * 3.14159265359;`, fusing.hpp:64-70.
For vectors with fewer than four elements the code reads outside the vector; both state
types have more. -/
noncomputable def rotateYaw {n : ℕ} (m : Fin n → ℝ) : Fin n → ℝ :=
  fun i => if i.1 = 3 ∧ m i > yawCut then m i - 2 * yawCut else m i

section
variable {n : ℕ}

open Classical in
/-- `compute_covariance_intersection`, fusing.hpp:50-79.  `none`: the combined inverse
covariance is singular. -/
noncomputable def covIntersection (m₁ : Fin n → ℝ) (A₁ : Matrix (Fin n) (Fin n) ℝ)
    (m₂ : Fin n → ℝ) (A₂ : Matrix (Fin n) (Fin n) ℝ) (w : ℝ) :
    Option ((Fin n → ℝ) × Matrix (Fin n) (Fin n) ℝ) :=
  let m₁' := rotateYaw m₁
  let m₂' := rotateYaw m₂
  let A := w • A₁ + (1 - w) • A₂
  if IsUnit A.det then
    let C := A⁻¹
    some (C *ᵥ (w • (A₁ *ᵥ m₁') + (1 - w) • (A₂ *ᵥ m₂')), C)
  else none

open Classical in
/-- `generate_weight`, fusing.hpp:92-102.  `none`: division by zero. -/
noncomputable def generateWeight (A₁ A₂ : Matrix (Fin n) (Fin n) ℝ) : Option ℝ :=
  let d₁ := A₁.det
  let d₂ := A₂.det
  let dS := (A₁ + A₂).det
  if dS = 0 then none else some ((dS - d₂ + d₁) / (2 * dS))

open Classical in
/-- `M.inverse()`; `none`: singular -/
noncomputable def inverse? (M : Matrix (Fin n) (Fin n) ℝ) : Option (Matrix (Fin n) (Fin n) ℝ) :=
  if IsUnit M.det then some M⁻¹ else none

end

/-- `covariance_intersection_visitor` for two objects of the same motion model,
fusing.hpp:115-136 -/
noncomputable def fusePair {S : Type} {n : ℕ} [MotionModel S n]
    (t d : DynObj S (Matrix (Fin n) (Fin n) ℝ)) :
    Outcome (DynObj S (Matrix (Fin n) (Fin n) ℝ)) :=
  match inverse? t.covariance, inverse? d.covariance with
  | some tInv, some dInv =>
    match generateWeight tInv dInv with
    | none => .ub .notReal
    | some w =>
      match covIntersection (MotionModel.toVec t.state) tInv (MotionModel.toVec d.state) dInv w with
      | none => .ub .notReal
      | some (m, C) =>
        .ok { t with timestamp := d.timestamp, state := MotionModel.ofVec m, covariance := C }
  | _, _ => .ub .notReal

/-- `std::variant<CtrvTrack, CtraTrack>` / `std::variant<CtrvDetection, CtraDetection>` -/
abbrev MotObj := Obj2 CtrvState CtrvCov CtraState CtraCov

/-- `covariance_intersection_visitor` on variants, fusing.hpp:115-136: the generic lambda
is instantiated for all combinations.  For different motion models `generate_weight`
adds a 5×5 and a 6×6 matrix, which Eigen does not define (an assertion in debug
builds). -/
noncomputable def ciVisitor : MotObj → MotObj → Outcome MotObj
  | .inl t, .inl d => match fusePair t d with
    | .ok f => .ok (.inl f)
    | .throw e => .throw e
    | .ub w => .ub w
  | .inr t, .inr d => match fusePair t d with
    | .ok f => .ok (.inr f)
    | .throw e => .throw e
    | .ub w => .ub w
  | _, _ => .ub .sizeMismatch

section
variable {τ δ S C S' C' : Type} [TrackOps τ S C] [TrackOps δ S' C']

/-- innermost loop of `fuse_associations`, fusing.hpp:165-174 -/
def fuseDetections (visitor : τ → δ → Outcome τ) (us : List Uuid) (t : τ) :
    List δ → List τ → Outcome (List τ)
  | [], acc => .ok acc
  | d :: ds, acc =>
    if TrackOps.uuid d ∈ us then
      match visitor t d with
      | .ok f => fuseDetections visitor us t ds (acc ++ [f])
      | .throw e => .throw e
      | .ub w => .ub w
    else fuseDetections visitor us t ds acc

/-- middle loop of `fuse_associations`, fusing.hpp:162-176 -/
def fuseTracks (visitor : τ → δ → Outcome τ) (u : Uuid) (us : List Uuid) (ds : List δ) :
    List τ → List τ → Outcome (List τ)
  | [], acc => .ok acc
  | t :: ts, acc =>
    if TrackOps.uuid t = u then
      match fuseDetections visitor us t ds acc with
      | .ok acc' => fuseTracks visitor u us ds ts acc'
      | .throw e => .throw e
      | .ub w => .ub w
    else fuseTracks visitor u us ds ts acc

/-- outer loop of `fuse_associations`, fusing.hpp:160-177 -/
def fuseLoop (visitor : τ → δ → Outcome τ) (ts : List τ) (ds : List δ) :
    List (Uuid × List Uuid) → List τ → Outcome (List τ)
  | [], acc => .ok acc
  | (u, us) :: l, acc =>
    match fuseTracks visitor u us ds ts acc with
    | .ok acc' => fuseLoop visitor ts ds l acc'
    | .throw e => .throw e
    | .ub w => .ub w

/-- `fuse_associations`, fusing.hpp:151-180 -/
def fuseAssociations (a : AssociationMap) (ts : List τ) (ds : List δ)
    (visitor : τ → δ → Outcome τ) : Outcome (List τ) :=
  fuseLoop visitor ts ds a.entries []

end

end Mot
