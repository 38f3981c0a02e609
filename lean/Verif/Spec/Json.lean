import Verif.Model.Json
import Verif.Spec.Circle
/-!
# What a JSON document says

Independent of the reading functions: relations between a value tree and the object it
describes.
-/

namespace Mot.Spec

open Json

/-- `j` is an object with the member `k : v` (the first one of this name) -/
inductive HasField : Json → List (Fin 256) → Json → Prop
  | here (k v l) : HasField (.obj ((k, v) :: l)) k v
  | there (k v k' v' l) : k' ≠ k → HasField (.obj l) k v → HasField (.obj ((k', v') :: l)) k v

/-- the member `k` of `j` is the number `x` -/
def NumField (j : Json) (k : String) (x : ℝ) : Prop := HasField j (lit k) (.num x)

/-- an array element read as a number -/
inductive ReadsAs (rf : ℝ → ℝ) : Json → ℝ → Prop
  | num (x) : ReadsAs rf (.num x) (rf x)
  | no : ReadsAs rf (.bool false) 0
  | yes : ReadsAs rf (.bool true) 1

/-- `j` is an array of at least `n²` numbers, the first of which are `C` row by row -/
def IsRowMajor (rf : ℝ → ℝ) {n : ℕ} (j : Json) (C : Matrix (Fin n) (Fin n) ℝ) : Prop :=
  ∃ l, j = .arr l ∧ n * n ≤ l.length ∧ (∀ e ∈ l, ∃ x, ReadsAs rf e x) ∧
    ∀ (r c : Fin n) (e : Json), l[r.1 * n + c.1]? = some e → ReadsAs rf e (C r c)

/-- `θ` is the angle `x`, reduced to one turn -/
def IsAngle (θ : Angle) (x : ℝ) : Prop :=
  ‖θ.value‖ = 1 ∧ SameDir θ.getAngle x

/-- the value describes the CTRV state -/
structure IsCtrvState (j : Json) (s : CtrvState) : Prop where
  x : NumField j "position_x_m" s.x
  y : NumField j "position_y_m" s.y
  v : NumField j "velocity_mps" s.v
  yaw : ∃ t, NumField j "yaw_rad" t ∧ IsAngle s.yaw t
  yawRate : NumField j "yaw_rate_rad_per_s" s.yawRate

/-- the value describes the CTRA state -/
structure IsCtraState (j : Json) (s : CtraState) : Prop where
  x : NumField j "position_x_m" s.x
  y : NumField j "position_y_m" s.y
  v : NumField j "velocity_mps" s.v
  yaw : ∃ t, NumField j "yaw_rad" t ∧ IsAngle s.yaw t
  yawRate : NumField j "yaw_rate_rad_per_s" s.yawRate
  a : NumField j "acceleration_mps_sq" s.a

/-- the value describes the object -/
structure IsObject {S C : Type} (isState : Json → S → Prop) (isCov : Json → C → Prop) (j : Json)
    (o : DynObj S C) : Prop where
  time : NumField j "timestamp_sec" o.timestamp
  state : ∃ v, HasField j (lit "state") v ∧ isState v o.state
  covariance : ∃ v, HasField j (lit "covariance") v ∧ isCov v o.covariance
  uuid : HasField j (lit "uuid") (.str o.uuid.value)
  semanticClass : o.semanticClass = .unknown

/-- the value describes the CTRV object -/
def IsCtrv (rf : ℝ → ℝ) : Json → DynObj CtrvState CtrvCov → Prop :=
  IsObject IsCtrvState (IsRowMajor rf)

/-- the value describes the CTRA object -/
def IsCtra (rf : ℝ → ℝ) : Json → DynObj CtraState CtraCov → Prop :=
  IsObject IsCtraState (IsRowMajor rf)

/-- the value declares the motion model `m` -/
def Declares (j : Json) (m : String) : Prop := HasField j (lit "motion_model") (.str (lit m))

/-- the value declares its motion model and describes an object of that model -/
def IsEntry (rf : ℝ → ℝ) (j : Json) : Obj2 CtrvState CtrvCov CtraState CtraCov → Prop
  | .inl o => Declares j "ctrv" ∧ IsCtrv rf j o
  | .inr o => Declares j "ctra" ∧ IsCtra rf j o

/-- the values a loop over `v` visits -/
inductive Visits : Json → List Json → Prop
  | null : Visits .null []
  | arr (l) : Visits (.arr l) l
  | obj (l) : Visits (.obj l) (l.map (·.2))
  | bool (b) : Visits (.bool b) [.bool b]
  | num (x) : Visits (.num x) [.num x]
  | str (s) : Visits (.str s) [.str s]

/-- the file is JSON, and its member `key` lists the values `l` -/
def Lists (file : Option Json) (key : String) (l : List Json) : Prop :=
  ∃ data v, file = some data ∧ HasField data (lit key) v ∧ Visits v l

/-- the member "covariance" is an array of fewer than `n²` elements -/
def ShortCovariance (n : ℕ) (j : Json) : Prop :=
  ∃ l, HasField j (lit "covariance") (.arr l) ∧ l.length < n * n

end Mot.Spec
