import Verif.Model.Fusing
import Verif.Spec.Covers
import Verif.Spec.Ukf
/-!
# How far a predicted pose can be from the pose of the object

The bounds are in terms of the track before the prediction: its variances, its speed and acceleration,
and the time `T` to the prediction.  `k` is the number of standard deviations within which the track
is right, `ρ` a parameter of the unscented transform.
-/

namespace Mot.Spec

/-- bound for the position of a CTRV track -/
noncomputable def ctrvPositionReach (k ρ T v : ℝ) (P : CtrvCov) : ℝ :=
  k * √(P 0 0 + P 1 1) +
  (k + ρ) * (|T| * √(P 2 2) + |v| * |T| * √(P 3 3) + |v| * T ^ 2 / 2 * √(P 4 4)) +
  (1 + ρ ^ 2) * (|v| * T ^ 2 / 2 * (1 / 2 ^ 1021))

/-- bound for the position of a CTRA track -/
noncomputable def ctraPositionReach (k ρ T v a : ℝ) (P : CtraCov) : ℝ :=
  k * √(P 0 0 + P 1 1) +
  (k + ρ) * (|T| * √(P 2 2) + T ^ 2 / 2 * √(P 5 5) + (|v| * |T| + |a| * T ^ 2 / 2) * √(P 3 3) +
    (|v| * T ^ 2 / 2 + |a| * |T| ^ 3 / 3) * √(P 4 4)) +
  (1 + ρ ^ 2) * ((|v| * T ^ 2 / 2 + |a| * |T| ^ 3 / 3) * (1 / 2 ^ 1021))

/-- variance of `heading + T · turn rate`, from the variances of the two and their covariance -/
def headingVariance (T vh vhw vw : ℝ) : ℝ := vh + 2 * T * vhw + T ^ 2 * vw

/-- the two bounds together, as a distance of poses -/
noncomputable def poseReach (k position variance : ℝ) : ℝ := √(position ^ 2 + k ^ 2 * variance)

/-- the same for headings between the cut of the library and a full turn, where the predicted heading can be off by
`2 / 10 ^ 12` more -/
noncomputable def poseReachHigh (k position variance : ℝ) : ℝ :=
  √(position ^ 2 + (k * √variance + 2 / 10 ^ 12) ^ 2)

/-- x, y and heading of an object -/
noncomputable def objPose : MotObj → Fin 3 → ℝ
  | .inl o => ![o.state.x, o.state.y, o.state.yaw.getAngle]
  | .inr o => ![o.state.x, o.state.y, o.state.yaw.getAngle]

/-- The track, which is of an earlier time, is right to within `k` standard deviations about an object whose pose
at `time` is `w`, if the object moves as its motion model says.  The headings of the sigma points stay between 0
and the cut of the library at 3.14159265359, or between the cut and a full turn, and the bounds above amount to at
most `R`.  `α` and `β` are the
parameters of the unscented transform by which its spread is determined. -/
inductive Follows (α β k time R : ℝ) : MotObj → (Fin 3 → ℝ) → Prop
  | ctrv {o : DynObj CtrvState CtrvCov} {t : CtrvState} {e : Fin 5 → ℝ} {T c V : ℝ} (hT : T = time - o.timestamp)
      (hP : o.covariance.PosDef) (ht : SameUpToTurns t.toVec (o.state.toVec + e))
      (hk : Covers o.covariance k .univ e) (hkN : k ^ 2 ≤ α ^ 2 * (5 + β))
      (hc : SameDir c (o.state.yaw.getAngle + T * o.state.yawRate))
      (hV : V = headingVariance T (o.covariance 3 3) (o.covariance 3 4) (o.covariance 4 4))
      (h0 : √(α ^ 2 * (5 + β) * V) ≤ c) (h1 : c + √(α ^ 2 * (5 + β) * V) ≤ 314159265359 / 100000000000)
      (hR : poseReach k (ctrvPositionReach k √(5 / (α ^ 2 * (5 + β))) T o.state.v o.covariance) V ≤ R) :
      Follows α β k time R (.inl o) ![(t.next T).x, (t.next T).y, (t.next T).yaw.getAngle]
  | ctra {o : DynObj CtraState CtraCov} {t : CtraState} {e : Fin 6 → ℝ} {T c V : ℝ} (hT : T = time - o.timestamp)
      (hP : o.covariance.PosDef) (ht : SameUpToTurns t.toVec (o.state.toVec + e))
      (hk : Covers o.covariance k .univ e) (hkN : k ^ 2 ≤ α ^ 2 * (6 + β))
      (hc : SameDir c (o.state.yaw.getAngle + T * o.state.yawRate))
      (hV : V = headingVariance T (o.covariance 3 3) (o.covariance 3 4) (o.covariance 4 4))
      (h0 : √(α ^ 2 * (6 + β) * V) ≤ c) (h1 : c + √(α ^ 2 * (6 + β) * V) ≤ 314159265359 / 100000000000)
      (hR : poseReach k (ctraPositionReach k √(6 / (α ^ 2 * (6 + β))) T o.state.v o.state.a o.covariance) V ≤ R) :
      Follows α β k time R (.inr o) ![(t.next T).x, (t.next T).y, (t.next T).yaw.getAngle]
  | ctrvHigh {o : DynObj CtrvState CtrvCov} {t : CtrvState} {e : Fin 5 → ℝ} {T c V : ℝ} (hT : T = time - o.timestamp)
      (hP : o.covariance.PosDef) (ht : SameUpToTurns t.toVec (o.state.toVec + e))
      (hk : Covers o.covariance k .univ e) (hkN : k ^ 2 ≤ α ^ 2 * (5 + β))
      (hc : SameDir c (o.state.yaw.getAngle + T * o.state.yawRate))
      (hV : V = headingVariance T (o.covariance 3 3) (o.covariance 3 4) (o.covariance 4 4))
      (h0 : 314159265359 / 100000000000 + √(α ^ 2 * (5 + β) * V) < c) (h1 : c + √(α ^ 2 * (5 + β) * V) < 2 * Real.pi)
      (hR : poseReachHigh k (ctrvPositionReach k √(5 / (α ^ 2 * (5 + β))) T o.state.v o.covariance) V ≤ R) :
      Follows α β k time R (.inl o) ![(t.next T).x, (t.next T).y, (t.next T).yaw.getAngle]
  | ctraHigh {o : DynObj CtraState CtraCov} {t : CtraState} {e : Fin 6 → ℝ} {T c V : ℝ} (hT : T = time - o.timestamp)
      (hP : o.covariance.PosDef) (ht : SameUpToTurns t.toVec (o.state.toVec + e))
      (hk : Covers o.covariance k .univ e) (hkN : k ^ 2 ≤ α ^ 2 * (6 + β))
      (hc : SameDir c (o.state.yaw.getAngle + T * o.state.yawRate))
      (hV : V = headingVariance T (o.covariance 3 3) (o.covariance 3 4) (o.covariance 4 4))
      (h0 : 314159265359 / 100000000000 + √(α ^ 2 * (6 + β) * V) < c) (h1 : c + √(α ^ 2 * (6 + β) * V) < 2 * Real.pi)
      (hR : poseReachHigh k (ctraPositionReach k √(6 / (α ^ 2 * (6 + β))) T o.state.v o.state.a o.covariance) V ≤ R) :
      Follows α β k time R (.inr o) ![(t.next T).x, (t.next T).y, (t.next T).yaw.getAngle]

/-- `q` is `x`, up to a fraction `u` of it -/
def Near (u x : ℝ) (q : ℚ) : Prop := 0 ≤ q ∧ |(q : ℝ) - x| ≤ u * x

/-- straight-line distance of two poses -/
noncomputable def poseGap (p q : Fin 3 → ℝ) : ℝ := √((p 0 - q 0) ^ 2 + (p 1 - q 1) ^ 2 + (p 2 - q 2) ^ 2)

end Mot.Spec
