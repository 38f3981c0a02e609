import Verif.Model.Float
import Mathlib.Data.Int.Sqrt
/-!
# The Euclidean score in floating-point arithmetic

`euclidean_distance` (ctrv_model.hpp:349-361, ctra_model.hpp:315-327) as it is computed: the
poses are cast from `double` to `float` before they are subtracted, everything else is
`float` arithmetic.  The two functions have the same body.

Not modelled: the sign of zero.  `diff.transpose() * diff` is a product of dynamic-size
vectors with three elements; Eigen adds the products from left to right (shorter than a SIMD
packet).  No contraction to fused multiply-add.
-/

namespace Mot

/-- addition -/
def FP.add (f : Fmt) : FP → FP → FP
  | nan, _ => nan
  | _, nan => nan
  | inf s, inf t => if s = t then inf s else nan
  | inf s, fin _ => inf s
  | fin _, inf s => inf s
  | fin a, fin b => ofRat f (a + b)

/-- change of sign -/
def FP.neg : FP → FP
  | nan => nan
  | inf s => inf (!s)
  | fin q => fin (-q)

/-- square root of `y ≥ 0` rounded to the nearest integer, ties to even -/
def roundSqrt (y : ℚ) : ℤ :=
  let k := Int.sqrt ⌊y⌋
  if y < (k + 1 / 2) ^ 2 then k
  else if (k + 1 / 2) ^ 2 < y then k + 1
  else if k % 2 = 0 then k else k + 1

/-- exponent of the unit in the last place at `√q` -/
def Fmt.sqrtExp (f : Fmt) (q : ℚ) : ℤ := max (Int.log 2 q / 2 - (f.prec - 1)) f.emin

/-- `√q` rounded to the format -/
def Fmt.sqrt (f : Fmt) (q : ℚ) : ℚ :=
  if q = 0 then 0 else roundSqrt (q / ((2 : ℚ) ^ f.sqrtExp q) ^ 2) * (2 : ℚ) ^ f.sqrtExp q

/-- `std::sqrt(float)`, correctly rounded (IEEE 754, 5.4.1); it cannot overflow -/
def FP.sqrt (f : Fmt) : FP → FP
  | nan => nan
  | inf neg => if neg then nan else inf false
  | fin q => if q < 0 then nan else fin (f.sqrt q)

/-- `position_x`, `position_y` and `yaw.get_angle()` as `double`s -/
structure FPose where
  x : FP
  y : FP
  yaw : FP
  deriving DecidableEq

/-- `Eigen::Vector3f{unit_cast<float>(…), …}`, ctrv_model.hpp:351-356, ctra_model.hpp:317-322 -/
def FPose.toFloat (p : FPose) : FPose :=
  ⟨p.x.conv binary32, p.y.conv binary32, p.yaw.conv binary32⟩

/-- `diff.transpose() * diff` -/
def dot3 (a b c : FP) : FP :=
  FP.add binary32 (FP.add binary32 (FP.mul binary32 a a) (FP.mul binary32 b b))
    (FP.mul binary32 c c)

/-- `euclidean_distance`, ctrv_model.hpp:349-361, ctra_model.hpp:315-327 -/
def euclidF (l r : FPose) : FP :=
  let l' := l.toFloat
  let r' := r.toFloat
  FP.sqrt binary32 (dot3 (FP.sub binary32 l'.x r'.x) (FP.sub binary32 l'.y r'.y)
    (FP.sub binary32 l'.yaw r'.yaw))

end Mot
