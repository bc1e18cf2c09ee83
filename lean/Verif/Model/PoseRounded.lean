import Verif.Model.Matching
import Verif.Model.Rounding

/-!
Poses with rounded arithmetic (C122): the yaw-only updates of `CN/matching/ceres/local_parameterization.hpp` and the transformation of scan points in `CN/matching/ceres/map/scan_match_cost_functor_{2d,3d_quaternion}.hpp` with every
floating-point operation rounded. Simplifications: no contraction to fused multiply-add, no underflow and overflow (relative errors only), the value part of a `Jet` only.
-/

namespace Ndt.Matching

open Real

/-- `ceres::QuaternionProduct` (external code), as `Quat.mul`, rounded: products first, then the sums from left to right -/
def Quat.mulR (R : Rounding ℝ) (p q : Quat) : Quat where
  w := R.rnd (R.rnd (R.rnd (R.rnd (p.w * q.w) - R.rnd (p.x * q.x)) - R.rnd (p.y * q.y)) - R.rnd (p.z * q.z))
  x := R.rnd (R.rnd (R.rnd (R.rnd (p.w * q.x) + R.rnd (p.x * q.w)) + R.rnd (p.y * q.z)) - R.rnd (p.z * q.y))
  y := R.rnd (R.rnd (R.rnd (R.rnd (p.w * q.y) - R.rnd (p.x * q.z)) + R.rnd (p.y * q.w)) + R.rnd (p.z * q.x))
  z := R.rnd (R.rnd (R.rnd (R.rnd (p.w * q.z) + R.rnd (p.x * q.y)) - R.rnd (p.y * q.x)) + R.rnd (p.z * q.w))

/-- `YawOnlyQuaternionPlus` (`CN/matching/ceres/local_parameterization.hpp:60-71`), as `yawOnlyQuatPlus`, rounded; the comparisons of `clamp` and its bounds are exact, the square root is rounded correctly (IEEE 754) -/
noncomputable def yawOnlyQuatPlusR (R : Rounding ℝ) (x : Quat) (delta : ℝ) : Quat :=
  let c := clamp delta (-(1 / 2)) (1 / 2)
  Quat.mulR R ⟨R.rnd √(R.rnd (1 - R.rnd (c * c))), 0, 0, c⟩ x

/-- the updates of one optimisation, in order: ceres applies `YawOnlyQuaternionPlus` once per accepted step and never normalises the quaternion -/
noncomputable def yawRunR (R : Rounding ℝ) (x : Quat) (steps : List ℝ) : Quat := steps.foldl (yawOnlyQuatPlusR R) x

/-- one component of `EulerPlus<Num>` (`CN/matching/ceres/local_parameterization.hpp:27-33`) and the yaw of `YawOnlyEulerPlus` (`:43-50`), rounded; `pi` is the constant `M_PI`, a number of the type -/
noncomputable def eulerPlusR (R : Rounding ℝ) (pi x delta : ℝ) : ℝ := clamp (R.rnd (x + delta)) (-pi) pi

/-- the updates of one optimisation, in order -/
noncomputable def eulerRunR (R : Rounding ℝ) (pi x : ℝ) (steps : List ℝ) : ℝ := steps.foldl (eulerPlusR R pi) x

/-- `a.cross(b)` component: `a1 * b2 - a2 * b1` -/
def crossR (R : Rounding ℝ) (a1 b2 a2 b1 : ℝ) : ℝ := R.rnd (R.rnd (a1 * b2) - R.rnd (a2 * b1))

/-- `Eigen::Quaternion * vector` (external code, `_transformVector`), as `Quat.rotate`, rounded: `uv = vec.cross(v); uv += uv; v + w * uv + vec.cross(uv)` -/
def Quat.rotateR (R : Rounding ℝ) (q : Quat) (v : Fin 3 → ℝ) : Fin 3 → ℝ :=
  let uv0 := R.rnd (2 * crossR R q.y (v 2) q.z (v 1))
  let uv1 := R.rnd (2 * crossR R q.z (v 0) q.x (v 2))
  let uv2 := R.rnd (2 * crossR R q.x (v 1) q.y (v 0))
  ![R.rnd (R.rnd (v 0 + R.rnd (q.w * uv0)) + crossR R q.y uv2 q.z uv1),
    R.rnd (R.rnd (v 1 + R.rnd (q.w * uv1)) + crossR R q.z uv0 q.x uv2),
    R.rnd (R.rnd (v 2 + R.rnd (q.w * uv2)) + crossR R q.x uv1 q.y uv0)]

/-- `in_world = rotation * local + translation` (`CN/matching/ceres/map/scan_match_cost_functor_3d_quaternion.hpp:26-33`), as `moved3`, rounded -/
def moved3R (R : Rounding ℝ) (translation : Fin 3 → ℝ) (rotation : Quat) (p : Fin 3 → ℝ) : Fin 3 → ℝ := fun i => R.rnd (rotation.rotateR R p i + translation i)

/-- `in_world = rotation * local + translation` (`CN/matching/ceres/map/scan_match_cost_functor_2d.hpp:24-32`), as `moved2`, rounded; `c` and `s` are the computed cosine and sine of the rotation -/
def moved2R (R : Rounding ℝ) (translation : Fin 2 → ℝ) (c s : ℝ) (p : Fin 2 → ℝ) : Fin 2 → ℝ :=
  ![R.rnd (R.rnd (R.rnd (c * p 0) - R.rnd (s * p 1)) + translation 0), R.rnd (R.rnd (R.rnd (s * p 0) + R.rnd (c * p 1)) + translation 1)]

end Ndt.Matching
