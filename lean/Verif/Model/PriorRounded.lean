import Verif.Model.PoseRounded

/-!
The priors of the ceres problems with rounded arithmetic (C123): `CN/matching/ceres/{translation,rotation}/*_cost_functor_*.hpp` with every floating-point operation rounded.
Simplifications: no contraction to fused multiply-add, no underflow and overflow (relative errors only), no signed zeros, the value part of a `Jet` only.
-/

namespace Ndt.Matching

/-- `std::sin`, `std::cos` and `std::atan2` (external code, called by `ceres::sin`, `ceres::cos` and `ceres::atan2`): arbitrary functions -/
structure LibM where
  sin : ℝ → ℝ
  cos : ℝ → ℝ
  atan2 : ℝ → ℝ → ℝ

/-- the lambda `norm` (`CN/matching/ceres/rotation/rotation_cost_functor_2d.hpp:39-41`, `rotation_cost_functor_3d_rpy.hpp:43-45`), as `angleNorm`, with the functions of the library -/
def angleNormR (L : LibM) (r : ℝ) : ℝ := L.atan2 (L.sin r) (L.cos r)

/-- `AngleDifference(r0, r, d)` (`CN/matching/ceres/rotation/rotation_cost_functor_2d.hpp:35-49`, `rotation_cost_functor_3d_rpy.hpp:39-53`), as `angleDifference`, rounded; `pi` is the constant `M_PI`, a number of the type -/
noncomputable def angleDifferenceR (R : Rounding ℝ) (L : LibM) (pi r0 r : ℝ) : ℝ :=
  let a := angleNormR L r0
  let b := angleNormR L r
  let d1 := R.rnd (a - b)
  let d2 := R.rnd (R.rnd (R.rnd (2 * pi) - |d1|) * (if 0 < d1 then -1 else 1))
  if |d1| < |d2| then d1 else d2

/-- `RotationCostFunctor2d::operator()` (`CN/matching/ceres/rotation/rotation_cost_functor_2d.hpp:23-32`), rounded -/
noncomputable def rotationResidual2R (R : Rounding ℝ) (L : LibM) (pi weight prior rotation : ℝ) : ℝ := R.rnd (weight * angleDifferenceR R L pi prior rotation)

/-- `RotationCostFunctor3dRPY::operator()` (`CN/matching/ceres/rotation/rotation_cost_functor_3d_rpy.hpp:25-36`), rounded -/
noncomputable def rotationResidualRPYR (R : Rounding ℝ) (L : LibM) (pi weight : ℝ) (prior rotation : Fin 3 → ℝ) : Fin 3 → ℝ :=
  fun i => R.rnd (weight * angleDifferenceR R L pi (prior i) (rotation i))

/-- `TranslationCostFunctor2d/3d::operator()` (`CN/matching/ceres/translation/translation_cost_functor_2d.hpp:25-32`, `translation_cost_functor_3d.hpp:25-32`), rounded -/
def translationResidualR {d : Nat} (R : Rounding ℝ) (weight : ℝ) (prior translation : Fin d → ℝ) : Fin d → ℝ := fun i => R.rnd (weight * R.rnd (translation i - prior i))

/-- `RotationCostFunctor3dQuaternion::operator()` (`CN/matching/ceres/rotation/rotation_cost_functor_3d_quaternion.hpp:25-46`), rounded; the changes of sign in the constructor (`:48-57`) are exact -/
def rotationResidualQuatR (R : Rounding ℝ) (weight : ℝ) (prior rotation : Quat) : Fin 4 → ℝ :=
  let delta := Quat.mulR R prior.inv rotation
  ![R.rnd (weight * delta.w), R.rnd (weight * delta.x), R.rnd (weight * delta.y), R.rnd (weight * delta.z)]

end Ndt.Matching
