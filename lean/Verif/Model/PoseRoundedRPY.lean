import Verif.Model.PriorRounded

/-!
The scan transformation with roll, pitch and yaw, rounded (C122). Simplifications as in `Model/PoseRounded.lean`.
-/

namespace Ndt.Matching

/-- `a * b * c`, rounded from left to right -/
def product3R (R : Rounding ℝ) (a b c : ℝ) : ℝ := R.rnd (R.rnd (a * b) * c)

/-- `toEigen(raw_rotation_rpy)` (`CN/matching/ceres/map/scan_match_cost_functor_3d_rpy.hpp:24-43`), as `toEigen`, rounded, with the functions of the library -/
noncomputable def toEigenR (R : Rounding ℝ) (L : LibM) (rpy : Fin 3 → ℝ) : Quat :=
  let roll2 := R.rnd (rpy 0 * (1 / 2))
  let pitch2 := R.rnd (rpy 1 * (1 / 2))
  let yaw2 := R.rnd (rpy 2 * (1 / 2))
  { x := R.rnd (product3R R (L.sin roll2) (L.cos pitch2) (L.cos yaw2) - product3R R (L.cos roll2) (L.sin pitch2) (L.sin yaw2))
    y := R.rnd (product3R R (L.cos roll2) (L.sin pitch2) (L.cos yaw2) + product3R R (L.sin roll2) (L.cos pitch2) (L.sin yaw2))
    z := R.rnd (product3R R (L.cos roll2) (L.cos pitch2) (L.sin yaw2) - product3R R (L.sin roll2) (L.sin pitch2) (L.cos yaw2))
    w := R.rnd (product3R R (L.cos roll2) (L.cos pitch2) (L.cos yaw2) + product3R R (L.sin roll2) (L.sin pitch2) (L.sin yaw2)) }

/-- the point transformation of `ScanMatchCostFunctor3dRPY` (`CN/matching/ceres/map/scan_match_cost_functor_3d_rpy.hpp:48-55`), as `movedRPY`, rounded -/
noncomputable def movedRPYR (R : Rounding ℝ) (L : LibM) (translation rpy : Fin 3 → ℝ) (p : Fin 3 → ℝ) : Fin 3 → ℝ := moved3R R translation (toEigenR R L rpy) p

end Ndt.Matching
