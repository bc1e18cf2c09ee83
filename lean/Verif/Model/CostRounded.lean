import Verif.Model.Matching
import Verif.Model.Rounding

/-!
The cost functions of nlopt and alglib with rounded arithmetic (C126). All of it is computed in `double`. The scores are the values that `map.sampleNonNormalized` returned for the transformed points (their own errors are the subject of C83 and
C122), the differences of angles those that `cslibs_math::common::angle::difference` returned. Simplifications: no contraction to fused multiply-add, no underflow and overflow (relative errors only); `static_cast<double>(points.size())` is
exact (at most 2^53 points).
-/

namespace Ndt.Matching

open Real

/-- `std::isnormal(score) ? (1.0 - score) : 1.0`, as `pointCost`, rounded (`C2/matching/nlopt/gridmap_function.hpp:60`, `C3/matching/nlopt/gridmap_function.hpp:67, 139` and likewise) -/
noncomputable def pointCostR (R : Rounding ℝ) (tiny : ℝ) (score : Fl ℝ) : ℝ := if Fl.isNormal tiny score then R.rnd (1 - value score) else 1

/-- `if (std::isnormal(score)) fi += 1.0 - score`, as `pointCostSkip`, rounded (`C3/matching/nlopt/occupancy_gridmap_function.hpp:69-70, 143-144`); `fi + 0` is `fi` -/
noncomputable def pointCostSkipR (R : Rounding ℝ) (tiny : ℝ) (score : Fl ℝ) : ℝ := if Fl.isNormal tiny score then R.rnd (1 - value score) else 0

/-- `hypot` of three arguments (`C3/matching/nlopt/gridmap_function.hpp:34-38`), rounded; the square root is rounded correctly (IEEE 754) -/
noncomputable def hypot3R (R : Rounding ℝ) (x y z : ℝ) : ℝ := R.rnd √(R.rnd (R.rnd (R.rnd (x * x) + R.rnd (y * y)) + R.rnd (z * z)))

/-- the residuals of a scan for ceres, rounded: the weight is divided by the square root of the number of points once (`CN/matching/ceres/map/scan_match_cost_functor_creator.hpp:16-41`), the residual is the product with the value of `Evaluate`
(`CN/matching/ceres/map/scan_match_cost_functor_2d.hpp:34-37`, `_3d_quaternion.hpp:35-38`, `_3d_rpy.hpp:57-60`). `v` is the value that `Evaluate` returned, a number (0 passes the "nan test" as 0). -/
noncomputable def createdResidualsR (R : Rounding ℝ) {d : Nat} (weight : ℝ) (points : List (Fin d → ℝ)) (v : (Fin d → ℝ) → ℝ) : List ℝ :=
  points.map fun p => R.rnd (R.rnd (weight / R.rnd √(points.length : ℝ)) * v p)

namespace Functor
variable {n d : Nat}

/-- the loop over the points, rounded (`C2/matching/nlopt/gridmap_function.hpp:56-61` and likewise) -/
noncomputable def sumCostR (R : Rounding ℝ) (F : Functor n d) (cost : Fl ℝ → ℝ) (x : Fin n → ℝ) : ℝ := F.points.foldl (fun fi p => R.rnd (fi + cost (F.sample (F.act x p)))) 0

/-- the weighting at the end of `apply`, rounded (`C2/matching/nlopt/gridmap_function.hpp:68-71`, `C3/matching/nlopt/gridmap_function.hpp:77-80, 149-152`) -/
noncomputable def weightedR (R : Rounding ℝ) (F : Functor n d) (fi trans rot : ℝ) : ℝ :=
  R.rnd (R.rnd (R.rnd (R.rnd (F.mapW * fi) / (F.points.length : ℝ)) + R.rnd (F.transW * trans)) + R.rnd (F.rotW * |rot|))

/-- the end of `mapScore`, rounded (`C2/matching/nlopt/gridmap_function.hpp:91-95`, `C3/matching/nlopt/gridmap_function.hpp:102-106, 175-179`) -/
noncomputable def unweightedR (R : Rounding ℝ) (F : Functor n d) (fi trans rot : ℝ) : ℝ :=
  R.rnd (1 - R.rnd (R.rnd (R.rnd (fi - R.rnd (F.transW * trans)) - R.rnd (F.rotW * |rot|)) / F.mapW))

/-- `trans_diff` in 2D, rounded (`C2/matching/nlopt/gridmap_function.hpp:65, 88`); `hyp` is `hypot` of the C++ library -/
noncomputable def trans2R (R : Rounding ℝ) (hyp : ℝ → ℝ → ℝ) (F : Functor 3 d) (x : Fin 3 → ℝ) : ℝ := hyp (R.rnd (x 0 - F.guess 0)) (R.rnd (x 1 - F.guess 1))

/-- `trans_diff` in 3D, rounded (`C3/matching/nlopt/gridmap_function.hpp:72, 97, 144, 170`) -/
noncomputable def trans3R {n : Nat} (R : Rounding ℝ) (F : Functor (n + 3) 3) (x : Fin (n + 3) → ℝ) : ℝ := hypot3R R (R.rnd (x 0 - F.guess 0)) (R.rnd (x 1 - F.guess 1)) (R.rnd (x 2 - F.guess 2))

/-- `rot_diff` with Euler angles, rounded (`C3/matching/nlopt/gridmap_function.hpp:73-75, 98-100`) -/
noncomputable def rotRPYR (R : Rounding ℝ) (F : Functor 6 3) (x : Fin 6 → ℝ) : ℝ := hypot3R R (F.dif (x 3) (F.guess 3)) (F.dif (x 4) (F.guess 4)) (F.dif (x 5) (F.guess 5))

/-- `Function::apply` of 2D NDT maps, rounded (`C2/matching/nlopt/gridmap_function.hpp:33-74`) -/
noncomputable def nlopt2R (R : Rounding ℝ) (hyp : ℝ → ℝ → ℝ) (F : Functor 3 2) (x : Fin 3 → ℝ) : ℝ := F.weightedR R (F.sumCostR R (pointCostR R F.tiny) x) (F.trans2R R hyp x) (F.rot2 x)

/-- `Function::mapScore` of 2D NDT maps, rounded (`C2/matching/nlopt/gridmap_function.hpp:76-96`) -/
noncomputable def nloptScore2R (R : Rounding ℝ) (hyp : ℝ → ℝ → ℝ) (F : Functor 3 2) (x : Fin 3 → ℝ) (fi : ℝ) : ℝ := F.unweightedR R fi (F.trans2R R hyp x) (F.rot2 x)

/-- `applyRPY` and `mapScoreRPY` of 3D NDT maps, rounded (`C3/matching/nlopt/gridmap_function.hpp:40-83, 85-107`) -/
noncomputable def nloptRPYR (R : Rounding ℝ) (F : Functor 6 3) (x : Fin 6 → ℝ) : ℝ := F.weightedR R (F.sumCostR R (pointCostR R F.tiny) x) (F.trans3R R x) (F.rotRPYR R x)
noncomputable def nloptScoreRPYR (R : Rounding ℝ) (F : Functor 6 3) (x : Fin 6 → ℝ) (fi : ℝ) : ℝ := F.unweightedR R fi (F.trans3R R x) (F.rotRPYR R x)

/-- `applyRPY` of 3D occupancy maps, rounded (`C3/matching/nlopt/occupancy_gridmap_function.hpp:41-87`) -/
noncomputable def nloptOccRPYR (R : Rounding ℝ) (F : Functor 6 3) (x : Fin 6 → ℝ) : ℝ := F.weightedR R (F.sumCostR R (pointCostSkipR R F.tiny) x) (F.trans3R R x) (F.rotRPYR R x)

/-- `rot_diff` with quaternions, rounded (`C3/matching/nlopt/gridmap_function.hpp:145-147, 171-173`); `roll`, `pitch` and `yaw` are the values that the functions of `cslibs_math_3d::Quaternion` returned -/
noncomputable def rotQuatR (R : Rounding ℝ) (roll pitch yaw : Quat → ℝ) (F : Functor 7 3) (x : Fin 7 → ℝ) : ℝ :=
  let q : Quat := { w := x 6, x := x 3, y := x 4, z := x 5 }
  hypot3R R (F.dif (roll q) (F.guess 3)) (F.dif (pitch q) (F.guess 4)) (F.dif (yaw q) (F.guess 5))

/-- `applyQuaternion` and `mapScoreQuaternion` of 3D NDT maps, rounded (`C3/matching/nlopt/gridmap_function.hpp:109-155, 157-180`), and `applyQuaternion` of 3D occupancy maps (`C3/matching/nlopt/occupancy_gridmap_function.hpp:112-160`) -/
noncomputable def nloptQuatR (R : Rounding ℝ) (roll pitch yaw : Quat → ℝ) (F : Functor 7 3) (x : Fin 7 → ℝ) : ℝ := F.weightedR R (F.sumCostR R (pointCostR R F.tiny) x) (F.trans3R R x) (F.rotQuatR R roll pitch yaw x)
noncomputable def nloptScoreQuatR (R : Rounding ℝ) (roll pitch yaw : Quat → ℝ) (F : Functor 7 3) (x : Fin 7 → ℝ) (fi : ℝ) : ℝ := F.unweightedR R fi (F.trans3R R x) (F.rotQuatR R roll pitch yaw x)
noncomputable def nloptOccQuatR (R : Rounding ℝ) (roll pitch yaw : Quat → ℝ) (F : Functor 7 3) (x : Fin 7 → ℝ) : ℝ := F.weightedR R (F.sumCostR R (pointCostSkipR R F.tiny) x) (F.trans3R R x) (F.rotQuatR R roll pitch yaw x)

/-- `Function::apply` of 2D occupancy maps, rounded (`C2/matching/nlopt/occupancy_gridmap_function.hpp:34-81`) -/
noncomputable def nloptOcc2R (R : Rounding ℝ) (F : Functor 3 2) (x : Fin 3 → ℝ) : ℝ :=
  let sq := fun (v : ℝ) => R.rnd (v * v)
  let fi := F.points.foldl (fun fi p => R.rnd (fi + R.rnd (R.rnd (1 / 2 * F.mapW) * sq (R.rnd (pointCostR R F.tiny (F.sample (F.act x p)) / (F.points.length : ℝ)))))) 0
  let fi := R.rnd (fi + R.rnd (F.transW * R.rnd (sq (R.rnd (x 0 - F.guess 0)) + sq (R.rnd (x 1 - F.guess 1)))))
  let fi := R.rnd (fi + R.rnd (F.rotW * sq (F.rot2 x)))
  R.rnd (1 / 2 * fi)

/-- the residuals of the points for alglib, rounded (`C2/matching/alglib/gridmap_function.hpp:53-60`, `C3/matching/alglib/gridmap_function.hpp:56-63, 120-127`, occupancy likewise) -/
noncomputable def alglibPointsR (R : Rounding ℝ) (F : Functor n d) (x : Fin n → ℝ) : List ℝ :=
  F.points.map fun p => R.rnd (R.rnd (F.mapW * pointCostR R F.tiny (F.sample (F.act x p))) / (F.points.length : ℝ))

/-- `apply` of 2D maps for alglib, rounded (`C2/matching/alglib/gridmap_function.hpp:33-67`, `occupancy_gridmap_function.hpp:34-69`) -/
noncomputable def alglib2R (R : Rounding ℝ) (F : Functor 3 2) (x : Fin 3 → ℝ) : List ℝ :=
  F.alglibPointsR R x ++ [R.rnd (F.transW * R.rnd (x 0 - F.guess 0)), R.rnd (F.transW * R.rnd (x 1 - F.guess 1)), R.rnd (F.rotW * |F.dif (x 2) (F.guess 2)|)]

/-- `applyRPY` of 3D maps for alglib, rounded (`C3/matching/alglib/gridmap_function.hpp:36-73`, `occupancy_gridmap_function.hpp:37-75`) -/
noncomputable def alglibRPYR (R : Rounding ℝ) (F : Functor 6 3) (x : Fin 6 → ℝ) : List ℝ :=
  F.alglibPointsR R x ++ [R.rnd (F.transW * R.rnd (x 0 - F.guess 0)), R.rnd (F.transW * R.rnd (x 1 - F.guess 1)), R.rnd (F.transW * R.rnd (x 2 - F.guess 2)),
    R.rnd (F.rotW * |F.dif (x 3) (F.guess 3)|), R.rnd (F.rotW * |F.dif (x 4) (F.guess 4)|), R.rnd (F.rotW * |F.dif (x 5) (F.guess 5)|)]

/-- `mapScore` of the alglib functions, rounded (`C2/matching/alglib/gridmap_function.hpp:69-90`, `C3/matching/alglib/gridmap_function.hpp:75-96, 145-166`, occupancy likewise) -/
noncomputable def alglibScoreR (R : Rounding ℝ) (F : Functor n d) (fi : List ℝ) : ℝ :=
  let scale := R.rnd (1 / F.mapW)
  let absolute := R.rnd (1 / (F.points.length : ℝ))
  (List.range F.points.length).foldl (fun score i => R.rnd (score + R.rnd (absolute - R.rnd (fi.getD i 0 * scale)))) 0

end Functor
end Ndt.Matching
