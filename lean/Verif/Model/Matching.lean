import Verif.Model.Sampling
import Verif.Model.Float
import Mathlib.Analysis.SpecialFunctions.Complex.Arg
import Mathlib.Analysis.SpecialFunctions.Trigonometric.Basic
import Mathlib.Data.Fin.VecNotation

/-!
Model of scan matching: the cost functions for ceres (`CN/matching/ceres/**`, `C2/matching/ceres/**`, `C3/matching/ceres/**`), nlopt and alglib
(`C2/matching/{nlopt,alglib}/*.hpp`, `C3/matching/{nlopt,alglib}/*.hpp`).

Parameters are exact reals (assumption A2); sampled scores may be NaN or infinite (`Fl`). Here a `Jet` is its value part; the derivative parts are in `Verif.Model.Jet`.
-/

namespace Ndt.Matching

open Real

/-! ### angles -/

/-- `atan2` (external code): the argument of the complex number `x + iy` -/
noncomputable def atan2 (y x : ℝ) : ℝ := Complex.arg ⟨x, y⟩

/-- the lambda `norm` (`CN/matching/ceres/rotation/rotation_cost_functor_2d.hpp:39-41`, `rotation_cost_functor_3d_rpy.hpp:43-45`) -/
noncomputable def angleNorm (r : ℝ) : ℝ := atan2 (sin r) (cos r)

/-- `AngleDifference(r0, r, d)` (`CN/matching/ceres/rotation/rotation_cost_functor_2d.hpp:35-49`, `rotation_cost_functor_3d_rpy.hpp:39-53`): the value of `*d` -/
noncomputable def angleDifference (r0 r : ℝ) : ℝ :=
  let a := angleNorm r0
  let b := angleNorm r
  let d1 := a - b
  let d2 := (2 * π - |d1|) * (if 0 < d1 then -1 else 1)
  if |d1| < |d2| then d1 else d2

/-- `RotationCostFunctor2d::operator()` (`CN/matching/ceres/rotation/rotation_cost_functor_2d.hpp:23-32`) -/
noncomputable def rotationResidual2 (weight prior rotation : ℝ) : ℝ := weight * angleDifference prior rotation

/-- `RotationCostFunctor3dRPY::operator()` (`CN/matching/ceres/rotation/rotation_cost_functor_3d_rpy.hpp:25-36`) -/
noncomputable def rotationResidualRPY (weight : ℝ) (prior rotation : Fin 3 → ℝ) : Fin 3 → ℝ := fun i => weight * angleDifference (prior i) (rotation i)

/-- `TranslationCostFunctor2d/3d::operator()` (`CN/matching/ceres/translation/translation_cost_functor_2d.hpp:25-32`, `translation_cost_functor_3d.hpp:25-32`) -/
def translationResidual {d : Nat} (weight : ℝ) (prior translation : Fin d → ℝ) : Fin d → ℝ := fun i => weight * (translation i - prior i)

/-! ### quaternions -/

/-- A quaternion in the order `w, x, y, z`. -/
@[ext] structure Quat where
  w : ℝ
  x : ℝ
  y : ℝ
  z : ℝ

/-- `QuaternionProduct(z, w, zw)` (`CN/matching/ceres/rotation/rotation_cost_functor_3d_quaternion.hpp:39-46`); `ceres::QuaternionProduct` (external) is the same function. -/
def Quat.mul (p q : Quat) : Quat where
  w := p.w * q.w - p.x * q.x - p.y * q.y - p.z * q.z
  x := p.w * q.x + p.x * q.w + p.y * q.z - p.z * q.y
  y := p.w * q.y - p.x * q.z + p.y * q.w + p.z * q.x
  z := p.w * q.z + p.x * q.y - p.y * q.x + p.z * q.w

/-- `rotation_inverse_wxyz_` (`CN/matching/ceres/rotation/rotation_cost_functor_3d_quaternion.hpp:51-55`) -/
def Quat.inv (q : Quat) : Quat := ⟨q.w, -q.x, -q.y, -q.z⟩

/-- `RotationCostFunctor3dQuaternion::operator()` (`CN/matching/ceres/rotation/rotation_cost_functor_3d_quaternion.hpp:25-36`) -/
def rotationResidualQuat (weight : ℝ) (prior rotation : Quat) : Fin 4 → ℝ :=
  let delta := prior.inv.mul rotation
  ![weight * delta.w, weight * delta.x, weight * delta.y, weight * delta.z]

/-- `Eigen::Quaternion * vector` (external code, `_transformVector`): `v + w * uv + q × uv` with `uv = 2 (q × v)` -/
def Quat.rotate (q : Quat) (v : Fin 3 → ℝ) : Fin 3 → ℝ :=
  let uv0 := 2 * (q.y * v 2 - q.z * v 1)
  let uv1 := 2 * (q.z * v 0 - q.x * v 2)
  let uv2 := 2 * (q.x * v 1 - q.y * v 0)
  ![v 0 + q.w * uv0 + (q.y * uv2 - q.z * uv1), v 1 + q.w * uv1 + (q.z * uv0 - q.x * uv2), v 2 + q.w * uv2 + (q.x * uv1 - q.y * uv0)]

/-- `toEigen(raw_rotation_rpy)` (`CN/matching/ceres/map/scan_match_cost_functor_3d_rpy.hpp:24-43`) -/
noncomputable def toEigen (rpy : Fin 3 → ℝ) : Quat :=
  let roll2 := rpy 0 * (1 / 2)
  let pitch2 := rpy 1 * (1 / 2)
  let yaw2 := rpy 2 * (1 / 2)
  { x := sin roll2 * cos pitch2 * cos yaw2 - cos roll2 * sin pitch2 * sin yaw2
    y := cos roll2 * sin pitch2 * cos yaw2 + sin roll2 * cos pitch2 * sin yaw2
    z := cos roll2 * cos pitch2 * sin yaw2 - sin roll2 * sin pitch2 * cos yaw2
    w := cos roll2 * cos pitch2 * cos yaw2 + sin roll2 * sin pitch2 * sin yaw2 }

/-! ### parameter updates -/

/-- `clamp` (`CN/matching/ceres/local_parameterization.hpp:11-17`) -/
noncomputable def clamp (value lo hi : ℝ) : ℝ := if hi < value then hi else if value < lo then lo else value

/-- `EulerPlus<Num>` (`CN/matching/ceres/local_parameterization.hpp:27-33`) -/
noncomputable def eulerPlus {n : Nat} (x delta : Fin n → ℝ) : Fin n → ℝ := fun i => clamp (x i + delta i) (-π) π

/-- `YawOnlyEulerPlus` (`CN/matching/ceres/local_parameterization.hpp:43-50`) -/
noncomputable def yawOnlyEulerPlus (x : Fin 3 → ℝ) (delta : ℝ) : Fin 3 → ℝ := ![x 0, x 1, clamp (x 2 + delta) (-π) π]

/-- `YawOnlyQuaternionPlus` (`CN/matching/ceres/local_parameterization.hpp:60-71`) -/
noncomputable def yawOnlyQuatPlus (x : Quat) (delta : ℝ) : Quat :=
  let c := clamp delta (-(1 / 2)) (1 / 2)
  Quat.mul ⟨√(1 - c * c), 0, 0, c⟩ x

/-! ### ceres scan matching -/

/-- the point transformation of `ScanMatchCostFunctor2d` (`CN/matching/ceres/map/scan_match_cost_functor_2d.hpp:24-32`); `Eigen::Rotation2D` is external code -/
noncomputable def moved2 (translation : Fin 2 → ℝ) (rotation : ℝ) (p : Fin 2 → ℝ) : Fin 2 → ℝ :=
  ![cos rotation * p 0 - sin rotation * p 1 + translation 0, sin rotation * p 0 + cos rotation * p 1 + translation 1]

/-- the point transformation of `ScanMatchCostFunctor3dQuaternion` (`CN/matching/ceres/map/scan_match_cost_functor_3d_quaternion.hpp:26-33`) -/
def moved3 (translation : Fin 3 → ℝ) (rotation : Quat) (p : Fin 3 → ℝ) : Fin 3 → ℝ := fun i => rotation.rotate p i + translation i

/-- the point transformation of `ScanMatchCostFunctor3dRPY` (`CN/matching/ceres/map/scan_match_cost_functor_3d_rpy.hpp:48-55`) -/
noncomputable def movedRPY (translation rpy : Fin 3 → ℝ) (p : Fin 3 → ℝ) : Fin 3 → ℝ := moved3 translation (toEigen rpy) p

/-- one residual: the "nan test" and the weight (`CN/matching/ceres/map/scan_match_cost_functor_2d.hpp:34-37`, `_3d_quaternion.hpp:35-38`, `_3d_rpy.hpp:57-60`); `value` is the result of `Evaluate` -/
noncomputable def scanResidual (weight : ℝ) (value : Fl ℝ) : Fl ℝ :=
  .fin weight * (if Fl.eq value (-value) then 0 else value)

/-- `operator()` of the three scan match functors: one residual per point; `moved` is the point transformation, `evaluate` is `Evaluate` -/
noncomputable def scanResiduals {d : Nat} (weight : ℝ) (points : List (Fin d → ℝ)) (moved : (Fin d → ℝ) → Fin d → ℝ) (evaluate : (Fin d → ℝ) → Fl ℝ) : List (Fl ℝ) :=
  points.map fun p => scanResidual weight (evaluate (moved p))

/-- `CreateAutoDiffCostFunction`, `CreateNumericDiffCostFunction` (`CN/matching/ceres/map/scan_match_cost_functor_creator.hpp:16-41`): the functor gets the weight divided by the square root of the number of points -/
noncomputable def createdResiduals {d : Nat} (weight : ℝ) (points : List (Fin d → ℝ)) (moved : (Fin d → ℝ) → Fin d → ℝ) (evaluate : (Fin d → ℝ) → Fl ℝ) : List (Fl ℝ) :=
  scanResiduals (weight / √(points.length : ℝ)) points moved evaluate

section evaluate
variable {d : Nat} {B : Backend d} {D : Type}

/-- `Evaluate` for `double`, flag `DIRECT` (`C2/matching/ceres/map/gridmap_cost_functor.hpp:35-39`, `C3/matching/ceres/map/gridmap_cost_functor.hpp:37-41`): `none` is an access outside of the map's storage -/
noncomputable def evaluateDouble (g : Geo ℝ d) (dyn : Bool) (dens : D → Pt ℝ d → ℝ) (st : St B D) (q : Pt ℝ d) : Option ℝ :=
  (st.sampleNNAt g dyn dens q).map fun s => 1 - s

/-- the loop over the bins for `Jet`s (`C2/matching/ceres/map/gridmap_cost_functor.hpp:54-68`, `C3/…:55-69`); `valid` is `di->valid()`, `bell` is the exponential of the squared Mahalanobis distance -/
noncomputable def jetLoop (valid : D → Bool) (bell : D → Pt ℝ d → ℝ) (p : Pt ℝ d) (b : Bundle) (st : St B D) : ℝ :=
  (List.range (twoPow d)).foldl (fun value i =>
    match b.data i with
    | none => value
    | some a => if valid (st.heap a) then value - divCount ℝ d * bell (st.heap a) p else value) 1

/-- `Evaluate` for `Jet`s, flag `DIRECT` (`C2/matching/ceres/map/gridmap_cost_functor.hpp:41-70`, `C3/matching/ceres/map/gridmap_cost_functor.hpp:43-71`). The rotation and translation of `getInitialOrigin().inverse()` are the
transformation `m_T_w_` of the map (assumption A5). -/
noncomputable def evaluateJet (g : Geo ℝ d) (dyn : Bool) (valid : D → Bool) (bell : D → Pt ℝ d → ℝ) (st : St B D) (q : Pt ℝ d) : Option ℝ :=
  let p := g.toMap q
  let bi : Idx d := fun a => ⌊p a * (1 / bundleResolution g.r)⌋
  match st.getBundle dyn bi with
  | none => none
  | some none => some 1
  | some (some b) => some (jetLoop valid bell p b st)

variable {W E : Type}

/-- `Evaluate` of occupancy maps for `double` (`C2/matching/ceres/map/occupancy_gridmap_cost_functor.hpp:38-42`, `C3/…:40-44`) -/
noncomputable def occEvaluateDouble {M : Type} (g : Geo ℝ d) (dyn : Bool) (dens : Multiset E → Pt ℝ d → ℝ) (occ : M → Occ W E → ℝ) (ivm : Option M) (st : St B (Occ W E)) (q : Pt ℝ d) :
    Except String (Option ℝ) :=
  (st.occSampleNNAt g dyn dens occ q ivm).map fun s => s.map fun s => 1 - s

/-- the loop over the bins for `Jet`s on occupancy maps (`C2/matching/ceres/map/occupancy_gridmap_cost_functor.hpp:56-72`, `C3/…:58-75`); `getOccupancy(ivm_)` throws for a null pointer, here `none` -/
noncomputable def occJetLoop {M : Type} (valid : Multiset E → Bool) (bell : Multiset E → Pt ℝ d → ℝ) (occ : M → Occ W E → ℝ) (ivm : Option M) (p : Pt ℝ d) (b : Bundle) (st : St B (Occ W E)) :
    List Nat → ℝ → Except String ℝ
  | [], value => .ok value
  | i :: l, value =>
    match b.data i with
    | none => occJetLoop valid bell occ ivm p b st l value
    | some a =>
      match ivm with
      | none => .error "inverse model not set!"
      | some m =>
        match (st.heap a).data with
        | none => occJetLoop valid bell occ ivm p b st l value
        | some s => occJetLoop valid bell occ ivm p b st l (if valid s then value - divCount ℝ d * bell s p * occ m (st.heap a) else value)

/-- `Evaluate` of occupancy maps for `Jet`s (`C2/matching/ceres/map/occupancy_gridmap_cost_functor.hpp:44-74`, `C3/…:46-77`) -/
noncomputable def occEvaluateJet {M : Type} (g : Geo ℝ d) (dyn : Bool) (valid : Multiset E → Bool) (bell : Multiset E → Pt ℝ d → ℝ) (occ : M → Occ W E → ℝ) (ivm : Option M) (st : St B (Occ W E)) (q : Pt ℝ d) :
    Except String (Option ℝ) :=
  let p := g.toMap q
  let bi : Idx d := fun a => ⌊p a * (1 / bundleResolution g.r)⌋
  match st.getBundle dyn bi with
  | none => .ok none
  | some none => .ok (some 1)
  | some (some b) => (occJetLoop valid bell occ ivm p b st (List.range (twoPow d)) 1).map some

end evaluate

/-! ### nlopt and alglib -/

/-- the number in a finite value -/
def value : Fl ℝ → ℝ
  | .fin x => x
  | _ => 0

/-- `std::isnormal(score) ? (1.0 - score) : 1.0`; `tiny` is the smallest positive normal number -/
noncomputable def pointCost (tiny : ℝ) (score : Fl ℝ) : ℝ := if Fl.isNormal tiny score then 1 - value score else 1

/-- `if (std::isnormal(score)) fi += 1.0 - score` (`C3/matching/nlopt/occupancy_gridmap_function.hpp:69-70, 143-144`): the cost added -/
noncomputable def pointCostSkip (tiny : ℝ) (score : Fl ℝ) : ℝ := if Fl.isNormal tiny score then 1 - value score else 0

/-- The members of the `Functor` structs. `sample` is `map.sampleNonNormalized` (with the inverse model), `act x` the transformation with the parameters `x`, `dif` is `cslibs_math::common::angle::difference` (all external or arbitrary). -/
structure Functor (n d : Nat) where
  points : List (Fin d → ℝ)
  sample : (Fin d → ℝ) → Fl ℝ
  act : (Fin n → ℝ) → (Fin d → ℝ) → Fin d → ℝ
  dif : ℝ → ℝ → ℝ
  guess : Fin n → ℝ
  transW : ℝ
  rotW : ℝ
  mapW : ℝ
  tiny : ℝ

namespace Functor
variable {n d : Nat}

/-- the loop over the points (`C2/matching/nlopt/gridmap_function.hpp:56-61` and likewise); `cost` is the contribution of a score -/
def sumCost (F : Functor n d) (cost : Fl ℝ → ℝ) (x : Fin n → ℝ) : ℝ := F.points.foldl (fun fi p => fi + cost (F.sample (F.act x p))) 0

/-- the weighting at the end of `apply` (`C2/matching/nlopt/gridmap_function.hpp:68-73`, `C3/matching/nlopt/gridmap_function.hpp:77-82, 149-154`) -/
noncomputable def weighted (F : Functor n d) (fi trans rot : ℝ) : ℝ := F.mapW * fi / (F.points.length : ℝ) + F.transW * trans + F.rotW * |rot|

/-- the end of `mapScore` (`C2/matching/nlopt/gridmap_function.hpp:91-95`, `C3/matching/nlopt/gridmap_function.hpp:102-106, 175-179`) -/
noncomputable def unweighted (F : Functor n d) (fi trans rot : ℝ) : ℝ := 1 - (fi - F.transW * trans - F.rotW * |rot|) / F.mapW

end Functor

/-- `hypot` of two arguments (external code) -/
noncomputable def hypot2 (x y : ℝ) : ℝ := √(x * x + y * y)

/-- `hypot` of three arguments (`C3/matching/nlopt/gridmap_function.hpp:34-38`) -/
noncomputable def hypot3 (x y z : ℝ) : ℝ := √(x * x + y * y + z * z)

namespace Functor

/-- `trans_diff` and `rot_diff` in 2D (`C2/matching/nlopt/gridmap_function.hpp:64-66, 87-89`) -/
noncomputable def trans2 {d : Nat} (F : Functor 3 d) (x : Fin 3 → ℝ) : ℝ := hypot2 (x 0 - F.guess 0) (x 1 - F.guess 1)
def rot2 {d : Nat} (F : Functor 3 d) (x : Fin 3 → ℝ) : ℝ := F.dif (x 2) (F.guess 2)

/-- `Function::apply` of 2D NDT maps (`C2/matching/nlopt/gridmap_function.hpp:33-74`), without gradient and with a functor -/
noncomputable def nlopt2 (F : Functor 3 2) (x : Fin 3 → ℝ) : ℝ := F.weighted (F.sumCost (pointCost F.tiny) x) (F.trans2 x) (F.rot2 x)

/-- `Function::mapScore` of 2D NDT maps (`C2/matching/nlopt/gridmap_function.hpp:76-96`) -/
noncomputable def nloptScore2 (F : Functor 3 2) (x : Fin 3 → ℝ) (fi : ℝ) : ℝ := F.unweighted fi (F.trans2 x) (F.rot2 x)

/-- `Function::apply` of 2D occupancy maps (`C2/matching/nlopt/occupancy_gridmap_function.hpp:34-81`) -/
noncomputable def nloptOcc2 (F : Functor 3 2) (x : Fin 3 → ℝ) : ℝ :=
  let sq := fun (v : ℝ) => v * v
  let fi := F.points.foldl (fun fi p => fi + (1 / 2) * F.mapW * sq (pointCost F.tiny (F.sample (F.act x p)) / (F.points.length : ℝ))) 0
  let fi := fi + F.transW * (sq (x 0 - F.guess 0) + sq (x 1 - F.guess 1))
  let fi := fi + F.rotW * sq (F.rot2 x)
  (1 / 2) * fi

/-- `Function::mapScore` of 2D occupancy maps (`C2/matching/nlopt/occupancy_gridmap_function.hpp:83-103`) -/
noncomputable def nloptOccScore2 (F : Functor 3 2) (x : Fin 3 → ℝ) (fi : ℝ) : ℝ := F.unweighted fi (F.trans2 x) (F.rot2 x)

/-- `trans_diff` in 3D (`C3/matching/nlopt/gridmap_function.hpp:72, 97, 144, 170`) -/
noncomputable def trans3 {n : Nat} (F : Functor (n + 3) 3) (x : Fin (n + 3) → ℝ) : ℝ := hypot3 (x 0 - F.guess 0) (x 1 - F.guess 1) (x 2 - F.guess 2)

/-- `rot_diff` with Euler angles (`C3/matching/nlopt/gridmap_function.hpp:73-75, 98-100`) -/
noncomputable def rotRPY (F : Functor 6 3) (x : Fin 6 → ℝ) : ℝ := hypot3 (F.dif (x 3) (F.guess 3)) (F.dif (x 4) (F.guess 4)) (F.dif (x 5) (F.guess 5))

/-- `rot_diff` with quaternions (`C3/matching/nlopt/gridmap_function.hpp:145-147, 171-173`); `roll`, `pitch`, `yaw` are the functions of `cslibs_math_3d::Quaternion` (external code), applied to the quaternion `(x[3], x[4], x[5], x[6])`
in the order x, y, z, w. The constructor of the pose stores the quaternion as given. -/
noncomputable def rotQuat (roll pitch yaw : Quat → ℝ) (F : Functor 7 3) (x : Fin 7 → ℝ) : ℝ :=
  let q : Quat := { w := x 6, x := x 3, y := x 4, z := x 5 }
  hypot3 (F.dif (roll q) (F.guess 3)) (F.dif (pitch q) (F.guess 4)) (F.dif (yaw q) (F.guess 5))

/-- `applyRPY`, `mapScoreRPY`, `applyQuaternion`, `mapScoreQuaternion` of 3D NDT maps (`C3/matching/nlopt/gridmap_function.hpp:40-83, 85-107, 109-155, 157-180`) -/
noncomputable def nloptRPY (F : Functor 6 3) (x : Fin 6 → ℝ) : ℝ := F.weighted (F.sumCost (pointCost F.tiny) x) (F.trans3 x) (F.rotRPY x)
noncomputable def nloptScoreRPY (F : Functor 6 3) (x : Fin 6 → ℝ) (fi : ℝ) : ℝ := F.unweighted fi (F.trans3 x) (F.rotRPY x)
noncomputable def nloptQuat (roll pitch yaw : Quat → ℝ) (F : Functor 7 3) (x : Fin 7 → ℝ) : ℝ := F.weighted (F.sumCost (pointCost F.tiny) x) (F.trans3 x) (F.rotQuat roll pitch yaw x)
noncomputable def nloptScoreQuat (roll pitch yaw : Quat → ℝ) (F : Functor 7 3) (x : Fin 7 → ℝ) (fi : ℝ) : ℝ := F.unweighted fi (F.trans3 x) (F.rotQuat roll pitch yaw x)

/-- the same functions of 3D occupancy maps (`C3/matching/nlopt/occupancy_gridmap_function.hpp:41-86, 88-110, 112-160, 162-185`): points without a normal score are skipped -/
noncomputable def nloptOccRPY (F : Functor 6 3) (x : Fin 6 → ℝ) : ℝ := F.weighted (F.sumCost (pointCostSkip F.tiny) x) (F.trans3 x) (F.rotRPY x)
noncomputable def nloptOccScoreRPY (F : Functor 6 3) (x : Fin 6 → ℝ) (fi : ℝ) : ℝ := F.unweighted fi (F.trans3 x) (F.rotRPY x)
noncomputable def nloptOccQuat (roll pitch yaw : Quat → ℝ) (F : Functor 7 3) (x : Fin 7 → ℝ) : ℝ := F.weighted (F.sumCost (pointCostSkip F.tiny) x) (F.trans3 x) (F.rotQuat roll pitch yaw x)
noncomputable def nloptOccScoreQuat (roll pitch yaw : Quat → ℝ) (F : Functor 7 3) (x : Fin 7 → ℝ) (fi : ℝ) : ℝ := F.unweighted fi (F.trans3 x) (F.rotQuat roll pitch yaw x)

/-- the part of the alglib residual vector that belongs to the points (`C2/matching/alglib/gridmap_function.hpp:53-60`, `occupancy_gridmap_function.hpp:55-62`, `C3/matching/alglib/gridmap_function.hpp:56-63, 120-127`, `C3/matching/alglib/occupancy_gridmap_function.hpp` likewise) -/
noncomputable def alglibPoints {n d : Nat} (F : Functor n d) (x : Fin n → ℝ) : List ℝ :=
  F.points.map fun p => F.mapW * pointCost F.tiny (F.sample (F.act x p)) / (F.points.length : ℝ)

/-- `apply` of 2D maps (`C2/matching/alglib/gridmap_function.hpp:33-67`, `occupancy_gridmap_function.hpp:34-69`): the vector `fi` -/
noncomputable def alglib2 (F : Functor 3 2) (x : Fin 3 → ℝ) : List ℝ :=
  F.alglibPoints x ++ [F.transW * (x 0 - F.guess 0), F.transW * (x 1 - F.guess 1), F.rotW * |F.dif (x 2) (F.guess 2)|]

/-- `applyRPY` of 3D maps (`C3/matching/alglib/gridmap_function.hpp:36-73`, `occupancy_gridmap_function.hpp:37-75`) -/
noncomputable def alglibRPY (F : Functor 6 3) (x : Fin 6 → ℝ) : List ℝ :=
  F.alglibPoints x ++ [F.transW * (x 0 - F.guess 0), F.transW * (x 1 - F.guess 1), F.transW * (x 2 - F.guess 2),
    F.rotW * |F.dif (x 3) (F.guess 3)|, F.rotW * |F.dif (x 4) (F.guess 4)|, F.rotW * |F.dif (x 5) (F.guess 5)|]

/-- `rot_diff` (`C3/matching/alglib/gridmap_function.hpp:135-138`); the product of `cslibs_math_3d::Quaternion` is external code -/
def alglibRotDiff (F : Functor 7 3) (x : Fin 7 → ℝ) : Quat :=
  Quat.mul { x := -F.guess 3, y := -F.guess 4, z := -F.guess 5, w := F.guess 6 } { x := x 3, y := x 4, z := x 5, w := x 6 }

/-- `applyQuaternion` of 3D maps (`C3/matching/alglib/gridmap_function.hpp:98-143`, `occupancy_gridmap_function.hpp:100-146`) -/
noncomputable def alglibQuat (F : Functor 7 3) (x : Fin 7 → ℝ) : List ℝ :=
  F.alglibPoints x ++ [F.transW * (x 0 - F.guess 0), F.transW * (x 1 - F.guess 1), F.transW * (x 2 - F.guess 2),
    F.rotW * |(F.alglibRotDiff x).w|, F.rotW * |(F.alglibRotDiff x).x|, F.rotW * |(F.alglibRotDiff x).y|, F.rotW * |(F.alglibRotDiff x).z|]

/-- `mapScore` of the alglib functions (`C2/matching/alglib/gridmap_function.hpp:69-90`, `C3/matching/alglib/gridmap_function.hpp:75-96, 145-166`, occupancy likewise): reads the first entries of `fi` -/
noncomputable def alglibScore {n d : Nat} (F : Functor n d) (fi : List ℝ) : ℝ :=
  (List.range F.points.length).foldl (fun score i => score + (1 / (F.points.length : ℝ) - fi.getD i 0 * (1 / F.mapW))) 0

end Functor
end Ndt.Matching
