import Verif.Model.Matching
import Mathlib.Algebra.BigOperators.Pi

/-!
Model of automatic differentiation: the cost functors (`CN/matching/ceres/**`, `C2/matching/ceres/map/*.hpp`, `C3/matching/ceres/map/*.hpp`) and the parameter updates evaluated on `ceres::Jet`.

`ceres::Jet` is external code; its arithmetic is written down as documented in `ceres/jet.h`: a value part `a` and `n` derivative parts `v`. Numbers are exact reals (assumption A2). Numbers of type `double` that meet a `Jet` are
constants.
-/

namespace Ndt.Matching

open Real

/-- `ceres::Jet<double, n>` (external code) -/
structure Jet (n : Nat) where
  a : ℝ
  v : Fin n → ℝ

namespace Jet
variable {n : Nat}

/-- `Jet(value)` -/
def const (c : ℝ) : Jet n := ⟨c, 0⟩

/-- `Jet(value, k)`: the parameter number `k`, as `AutoDiffCostFunction` sets it up -/
def var (x : Fin n → ℝ) (k : Fin n) : Jet n := ⟨x k, Pi.single k 1⟩

/-- `f + g` -/
instance : Add (Jet n) := ⟨fun f g => ⟨f.a + g.a, f.v + g.v⟩⟩
/-- `f - g` -/
instance : Sub (Jet n) := ⟨fun f g => ⟨f.a - g.a, f.v - g.v⟩⟩
/-- `-f` -/
instance : Neg (Jet n) := ⟨fun f => ⟨-f.a, -f.v⟩⟩
/-- `f * g` -/
instance : Mul (Jet n) := ⟨fun f g => ⟨f.a * g.a, f.a • g.v + g.a • f.v⟩⟩

/-- `s * f` with a number `s` -/
def scale (s : ℝ) (f : Jet n) : Jet n := ⟨s * f.a, s • f.v⟩

/-- the sum of several `Jet`s -/
def sum {m : Nat} (f : Fin m → Jet n) : Jet n := ⟨∑ i, (f i).a, ∑ i, (f i).v⟩

/-- `ceres::exp` -/
noncomputable def exp (f : Jet n) : Jet n := ⟨Real.exp f.a, Real.exp f.a • f.v⟩
/-- `ceres::sin` -/
noncomputable def sin (f : Jet n) : Jet n := ⟨Real.sin f.a, Real.cos f.a • f.v⟩
/-- `ceres::cos` -/
noncomputable def cos (f : Jet n) : Jet n := ⟨Real.cos f.a, -Real.sin f.a • f.v⟩
/-- `ceres::sqrt` -/
noncomputable def sqrt (f : Jet n) : Jet n := ⟨√f.a, (1 / (2 * √f.a)) • f.v⟩
/-- `ceres::atan2(g, f)` -/
noncomputable def atan2 (g f : Jet n) : Jet n := ⟨Matching.atan2 g.a f.a, (1 / (f.a * f.a + g.a * g.a)) • (-g.a • f.v + f.a • g.v)⟩
/-- `ceres::abs` -/
noncomputable def abs (f : Jet n) : Jet n := if f.a < 0 then -f else f

end Jet

variable {n : Nat}

/-- `AngleDifference` on `Jet`s (`CN/matching/ceres/rotation/rotation_cost_functor_2d.hpp:35-49`, `rotation_cost_functor_3d_rpy.hpp:39-53`); comparisons of `Jet`s compare the value parts -/
noncomputable def angleDifferenceJ (r0 r : Jet n) : Jet n :=
  let a := Jet.atan2 (Jet.sin r0) (Jet.cos r0)
  let b := Jet.atan2 (Jet.sin r) (Jet.cos r)
  let d1 := a - b
  let d2 := (Jet.const (2 * π) - d1.abs) * (if 0 < d1.a then Jet.const (-1) else Jet.const 1)
  if d1.abs.a < d2.abs.a then d1 else d2

/-- `RotationCostFunctor2d::operator()` on `Jet`s (`CN/matching/ceres/rotation/rotation_cost_functor_2d.hpp:23-32`) -/
noncomputable def rotationResidual2J (weight prior : ℝ) (rotation : Jet n) : Jet n := (angleDifferenceJ (Jet.const prior) rotation).scale weight

/-- `RotationCostFunctor3dRPY::operator()` on `Jet`s (`CN/matching/ceres/rotation/rotation_cost_functor_3d_rpy.hpp:25-36`) -/
noncomputable def rotationResidualRPYJ (weight : ℝ) (prior : Fin 3 → ℝ) (rotation : Fin 3 → Jet n) : Fin 3 → Jet n := fun i => (angleDifferenceJ (Jet.const (prior i)) (rotation i)).scale weight

/-- `TranslationCostFunctor2d/3d::operator()` on `Jet`s (`CN/matching/ceres/translation/translation_cost_functor_2d.hpp:25-32`, `translation_cost_functor_3d.hpp:25-32`) -/
def translationResidualJ {d : Nat} (weight : ℝ) (prior : Fin d → ℝ) (translation : Fin d → Jet n) : Fin d → Jet n := fun i => (translation i - Jet.const (prior i)).scale weight

/-- A quaternion of `Jet`s in the order `w, x, y, z`. -/
structure QuatJ (n : Nat) where
  w : Jet n
  x : Jet n
  y : Jet n
  z : Jet n

/-- a quaternion of numbers -/
def QuatJ.const (q : Quat) : QuatJ n := ⟨.const q.w, .const q.x, .const q.y, .const q.z⟩

/-- `QuaternionProduct(z, w, zw)` on `Jet`s (`CN/matching/ceres/rotation/rotation_cost_functor_3d_quaternion.hpp:39-46`); `ceres::QuaternionProduct` (external) is the same function -/
def QuatJ.mul (p q : QuatJ n) : QuatJ n where
  w := p.w * q.w - p.x * q.x - p.y * q.y - p.z * q.z
  x := p.w * q.x + p.x * q.w + p.y * q.z - p.z * q.y
  y := p.w * q.y - p.x * q.z + p.y * q.w + p.z * q.x
  z := p.w * q.z + p.x * q.y - p.y * q.x + p.z * q.w

/-- `RotationCostFunctor3dQuaternion::operator()` on `Jet`s (`CN/matching/ceres/rotation/rotation_cost_functor_3d_quaternion.hpp:25-36`) -/
def rotationResidualQuatJ (weight : ℝ) (prior : Quat) (rotation : QuatJ n) : Fin 4 → Jet n :=
  let delta := (QuatJ.const prior.inv).mul rotation
  ![delta.w.scale weight, delta.x.scale weight, delta.y.scale weight, delta.z.scale weight]

/-- `Eigen::Quaternion<Jet> * vector` (external code, `_transformVector`); the vector is `local`, made of constants -/
def QuatJ.rotate (q : QuatJ n) (v : Fin 3 → ℝ) : Fin 3 → Jet n :=
  let c := fun i => (Jet.const (v i) : Jet n)
  let uv0 := (q.y * c 2 - q.z * c 1).scale 2
  let uv1 := (q.z * c 0 - q.x * c 2).scale 2
  let uv2 := (q.x * c 1 - q.y * c 0).scale 2
  ![c 0 + q.w * uv0 + (q.y * uv2 - q.z * uv1), c 1 + q.w * uv1 + (q.z * uv0 - q.x * uv2), c 2 + q.w * uv2 + (q.x * uv1 - q.y * uv0)]

/-- `toEigen(raw_rotation_rpy)` on `Jet`s (`CN/matching/ceres/map/scan_match_cost_functor_3d_rpy.hpp:24-43`) -/
noncomputable def toEigenJ (rpy : Fin 3 → Jet n) : QuatJ n :=
  let roll2 := (rpy 0).scale (1 / 2)
  let pitch2 := (rpy 1).scale (1 / 2)
  let yaw2 := (rpy 2).scale (1 / 2)
  { x := roll2.sin * pitch2.cos * yaw2.cos - roll2.cos * pitch2.sin * yaw2.sin
    y := roll2.cos * pitch2.sin * yaw2.cos + roll2.sin * pitch2.cos * yaw2.sin
    z := roll2.cos * pitch2.cos * yaw2.sin - roll2.sin * pitch2.sin * yaw2.cos
    w := roll2.cos * pitch2.cos * yaw2.cos + roll2.sin * pitch2.sin * yaw2.sin }

/-- `clamp` on `Jet`s (`CN/matching/ceres/local_parameterization.hpp:11-17`) -/
noncomputable def clampJ (value lo hi : Jet n) : Jet n := if hi.a < value.a then hi else if value.a < lo.a then lo else value

/-- `EulerPlus<Num>` on `Jet`s (`CN/matching/ceres/local_parameterization.hpp:27-33`) -/
noncomputable def eulerPlusJ {m : Nat} (x delta : Fin m → Jet n) : Fin m → Jet n := fun i => clampJ (x i + delta i) (.const (-π)) (.const π)

/-- `YawOnlyEulerPlus` on `Jet`s (`CN/matching/ceres/local_parameterization.hpp:43-50`) -/
noncomputable def yawOnlyEulerPlusJ (x : Fin 3 → Jet n) (delta : Jet n) : Fin 3 → Jet n := ![x 0, x 1, clampJ (x 2 + delta) (.const (-π)) (.const π)]

/-- `YawOnlyQuaternionPlus` on `Jet`s (`CN/matching/ceres/local_parameterization.hpp:60-71`) -/
noncomputable def yawOnlyQuatPlusJ (x : QuatJ n) (delta : Jet n) : QuatJ n :=
  let c := clampJ delta (.const (-(1 / 2))) (.const (1 / 2))
  QuatJ.mul ⟨(Jet.const 1 - c * c).sqrt, .const 0, .const 0, c⟩ x

/-- the point transformation of `ScanMatchCostFunctor2d` on `Jet`s (`CN/matching/ceres/map/scan_match_cost_functor_2d.hpp:24-32`) -/
noncomputable def moved2J (translation : Fin 2 → Jet n) (rotation : Jet n) (p : Fin 2 → ℝ) : Fin 2 → Jet n :=
  ![rotation.cos * .const (p 0) - rotation.sin * .const (p 1) + translation 0, rotation.sin * .const (p 0) + rotation.cos * .const (p 1) + translation 1]

/-- the point transformation of `ScanMatchCostFunctor3dQuaternion` on `Jet`s (`CN/matching/ceres/map/scan_match_cost_functor_3d_quaternion.hpp:26-33`) -/
def moved3J (translation : Fin 3 → Jet n) (rotation : QuatJ n) (p : Fin 3 → ℝ) : Fin 3 → Jet n := fun i => rotation.rotate p i + translation i

/-- the point transformation of `ScanMatchCostFunctor3dRPY` on `Jet`s (`CN/matching/ceres/map/scan_match_cost_functor_3d_rpy.hpp:48-55`) -/
noncomputable def movedRPYJ (translation rpy : Fin 3 → Jet n) (p : Fin 3 → ℝ) : Fin 3 → Jet n := moved3J translation (toEigenJ rpy) p

section evaluate
variable {d : Nat} {B : Backend d} {D : Type}

/-- `p_prime = rot_ * p + trans_` (`C2/matching/ceres/map/gridmap_cost_functor.hpp:46`, `C3/matching/ceres/map/gridmap_cost_functor.hpp:46`, occupancy likewise) -/
def toMapJ (rot : Fin d → Fin d → ℝ) (trans : Fin d → ℝ) (q : Fin d → Jet n) : Fin d → Jet n := fun i => Jet.sum (fun k => (q k).scale (rot i k)) + .const (trans i)

/-- `sample = exp((-0.5 * diff.transpose() * inf * diff).value())` with `diff = p_prime - mean` (`C2/matching/ceres/map/gridmap_cost_functor.hpp:60-65`, `C3/…:61-66`, occupancy likewise) -/
noncomputable def bellJ (mean : Fin d → ℝ) (inf : Fin d → Fin d → ℝ) (p : Fin d → Jet n) : Jet n :=
  let diff := fun i => p i - .const (mean i)
  (Jet.sum fun k => Jet.sum (fun i => ((diff i).scale (-(1 / 2))).scale (inf i k)) * diff k).exp

/-- the same number as a function of the point (`cslibs_math::statistics::StableDistribution::sampleNonNormalized`, external code, and the value part of `bellJ`) -/
noncomputable def bellOf (mean : Fin d → ℝ) (inf : Fin d → Fin d → ℝ) (p : Pt ℝ d) : ℝ :=
  Real.exp (-(1 / 2) * ∑ i, ∑ k, (p i - mean i) * inf i k * (p k - mean k))

/-- the index of the bundle (`C2/matching/ceres/map/gridmap_cost_functor.hpp:47-48`, `C3/…:47-49`, occupancy likewise): computed from the value parts -/
noncomputable def jetIndex (r : ℝ) (p : Fin d → Jet n) : Idx d := fun i => ⌊(p i).a * (1 / bundleResolution r)⌋

/-- the loop over the bins (`C2/matching/ceres/map/gridmap_cost_functor.hpp:54-68`, `C3/…:55-69`) -/
noncomputable def jetLoopJ (valid : D → Bool) (mean : D → Fin d → ℝ) (inf : D → Fin d → Fin d → ℝ) (p : Fin d → Jet n) (b : Bundle) (st : St B D) : List Nat → Jet n → Jet n
  | [], value => value
  | i :: l, value =>
    match b.data i with
    | none => jetLoopJ valid mean inf p b st l value
    | some a =>
      jetLoopJ valid mean inf p b st l
        (if valid (st.heap a) then value - (bellJ (mean (st.heap a)) (inf (st.heap a)) p).scale (divCount ℝ d) else value)

/-- `Evaluate` for `Jet`s, flag `DIRECT` (`C2/matching/ceres/map/gridmap_cost_functor.hpp:41-70`, `C3/matching/ceres/map/gridmap_cost_functor.hpp:43-71`) -/
noncomputable def evaluateJ (r : ℝ) (rot : Fin d → Fin d → ℝ) (trans : Fin d → ℝ) (dyn : Bool) (valid : D → Bool) (mean : D → Fin d → ℝ) (inf : D → Fin d → Fin d → ℝ) (st : St B D) (q : Fin d → Jet n) :
    Option (Jet n) :=
  let p := toMapJ rot trans q
  match st.getBundle dyn (jetIndex r p) with
  | none => none
  | some none => some (.const 1)
  | some (some b) => some (jetLoopJ valid mean inf p b st (List.range (twoPow d)) (.const 1))

variable {W E : Type}

/-- the loop over the bins on occupancy maps (`C2/matching/ceres/map/occupancy_gridmap_cost_functor.hpp:56-72`, `C3/…:58-75`), with an inverse model -/
noncomputable def occJetLoopJ (valid : Multiset E → Bool) (mean : Multiset E → Fin d → ℝ) (inf : Multiset E → Fin d → Fin d → ℝ) (occ : Occ W E → ℝ) (p : Fin d → Jet n) (b : Bundle) (st : St B (Occ W E)) :
    List Nat → Jet n → Jet n
  | [], value => value
  | i :: l, value =>
    match b.data i with
    | none => occJetLoopJ valid mean inf occ p b st l value
    | some a =>
      match (st.heap a).data with
      | none => occJetLoopJ valid mean inf occ p b st l value
      | some s =>
        occJetLoopJ valid mean inf occ p b st l
          (if valid s then value - ((bellJ (mean s) (inf s) p).scale (divCount ℝ d)).scale (occ (st.heap a)) else value)

/-- `Evaluate` of occupancy maps for `Jet`s, with an inverse model (`C2/matching/ceres/map/occupancy_gridmap_cost_functor.hpp:44-74`, `C3/…:46-77`) -/
noncomputable def occEvaluateJ (r : ℝ) (rot : Fin d → Fin d → ℝ) (trans : Fin d → ℝ) (dyn : Bool) (valid : Multiset E → Bool) (mean : Multiset E → Fin d → ℝ) (inf : Multiset E → Fin d → Fin d → ℝ)
    (occ : Occ W E → ℝ) (st : St B (Occ W E)) (q : Fin d → Jet n) : Option (Jet n) :=
  let p := toMapJ rot trans q
  match st.getBundle dyn (jetIndex r p) with
  | none => none
  | some none => some (.const 1)
  | some (some b) => some (occJetLoopJ valid mean inf occ p b st (List.range (twoPow d)) (.const 1))

end evaluate

/-- one residual: the "nan test" compares value parts, and the weight (`CN/matching/ceres/map/scan_match_cost_functor_2d.hpp:34-37`, `_3d_quaternion.hpp:35-38`, `_3d_rpy.hpp:57-60`) -/
noncomputable def scanResidualJ (weight : ℝ) (value : Jet n) : Jet n := (if value.a = -value.a then Jet.const 0 else value).scale weight

end Ndt.Matching
