import Verif.Model.Matching

/-!
Model of the construction of ceres problems (`CN/matching/ceres/problem.hpp`) and of what the solver may do with them.

`ceres::Problem` is external code: a problem is the list of its parameter blocks, each with the update that belongs to it, and of its residual blocks. Its cost is half the sum of the squared residuals (no loss function is passed).
A solver run is any sequence of updates of the parameter blocks; which updates the solver chooses is not modelled.
-/

namespace Ndt.Matching

open Real

/-- A parameter block with its local parameterization: `dim` is the size of a step, `plus` the update. -/
structure ParamBlock (X : Type) where
  dim : Nat
  plus : X → (Fin dim → ℝ) → X

/-- a block without local parameterization (`nullptr`): steps are added -/
def euclidean (n : Nat) : ParamBlock (Fin n → ℝ) := ⟨n, fun x delta => fun i => x i + delta i⟩

/-- `ceres::SubsetParameterization(3, {2})` (external code): the third component is constant -/
def subset2 : ParamBlock (Fin 3 → ℝ) := ⟨2, fun x delta => ![x 0 + delta 0, x 1 + delta 1, x 2]⟩

/-- `ceres::QuaternionParameterization` (external code): multiplication with `(cos |δ|, sin |δ| δ / |δ|)` from the left; nothing for `δ = 0` -/
noncomputable def quatPlus (x : Quat) (delta : Fin 3 → ℝ) : Quat :=
  let n := √(delta 0 * delta 0 + delta 1 * delta 1 + delta 2 * delta 2)
  if 0 < n then Quat.mul ⟨cos n, sin n / n * delta 0, sin n / n * delta 1, sin n / n * delta 2⟩ x else x

/-- A problem with a translation and a rotation block. -/
structure Problem (X Y : Type) where
  translation : ParamBlock X
  rotation : ParamBlock Y
  residuals : List (X → Y → List (Fl ℝ))

namespace Problem
variable {X Y : Type}

/-- `AddResidualBlock` -/
def add (P : Problem X Y) (f : X → Y → List (Fl ℝ)) : Problem X Y := { P with residuals := P.residuals ++ [f] }

/-- the residuals of all blocks at the given parameters -/
def all (P : Problem X Y) (t : X) (r : Y) : List (Fl ℝ) := P.residuals.flatMap fun f => f t r

/-- the cost that ceres minimises: half the sum of the squares of all residuals -/
noncomputable def cost (P : Problem X Y) (t : X) (r : Y) : Fl ℝ := .fin (1 / 2) * (P.all t r).foldl (fun s x => s + x * x) 0

/-- the parameters after a sequence of updates -/
def run (P : Problem X Y) (x : X × Y) (steps : List ((Fin P.translation.dim → ℝ) × (Fin P.rotation.dim → ℝ))) : X × Y :=
  steps.foldl (fun x s => (P.translation.plus x.1 s.1, P.rotation.plus x.2 s.2)) x

end Problem

/-- what the scan match functor needs: the points and `Evaluate`, once for `double` and once for `Jet`s -/
structure ScanTerm (d : Nat) where
  points : List (Fin d → ℝ)
  evaluateDouble : (Fin d → ℝ) → Fl ℝ
  evaluateJet : (Fin d → ℝ) → Fl ℝ

/-- the choice of the cost function creator (`CN/matching/ceres/problem.hpp:39-43`, `80-84`, `121-125`) -/
noncomputable def scanBlock {d : Nat} (numeric : Bool) (weight : ℝ) (S : ScanTerm d) (moved : (Fin d → ℝ) → Fin d → ℝ) : List (Fl ℝ) :=
  if numeric then createdResiduals weight S.points moved S.evaluateDouble else createdResiduals weight S.points moved S.evaluateJet

/-- `Problem2d` (`CN/matching/ceres/problem.hpp:26-62`) on an empty problem -/
noncomputable def problem2d (translationW rotationW mapW : ℝ) (translation : Fin 2 → ℝ) (rotation : ℝ) (numeric : Bool) (S : ScanTerm 2) : Problem (Fin 2 → ℝ) (Fin 1 → ℝ) :=
  let P : Problem (Fin 2 → ℝ) (Fin 1 → ℝ) := ⟨euclidean 2, ⟨1, eulerPlus⟩, []⟩
  let P := if mapW ≠ 0 then P.add fun t r => scanBlock numeric mapW S (moved2 t (r 0)) else P
  let P := if translationW ≠ 0 then P.add fun t _ => (List.ofFn (translationResidual translationW translation t)).map .fin else P
  if rotationW ≠ 0 then P.add fun _ r => [.fin (rotationResidual2 rotationW rotation (r 0))] else P

/-- `Problem3dQuaternion` (`CN/matching/ceres/problem.hpp:64-103`) on an empty problem -/
noncomputable def problem3dQuaternion (translationW rotationW mapW : ℝ) (translation : Fin 3 → ℝ) (rotation : Quat) (onlyYaw numeric : Bool) (S : ScanTerm 3) : Problem (Fin 3 → ℝ) Quat :=
  let P : Problem (Fin 3 → ℝ) Quat := ⟨if onlyYaw then subset2 else euclidean 3, if onlyYaw then ⟨1, fun x delta => yawOnlyQuatPlus x (delta 0)⟩ else ⟨3, quatPlus⟩, []⟩
  let P := if mapW ≠ 0 then P.add fun t r => scanBlock numeric mapW S (moved3 t r) else P
  let P := if translationW ≠ 0 then P.add fun t _ => (List.ofFn (translationResidual translationW translation t)).map .fin else P
  if rotationW ≠ 0 then P.add fun _ r => (List.ofFn (rotationResidualQuat rotationW rotation r)).map .fin else P

/-- `Problem3dRPY` (`CN/matching/ceres/problem.hpp:105-144`) on an empty problem -/
noncomputable def problem3dRPY (translationW rotationW mapW : ℝ) (translation rotation : Fin 3 → ℝ) (onlyYaw numeric : Bool) (S : ScanTerm 3) : Problem (Fin 3 → ℝ) (Fin 3 → ℝ) :=
  let P : Problem (Fin 3 → ℝ) (Fin 3 → ℝ) := ⟨if onlyYaw then subset2 else euclidean 3, if onlyYaw then ⟨1, fun x delta => yawOnlyEulerPlus x (delta 0)⟩ else ⟨3, eulerPlus⟩, []⟩
  let P := if mapW ≠ 0 then P.add fun t r => scanBlock numeric mapW S (movedRPY t r) else P
  let P := if translationW ≠ 0 then P.add fun t _ => (List.ofFn (translationResidual translationW translation t)).map .fin else P
  if rotationW ≠ 0 then P.add fun _ r => (List.ofFn (rotationResidualRPY rotationW rotation r)).map .fin else P

end Ndt.Matching
