import Verif.Model.Export
import Verif.Model.Matching

/-!
Model of the shape of the exported markers: what `Viz` in `Model/Export.lean` leaves open about the orientation and the scale (`C2/conversion/distributions.hpp:63-79`, `C3/conversion/distributions.hpp:64-79`).

The decomposition of the covariance (`getEigenValuesVectors`) stays an arbitrary function, colours too.
-/

namespace Ndt

open Real Matching

/-- `std::sqrt` -/
noncomputable def flSqrt : Fl ℝ → Fl ℝ
  | .nan => .nan
  | .inf a => if a then .nan else .inf false
  | .fin x => if x < 0 then .nan else .fin (√x)

/-- `Eigen::Quaternion<T>(m)` for a 3×3 matrix (external code, `quaternionbase_assign_impl`) -/
noncomputable def quatOfMatrix (m : Fin 3 → Fin 3 → ℝ) : Quat :=
  let tr := m 0 0 + m 1 1 + m 2 2
  if 0 < tr then
    let t := √(tr + 1)
    let f := 1 / 2 / t
    { w := 1 / 2 * t, x := (m 2 1 - m 1 2) * f, y := (m 0 2 - m 2 0) * f, z := (m 1 0 - m 0 1) * f }
  else
    let i := if m 0 0 < m 1 1 then 1 else 0
    if m i i < m 2 2 then
      let t := √(m 2 2 - m 0 0 - m 1 1 + 1)
      let f := 1 / 2 / t
      { z := 1 / 2 * t, w := (m 1 0 - m 0 1) * f, x := (m 0 2 + m 2 0) * f, y := (m 1 2 + m 2 1) * f }
    else if i = 1 then
      let t := √(m 1 1 - m 2 2 - m 0 0 + 1)
      let f := 1 / 2 / t
      { y := 1 / 2 * t, w := (m 0 2 - m 2 0) * f, z := (m 2 1 + m 1 2) * f, x := (m 0 1 + m 1 0) * f }
    else
      let t := √(m 0 0 - m 1 1 - m 2 2 + 1)
      let f := 1 / 2 / t
      { x := 1 / 2 * t, w := (m 2 1 - m 1 2) * f, y := (m 1 0 + m 0 1) * f, z := (m 2 0 + m 0 2) * f }

/-- `evec = Identity(3,3); evec.topLeftCorner(2,2) = evec_tmp` (`C2/conversion/distributions.hpp:63-64, 163-164`) -/
def embed2 (m : Fin 2 → Fin 2 → ℝ) : Fin 3 → Fin 3 → ℝ := ![![m 0 0, m 0 1, 0], ![m 1 0, m 1 1, 0], ![0, 0, 1]]

/-- `cslibs_math_3d::Quaternion<T>(yaw)` (external code): the rotation by `yaw` about the z axis -/
noncomputable def quatOfYaw (yaw : ℝ) : Quat := ⟨cos (yaw / 2), 0, 0, sin (yaw / 2)⟩

/-- `cslibs_math_3d::Quaternion<T>(origin.yaw()).toEigen() * Eigen::Quaternion<T>(evec)` (`C2/conversion/distributions.hpp:65-66, 165-166`) -/
noncomputable def orient2 (yaw : ℝ) (evec : Fin 2 → Fin 2 → ℝ) : Quat := (quatOfYaw yaw).mul (quatOfMatrix (embed2 evec))

/-- `origin.rotation().toEigen() * Eigen::Quaternion<T>(evec)` (`C3/conversion/distributions.hpp:64-65, 165-166`) -/
noncomputable def orient3 (q : Quat) (evec : Fin 3 → Fin 3 → ℝ) : Quat := q.mul (quatOfMatrix evec)

/-- The marker conversion in two dimensions for the pose with translation `t` and angle `yaw` (`transform * src.getInitialOrigin()`); the colour is the argument `color`. -/
noncomputable def shapeViz2 {C : Type} (t : Pt ℝ 2) (yaw : ℝ) (eigen : Multiset (Pt ℝ 2) → Option ((Fin 2 → Fl ℝ) × (Fin 2 → Fin 2 → ℝ))) (color : Pt ℝ 2 → C) : Viz ℝ 2 Quat C (Fin 2 → Fin 2 → ℝ) where
  origin := moved2 t yaw
  eigen := eigen
  orient := orient2 yaw
  color := color
  sqrt := flSqrt

/-- The marker conversion in three dimensions for the pose with translation `t` and rotation `q`. -/
noncomputable def shapeViz3 {C : Type} (t : Pt ℝ 3) (q : Quat) (eigen : Multiset (Pt ℝ 3) → Option ((Fin 3 → Fl ℝ) × (Fin 3 → Fin 3 → ℝ))) (color : Pt ℝ 3 → C) : Viz ℝ 3 Quat C (Fin 3 → Fin 3 → ℝ) where
  origin := moved3 t q
  eigen := eigen
  orient := orient3 q
  color := color
  sqrt := flSqrt

end Ndt
