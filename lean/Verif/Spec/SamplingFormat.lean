import Verif.Spec.Format

/-! Specification: densities as numbers of a floating-point format (C114). -/

namespace Ndt.Spec
variable {K : Type} [Field K] [LinearOrder K]

/-- A number of the format between 0 and 1, as a density or a probability should be. -/
def UnitNumber (T : Format) (v : Fl K) : Prop := ∃ y, v = .fin y ∧ InFormat T y ∧ 0 ≤ y ∧ y ≤ 1

/-- Half of the smallest positive number of the format: the largest error by underflow. -/
def halfSmallest (K : Type) [Field K] (T : Format) : K := (2 : K) ^ (T.emin - (T.t : Int))

end Ndt.Spec
