import Mathlib.Analysis.SpecialFunctions.Trigonometric.Basic
import Mathlib.Data.Fin.VecNotation
import Mathlib.Algebra.BigOperators.Fin

/-!
Specification of rotations, independent of the model.
-/

namespace Ndt.Spec

open Real

/-- two angles describe the same rotation -/
def SameAngle (a b : ℝ) : Prop := ∃ k : ℤ, a - b = 2 * π * k

/-- rotation about the x axis -/
noncomputable def rotX (t : ℝ) (v : Fin 3 → ℝ) : Fin 3 → ℝ := ![v 0, cos t * v 1 - sin t * v 2, sin t * v 1 + cos t * v 2]

/-- rotation about the y axis -/
noncomputable def rotY (t : ℝ) (v : Fin 3 → ℝ) : Fin 3 → ℝ := ![cos t * v 0 + sin t * v 2, v 1, -sin t * v 0 + cos t * v 2]

/-- rotation about the z axis -/
noncomputable def rotZ (t : ℝ) (v : Fin 3 → ℝ) : Fin 3 → ℝ := ![cos t * v 0 - sin t * v 1, sin t * v 0 + cos t * v 1, v 2]

/-- squared distance of two points -/
def distSq {d : Nat} (p q : Fin d → ℝ) : ℝ := ∑ i, (p i - q i) ^ 2

/-- mean of a list of numbers -/
noncomputable def mean (l : List ℝ) : ℝ := l.sum / (l.length : ℝ)

end Ndt.Spec
