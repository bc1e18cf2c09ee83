import Verif.Model.Float
import Verif.Spec.Rotation

/-!
Specification of scan scores: how sampled values count, independent of the cost functions.
-/

namespace Ndt.Spec

/-- A sampled score: a number of magnitude at least `tiny` (a normal number) counts as it is, everything else (zero, subnormal numbers, NaN, infinities) as 0. -/
noncomputable def properScore (tiny : ℝ) : Fl ℝ → ℝ
  | .fin s => if tiny ≤ |s| then s else 0
  | _ => 0

/-- The score `b` is that of a point that has lost its support in the map, while the score `a` is a proper score (positive, at most 1). -/
def Lost (a b : Fl ℝ) : Prop := (∃ s, a = .fin s ∧ 0 < s ∧ s ≤ 1) ∧ (b = .fin 0 ∨ ∀ y, b ≠ .fin y)

end Ndt.Spec
