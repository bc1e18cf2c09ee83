import Verif.Model.Float
import Mathlib.Analysis.SpecialFunctions.Log.Basic

/-! Vocabulary of C97. -/

namespace Ndt

/-- The probability leaves no doubt. -/
def Spec.Certain (p : ℝ) : Prop := p = 0 ∨ p = 1

/-- The value is a probability. -/
def Spec.IsProbability (v : Fl ℝ) : Prop := ∃ x, v = .fin x ∧ 0 ≤ x ∧ x ≤ 1

/-- log odds -/
noncomputable def Spec.logit (p : ℝ) : ℝ := Real.log (p / (1 - p))

end Ndt
