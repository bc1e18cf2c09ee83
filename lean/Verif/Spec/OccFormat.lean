import Verif.Spec.SamplingFormat
import Verif.Spec.Rounded
import Verif.Props.Ieee
import Verif.Model.OccFormat

/-! Specification for C118: the inverse models and weights for which occupancies neither underflow nor overflow. -/

namespace Ndt.Spec

/-- Log odds of moderate size: no longer than the log odds of any probability of type `float` or `double` other than 0 and 1 (`C118_log_odds`). -/
def ModerateLog (x : ℝ) : Prop := |x| ≤ 2 ^ 20

/-- In addition 0 or not too close to it. -/
def OrdinaryLog (x : ℝ) : Prop := x = 0 ∨ 1 / 2 ^ 60 ≤ |x| ∧ |x| ≤ 2 ^ 20

/-- Infinite, as the log odds of the probabilities 0 and 1, or of moderate size. -/
def LogOddsValue (l : Fl ℝ) : Prop := (∃ s, l = .inf s) ∨ ∃ x, l = .fin x ∧ ModerateLog x

/-- The inverse model with real log odds as one with floating-point numbers. -/
def ivmFl (m : Ivm) : IvmFl := ⟨.fin m.logPrior, .fin m.logFree, .fin m.logOcc⟩

/-- All log odds are of moderate size. -/
def ModerateIvm (m : Ivm) : Prop := ModerateLog m.logPrior ∧ ModerateLog m.logFree ∧ ModerateLog m.logOcc

/-- All log odds are ordinary. -/
def OrdinaryIvm (m : Ivm) : Prop := OrdinaryLog m.logPrior ∧ OrdinaryLog m.logFree ∧ OrdinaryLog m.logOcc

/-- A weight of the scalar type that is 0 or not too close to it. -/
def OrdinaryWeight (T : Format) (w : ℝ) : Prop := InFormat T w ∧ (w = 0 ∨ 1 / 2 ^ 60 ≤ w)

/-- A history of weighted observations as one with floating-point numbers. -/
def updateFl : Weights.Update → WeightsF.Update
  | .free w => .inl (.fin w)
  | .hit w => .inr (.fin w)

/-- The exponential function returns numbers with `t` significant bits. -/
def ExpBits (t : Nat) (X : ExpFn) : Prop := ∀ x, HasBits t (X.f x)

end Ndt.Spec
