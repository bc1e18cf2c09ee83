import Verif.Model.OccRounded

/-! Specification for C88: the exact totals of a history of weighted observations. -/

namespace Ndt.Spec

/-- the free weight of one observation -/
def missWeight : Weights.Update → ℝ
  | .free w => w
  | .hit _ => 0

/-- the occupied weight of one observation -/
def hitWeight : Weights.Update → ℝ
  | .free _ => 0
  | .hit w => w

/-- Evidence of a distribution with exact arithmetic (C21): the log odds of all observations, the prior counted once. -/
def evidence (m : Ivm) (free occupied : ℝ) : ℝ := free * m.logFree + occupied * m.logOcc - (free + occupied - 1) * m.logPrior

/-- A magnitude of the evidence that rounding errors are relative to. -/
def magnitude (m : Ivm) (free occupied : ℝ) : ℝ := |free * m.logFree| + |occupied * m.logOcc| + (free + occupied + 1) * |m.logPrior|

end Ndt.Spec
