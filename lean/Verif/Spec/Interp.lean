import Verif.Spec.Geometry
import Mathlib.Algebra.BigOperators.Group.Finset.Basic
import Mathlib.Algebra.Order.Group.Abs
import Mathlib.Algebra.BigOperators.Fin

/-! Specification of multilinear interpolation between overlapping cells. -/

namespace Ndt.Spec
variable {K : Type} [Field K] [LinearOrder K] {d : Nat}

/-- The closed bundle with index `b` contains the point `p`. -/
def InClosedBundle (r : K) (b : Fin d → Int) (p : Fin d → K) : Prop :=
  ∀ i : Fin d, (b i : K) * (r / 2) ≤ p i ∧ p i ≤ ((b i : K) + 1) * (r / 2)

/-- Centre of the cell with index `k` of grid `c` in dimension `i`. -/
def centre (r : K) (c : Nat) (k : Fin d → Int) (i : Fin d) : K := ((k i : K) + 1 / 2 - shift K c i.1) * r

/-- The hat function of a cell: 1 at its centre, falling linearly to 0 in every dimension at distance `r/2`, the border of the cell. -/
def hat (r : K) (c : Nat) (k : Fin d → Int) (p : Fin d → K) : K :=
  ∏ i : Fin d, max 0 (1 - |p i - centre r c k i| / (r / 2))

end Ndt.Spec
