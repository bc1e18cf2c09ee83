import Mathlib.Algebra.Order.Group.Unbundled.Int
import Mathlib.Algebra.BigOperators.Fin

/-!
Specification: the 1-2-1 stencil, and the cells of a single grid.
-/

namespace Ndt.Spec

/-- one-dimensional weight: 2 at the centre, 1 at distance one, 0 further away -/
def stencil1 (x : Int) : Nat := if x = 0 then 2 else if |x| = 1 then 1 else 0

/-- the product of the one-dimensional weights -/
def stencil {d : Nat} (o : Fin d → Int) : Nat := ∏ a, stencil1 (o a)

end Ndt.Spec
