import Verif.Spec.Points
import Mathlib.Algebra.Order.Group.Abs

/-! Specification: cells and bundles enlarged by a tolerance, the points a history offers to a map, the bundles a map has (C77). -/

namespace Ndt.Spec
variable {K : Type} [Field K] [LinearOrder K] {d : Nat}

/-- The point lies in the bundle, or misses it by at most `ε` times its own distance from the coordinate plane through the origin of the map. -/
def NearBundle (ε r : K) (b : Fin d → Int) (p : Fin d → K) : Prop :=
  ∀ i : Fin d, (b i : K) * (r / 2) - ε * |p i| ≤ p i ∧ p i < ((b i : K) + 1) * (r / 2) + ε * |p i|

/-- The same for the cell with index `k` of grid `c`. -/
def NearCell (ε r : K) (c : Nat) (k : Fin d → Int) (p : Fin d → K) : Prop :=
  ∀ i : Fin d, ((k i : K) - shift K c i.1) * r - ε * |p i| ≤ p i ∧ p i < ((k i : K) + 1 - shift K c i.1) * r + ε * |p i|

/-- The point keeps a distance of more than `ε` times its distance from the coordinate planes to the border of the bundle it lies in. -/
def WellInside (ε r : K) (b : Fin d → Int) (p : Fin d → K) : Prop :=
  ∀ i : Fin d, (b i : K) * (r / 2) + ε * |p i| ≤ p i ∧ p i < ((b i : K) + 1) * (r / 2) - ε * |p i|

/-- The points a history offers to the map, in map coordinates: all points of all clouds that are normal after the pose was applied. -/
def offered (g : Geo K d) : List (GridOp K d) → Multiset (Pt K d)
  | [] => 0
  | .insert pose cloud :: l => ((((cloud.map pose).filter (fun p => g.normal p)).map g.toMap : List (Pt K d)) : Multiset (Pt K d)) + offered g l
  | .core _ :: l => offered g l

/-- The bundles a map can have: all for a dynamic map, `2 * size - 1` per axis from `lo` on for a static one. -/
def HasBundle : Kind d → Idx d → Prop
  | .dynamic _ _, _ => True
  | .static size lo, b => ∀ a, lo a ≤ b a ∧ b a < lo a + 2 * (size a : Int) - 1

end Ndt.Spec
