import Verif.Model.Gridmap
import Verif.Spec.Geometry

/-!
Specification: which points of a history of operations an NDT map accepts, in map coordinates.
-/

namespace Ndt.Spec

variable {K : Type} [Field K] [LinearOrder K] {d : Nat}

/-- The region (in map coordinates) in which a map accepts points: everything for a dynamic map; for a static map of `size` cells starting at bundle `lo`, the box
`[lo * r/2, (lo + 2*size - 1) * r/2)`. -/
def Region (r : K) : Kind d → Pt K d → Prop
  | .dynamic _ _, _ => True
  | .static size lo, p => ∀ a, (lo a : K) * (r / 2) ≤ p a ∧ p a < ((lo a : K) + 2 * (size a : K) - 1) * (r / 2)

open scoped Classical in
/-- The accepted points of one `insert` call, in map coordinates: transform by the pose, drop points that are not normal, transform into map coordinates, drop points outside of
the region. -/
noncomputable def acceptedPoints (g : Geo K d) (k : Kind d) (pose : Pt K d → Pt K d) (cloud : List (Pt K d)) : Multiset (Pt K d) :=
  ((((cloud.map pose).filter (fun p => g.normal p)).map g.toMap : List (Pt K d)) : Multiset (Pt K d)).filter (Region g.r k)

/-- The accepted points of a history. -/
noncomputable def accepted (g : Geo K d) (k : Kind d) : List (GridOp K d) → Multiset (Pt K d)
  | [] => 0
  | .insert pose cloud :: l => acceptedPoints g k pose cloud + accepted g k l
  | .core _ :: l => accepted g k l

end Ndt.Spec
