import Verif.Spec.ScanOrder

/-!
Specification: which points can influence each other through the cells of a map.
-/

namespace Ndt.Spec

variable {K : Type} [Field K] [LinearOrder K] {d : Nat}

/-- `q` lies in the open cube of edge `2 r` around `p` -/
def Near (r : K) (p q : Fin d → K) : Prop := ∀ a, |q a - p a| < r

/-- `p` and `q` lie in a common cell of one of the `2^d` grids of a map of resolution `r` -/
def ShareCell (r : K) (p q : Fin d → K) : Prop := ∃ c < 2 ^ d, ∃ i : Fin d → Int, InCell r c i p ∧ InCell r c i q

variable [FloorRing K] {W E : Type}

/-- The bundles that an insertion of a scan can touch: those with a hit and the accepted cells of the rays. `insertVisible` without models may use the default ray tracer `defRay` of the class. Other operations (lookups, allocations) are
not insertions; they are counted as touching everything. -/
def OpTouches (g : Geo K d) (k : Kind d) (defRay : Pt K d → Pt K d → List (Idx d)) : OccMapOp K d W E → Idx d → Prop
  | .insert s, b => Touches g k s b
  | .insertVisible s (some _) (some _), b => Touches g k s b
  | .insertVisible s _ _, b => Touches g k s b ∨ Touches g k { s with ray := defRay } b
  | .core _, _ => True

end Ndt.Spec
