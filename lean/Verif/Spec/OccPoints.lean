import Verif.Spec.Points
import Verif.Model.OccMap
import Mathlib.Algebra.BigOperators.Group.Finset.Basic

/-!
Specification: hits and misses that a history of `insert` calls contributes to an occupancy map.
-/

namespace Ndt.Spec

variable {K : Type} [Field K] [LinearOrder K] {d : Nat} {W : Type}

/-- The bundle indices a map accepts: all for a dynamic map; for a static map of `size` cells starting at bundle `lo` the box `lo ≤ b < lo + 2*size - 1`. -/
def ValidBundle : Kind d → Idx d → Prop
  | .dynamic _ _, _ => True
  | .static size lo, b => ∀ a, lo a ≤ b a ∧ b a < lo a + 2 * (size a : Int) - 1

/-- The points of a scan that count as hits, in map coordinates: points that are normal before and after the transformation by the pose and lie in the region. -/
noncomputable def hits (g : Geo K d) (k : Kind d) (s : Scan K d W) : Multiset (Pt K d) :=
  acceptedPoints g k s.pose (s.cloud.filter fun p => g.normal p)

open scoped Classical in
/-- the hits of a scan in a bundle -/
noncomputable def hitsIn (g : Geo K d) (k : Kind d) (s : Scan K d W) (b : Idx d) : Multiset (Pt K d) := (hits g k s).filter (InBundle g.r b)

/-- the bundles with at least one hit (there are finitely many: the bundles containing the hits) -/
noncomputable def hitBundles [FloorRing K] (g : Geo K d) (k : Kind d) (s : Scan K d W) : Finset (Idx d) :=
  ((hits g k s).map fun (p : Pt K d) (a : Fin d) => ⌊p a / (g.r / 2)⌋).toFinset

/-- arithmetic mean -/
noncomputable def meanOf (s : Multiset (Pt K d)) : Pt K d := fun a => (s.map fun p => p a).sum / (s.card : K)

/-- the cells of the ray traced for bundle `b`: from the origin of the scan to the mean of the hits in `b` -/
noncomputable def rayOf (g : Geo K d) (k : Kind d) (s : Scan K d W) (b : Idx d) : List (Idx d) :=
  s.ray (g.toMap (s.pose 0)) (meanOf (hitsIn g k s b))

/-- the bundle `b` lies in cell `i` of grid `c` -/
def BundleInCell (r : K) (b : Idx d) (c : Nat) (i : Idx d) : Prop := ∀ p : Pt K d, InBundle r b p → InCell r c i p

open scoped Classical in
/-- Misses a scan contributes to the distribution of grid `c` at `i`: for every hit bundle, the number of hits in it times the number of accepted ray cells inside of the cell. If
`skip`, ray cells that are hit bundles do not count. -/
noncomputable def misses [FloorRing K] (skip : Bool) (g : Geo K d) (k : Kind d) (s : Scan K d W) (c : Nat) (i : Idx d) : Nat :=
  ∑ b ∈ hitBundles g k s, ((rayOf g k s b).filter fun x => decide (ValidBundle k x ∧ BundleInCell g.r x c i ∧ (skip = true → x ∉ hitBundles g k s))).length *
    (hitsIn g k s b).card

end Ndt.Spec
