import Verif.Spec.OccPoints
import Verif.Spec.Rounded

/-! Specification: hits and misses of scans for a map that assigns points to bundles by a given function `q` (C93). -/

namespace Ndt.Spec
variable {K : Type} [Field K] [LinearOrder K] {d : Nat} {W E : Type}

/-- The points of a scan, in map coordinates: all points of the cloud that are normal before and after the pose was applied. -/
def scanned (g : Geo K d) (s : Scan K d W) : Multiset (Pt K d) :=
  (((((s.cloud.filter fun p => g.normal p).map s.pose).filter fun p => g.normal p).map g.toMap : List (Pt K d)) : Multiset (Pt K d))

/-- the points of the scan of an operation -/
def scannedBy (g : Geo K d) : OccMapOp K d W E → Multiset (Pt K d)
  | .insert s => scanned g s
  | .insertVisible s _ _ => scanned g s
  | .core _ => 0

/-- all points whose bundle an operation computes: the points of its scan, and the origin of a scan with visibility test -/
def quantised (g : Geo K d) : OccMapOp K d W E → Multiset (Pt K d)
  | .insert s => scanned g s
  | .insertVisible s _ _ => g.toMap (s.pose 0) ::ₘ scanned g s
  | .core _ => 0

open scoped Classical in
/-- the points that `q` assigns to a bundle of the map whose cell in grid `c` is `i` -/
noncomputable def assignedTo (q : Pt K d → Option (Idx d)) (k : Kind d) (c : Nat) (i : Idx d) (m : Multiset (Pt K d)) : Multiset (Pt K d) :=
  m.filter fun p => ∃ b, q p = some b ∧ HasBundle k b ∧ generateIndex b c = i

open scoped Classical in
/-- the points of a scan that `q` assigns to bundle `b` -/
noncomputable def hitsAt (q : Pt K d → Option (Idx d)) (g : Geo K d) (s : Scan K d W) (b : Idx d) : Multiset (Pt K d) := (scanned g s).filter fun p => q p = some b

open scoped Classical in
/-- the bundles of the map to which `q` assigns points of the scan -/
noncomputable def bundlesHit (q : Pt K d → Option (Idx d)) (g : Geo K d) (k : Kind d) (s : Scan K d W) : Finset (Idx d) := (((scanned g s).filterMap q).toFinset).filter (HasBundle k)

open scoped Classical in
/-- Misses a scan contributes to the distribution of grid `c` at `i`: for every hit bundle, the number of its points times the number of cells of the ray, from the origin of the scan to their mean, that are bundles of the map and
overlap the cell. If `skip`, ray cells that are hit bundles do not count. -/
noncomputable def missesAt (skip : Bool) (q : Pt K d → Option (Idx d)) (g : Geo K d) (k : Kind d) (s : Scan K d W) (c : Nat) (i : Idx d) : Nat :=
  ∑ b ∈ bundlesHit q g k s, ((s.ray (g.toMap (s.pose 0)) (meanOf (hitsAt q g s b))).filter fun x =>
    decide (HasBundle k x ∧ generateIndex x c = i ∧ (skip = true → x ∉ bundlesHit q g k s))).length * (hitsAt q g s b).card

end Ndt.Spec
