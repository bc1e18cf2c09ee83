import Verif.Spec.OccPoints

/-!
Specification: the scans of a history, for comparing the classes of maps.
-/

namespace Ndt.Spec
variable {K : Type} {d : Nat} {W E : Type}

/-- poses and clouds of the `insert` calls of a history of an NDT map, in order -/
def gridScans : List (GridOp K d) → List ((Pt K d → Pt K d) × List (Pt K d))
  | [] => []
  | .insert pose cloud :: l => (pose, cloud) :: gridScans l
  | .core _ :: l => gridScans l

/-- poses and clouds of the `insert` and `insertVisible` calls of a history of an occupancy map, in order -/
def occScans : List (OccMapOp K d W E) → List ((Pt K d → Pt K d) × List (Pt K d))
  | [] => []
  | .insert s :: l => (s.pose, s.cloud) :: occScans l
  | .insertVisible s _ _ :: l => (s.pose, s.cloud) :: occScans l
  | .core _ :: l => occScans l

/-- poses, clouds and line iterators of the `insert` calls of a history of an occupancy map, in order -/
def tracedScans : List (OccMapOp K d W E) → List ((Pt K d → Pt K d) × List (Pt K d) × (Pt K d → Pt K d → List (Idx d)))
  | [] => []
  | .insert s :: l => (s.pose, s.cloud, s.ray) :: tracedScans l
  | _ :: l => tracedScans l

/-- no ray of the scan enters a bundle with hits of the same scan -/
def RaysAvoidHits [Field K] [LinearOrder K] [FloorRing K] (g : Geo K d) (k : Kind d) (s : Scan K d W) : Prop :=
  ∀ b ∈ hitBundles g k s, ∀ x ∈ rayOf g k s b, x ∉ hitBundles g k s

end Ndt.Spec
