import Verif.Spec.OccPoints

/-!
Specification: the bundles of an occupancy map that a scan touches.
-/

namespace Ndt.Spec
variable {K : Type} [Field K] [LinearOrder K] [FloorRing K] {d : Nat} {W : Type}

/-- A scan touches the bundles with a hit and the accepted cells of its rays. -/
def Touches (g : Geo K d) (k : Kind d) (s : Scan K d W) (b : Idx d) : Prop :=
  b ∈ hitBundles g k s ∨ (ValidBundle k b ∧ ∃ e ∈ hitBundles g k s, b ∈ rayOf g k s e)

/-- The scans `parts` are `whole` in pieces: the same pose, the same ray tracer, and each point of the cloud in one of them. -/
structure Pieces (whole : Scan K d W) (parts : List (Scan K d W)) : Prop where
  pose : ∀ s ∈ parts, s.pose = whole.pose
  ray : ∀ s ∈ parts, s.ray = whole.ray
  cloud : (parts.map Scan.cloud).flatten.Perm whole.cloud

end Ndt.Spec
