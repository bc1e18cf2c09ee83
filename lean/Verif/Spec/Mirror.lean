import Verif.Spec.Axes

/-!
Specification: mirror images of everything a map is given.
-/

namespace Ndt.Spec
variable {K : Type} {d : Nat}

section
variable [Neg K]

/-- the mirror image of a point: the coordinates of the axes `M` change their sign -/
def mirror (M : Fin d → Bool) (p : Pt K d) : Pt K d := fun a => if M a then -p a else p a

/-- a function on points, expressed in mirrored coordinates -/
def mirrorMap (M : Fin d → Bool) (f : Pt K d → Pt K d) : Pt K d → Pt K d := fun p => mirror M (f (mirror M p))

/-- resolution, pose and test of the points of a map, in mirrored coordinates -/
def mirrorGeo (M : Fin d → Bool) (g : Geo K d) : Geo K d := { r := g.r, toMap := mirrorMap M g.toMap, normal := fun p => g.normal (mirror M p) }

end

/-- the mirror image of a cell of grid `c`: cells of the unshifted grid start at 0, those of the shifted one are centred at 0 -/
def mirrorCell (M : Fin d → Bool) (c : Nat) (i : Idx d) : Idx d := fun a => if M a then (if c.testBit a.1 then -i a else -i a - 1) else i a

/-- the mirror image of a bundle -/
def mirrorBundle (M : Fin d → Bool) (b : Idx d) : Idx d := fun a => if M a then -b a - 1 else b a

/-- the static map with the mirrored region -/
def mirrorKind (M : Fin d → Bool) : Kind d → Kind d
  | .dynamic gb gb' => .dynamic gb gb'
  | .static size lo => .static size fun a => if M a then -lo a - 2 * (size a : Int) + 1 else lo a

/-- the point lies on no border of a bundle -/
def OffBorders [Field K] (r : K) (p : Pt K d) : Prop := ∀ a, ∀ n : Int, p a ≠ n * (r / 2)

/-- an operation on an NDT map in mirrored coordinates, whose points lie on no borders; lookups may concern any bundles -/
inductive MirroredOp [Field K] (M : Fin d → Bool) (g : Geo K d) : GridOp K d → GridOp K d → Prop
  | insert (pose : Pt K d → Pt K d) (cloud : List (Pt K d)) (h : ∀ p ∈ cloud, OffBorders g.r (g.toMap (pose p))) : MirroredOp M g (.insert pose cloud) (.insert (mirrorMap M pose) (cloud.map (mirror M)))
  | core (op op' : CoreOp d) : MirroredOp M g (.core op) (.core op')

/-- a scan in mirrored coordinates, whose points and whose origin lie on no borders; the order of the hash map may be different. The line iterator treats both directions of the axes alike, between points on no borders. -/
structure MirroredScan [Field K] {W : Type} (M : Fin d → Bool) (g : Geo K d) (s s' : Scan K d W) : Prop where
  pose : s'.pose = mirrorMap M s.pose
  cloud : s'.cloud = s.cloud.map (mirror M)
  ray : ∀ p q, OffBorders g.r p → OffBorders g.r q → s'.ray (mirror M p) (mirror M q) = (s.ray p q).map (mirrorBundle M)
  origin : OffBorders g.r (g.toMap (s.pose 0))
  off : ∀ p ∈ s.cloud, OffBorders g.r (g.toMap (s.pose p))

/-- an operation on an occupancy map in mirrored coordinates (`insert` calls, lookups and allocations) -/
inductive MirroredOccOp [Field K] {W E : Type} (M : Fin d → Bool) (g : Geo K d) : OccMapOp K d W E → OccMapOp K d W E → Prop
  | insert (s s' : Scan K d W) (h : MirroredScan M g s s') : MirroredOccOp M g (.insert s) (.insert s')
  | core (op op' : CoreOp d) : MirroredOccOp M g (.core op) (.core op')

/-- coordinates in another order, some of them with the other sign: rotations by right angles, among others -/
def rightTurn [Neg K] (σ : Equiv.Perm (Fin d)) (M : Fin d → Bool) (p : Pt K d) : Pt K d := mirror M (permute σ p)

/-- a function on points, expressed in turned coordinates -/
def turnMap [Neg K] (σ : Equiv.Perm (Fin d)) (M : Fin d → Bool) (f : Pt K d → Pt K d) : Pt K d → Pt K d := mirrorMap M (permuteMap σ f)

/-- resolution, pose and test of the points of a map, in turned coordinates -/
def turnGeo [Neg K] (σ : Equiv.Perm (Fin d)) (M : Fin d → Bool) (g : Geo K d) : Geo K d := mirrorGeo M (permuteGeo σ g)

/-- the turned region -/
def turnKind (σ : Equiv.Perm (Fin d)) (M : Fin d → Bool) (k : Kind d) : Kind d := mirrorKind M (permuteKind σ k)

/-- the cell of grid `permuteGrid σ c` that corresponds to cell `i` of grid `c` -/
def turnCell (σ : Equiv.Perm (Fin d)) (M : Fin d → Bool) (c : Nat) (i : Idx d) : Idx d := mirrorCell M (permuteGrid σ c) (permute σ i)

/-- an operation on an NDT map in turned coordinates, whose points lie on no borders; lookups may concern any bundles -/
inductive TurnedOp [Field K] (σ : Equiv.Perm (Fin d)) (M : Fin d → Bool) (g : Geo K d) : GridOp K d → GridOp K d → Prop
  | insert (pose : Pt K d → Pt K d) (cloud : List (Pt K d)) (h : ∀ p ∈ cloud, OffBorders g.r (g.toMap (pose p))) : TurnedOp σ M g (.insert pose cloud) (.insert (turnMap σ M pose) (cloud.map (rightTurn σ M)))
  | core (op op' : CoreOp d) : TurnedOp σ M g (.core op) (.core op')

/-- the turned bundle -/
def turnBundle (σ : Equiv.Perm (Fin d)) (M : Fin d → Bool) (b : Idx d) : Idx d := mirrorBundle M (permute σ b)

/-- a scan in turned coordinates, whose points and whose origin lie on no borders; the order of the hash map may be different. The line iterator treats the axes and their directions alike, between points on no borders. -/
structure TurnedScan [Field K] {W : Type} (σ : Equiv.Perm (Fin d)) (M : Fin d → Bool) (g : Geo K d) (s s' : Scan K d W) : Prop where
  pose : s'.pose = turnMap σ M s.pose
  cloud : s'.cloud = s.cloud.map (rightTurn σ M)
  ray : ∀ p q, OffBorders g.r p → OffBorders g.r q → s'.ray (rightTurn σ M p) (rightTurn σ M q) = (s.ray p q).map (turnBundle σ M)
  origin : OffBorders g.r (g.toMap (s.pose 0))
  off : ∀ p ∈ s.cloud, OffBorders g.r (g.toMap (s.pose p))

/-- an operation on an occupancy map in turned coordinates (`insert` calls, lookups and allocations) -/
inductive TurnedOccOp [Field K] {W E : Type} (σ : Equiv.Perm (Fin d)) (M : Fin d → Bool) (g : Geo K d) : OccMapOp K d W E → OccMapOp K d W E → Prop
  | insert (s s' : Scan K d W) (h : TurnedScan σ M g s s') : TurnedOccOp σ M g (.insert s) (.insert s')
  | core (op op' : CoreOp d) : TurnedOccOp σ M g (.core op) (.core op')

end Ndt.Spec
