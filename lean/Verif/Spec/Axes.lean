import Verif.Spec.OccPoints
import Verif.Spec.Interp
import Batteries.Data.Nat.Lemmas

/-!
Specification: renaming the axes of everything a map is given.
-/

namespace Ndt.Spec
variable {K : Type} {d : Nat}

/-- the point (or index) with its coordinates in another order: coordinate `a` of the result is coordinate `σ a` of `p` -/
def permute {A : Type} (σ : Equiv.Perm (Fin d)) (p : Fin d → A) : Fin d → A := fun a => p (σ a)

/-- a function on points, expressed in the permuted coordinates -/
def permuteMap (σ : Equiv.Perm (Fin d)) (f : Pt K d → Pt K d) : Pt K d → Pt K d := fun p => permute σ (f (permute σ.symm p))

/-- the grid that is shifted along axis `a` iff grid `c` is shifted along axis `σ a` -/
def permuteGrid (σ : Equiv.Perm (Fin d)) (c : Nat) : Nat := Nat.ofBits fun a : Fin d => c.testBit (σ a).1

/-- resolution, pose and test of the points of a map, in permuted coordinates -/
def permuteGeo (σ : Equiv.Perm (Fin d)) (g : Geo K d) : Geo K d := { r := g.r, toMap := permuteMap σ g.toMap, normal := fun p => g.normal (permute σ.symm p) }

/-- size and lower corner of a static map, in permuted coordinates -/
def permuteKind (σ : Equiv.Perm (Fin d)) : Kind d → Kind d
  | .dynamic gb gb' => .dynamic gb gb'
  | .static size lo => .static (permute σ size) (permute σ lo)

/-- an operation on an NDT map in permuted coordinates; lookups may concern any bundles -/
inductive PermutedOp (σ : Equiv.Perm (Fin d)) : GridOp K d → GridOp K d → Prop
  | insert (pose : Pt K d → Pt K d) (cloud : List (Pt K d)) : PermutedOp σ (.insert pose cloud) (.insert (permuteMap σ pose) (cloud.map (permute σ)))
  | core (op op' : CoreOp d) : PermutedOp σ (.core op) (.core op')

/-- a scan in permuted coordinates; the order of the hash map may be different -/
structure PermutedScan {W : Type} (σ : Equiv.Perm (Fin d)) (s s' : Scan K d W) : Prop where
  pose : s'.pose = permuteMap σ s.pose
  cloud : s'.cloud = s.cloud.map (permute σ)
  ray : ∀ p q, s'.ray (permute σ p) (permute σ q) = (s.ray p q).map (permute σ)

/-- an operation on an occupancy map in permuted coordinates (`insert` calls, lookups and allocations) -/
inductive PermutedOccOp {W E : Type} (σ : Equiv.Perm (Fin d)) : OccMapOp K d W E → OccMapOp K d W E → Prop
  | insert (s s' : Scan K d W) (h : PermutedScan σ s s') : PermutedOccOp σ (.insert s) (.insert s')
  | core (op op' : CoreOp d) : PermutedOccOp σ (.core op) (.core op')

/-- the distribution with other hits: the sample `e` becomes `F e`; the free count is the same -/
def mapHits {W E : Type} (F : E → E) (o : Occ W E) : Occ W E := { o with data := o.data.map (Multiset.map F) }

end Ndt.Spec
