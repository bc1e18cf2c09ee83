import Verif.Spec.OccPoints
import Verif.Spec.Axes

/-!
Specification for C92: maps whose lattice is displaced by a multiple of half a cell.
-/

namespace Ndt
open Spec

section
variable {K : Type} {d : Nat}

/-- a point moved by `v` -/
def Spec.translate [Add K] (v q : Pt K d) : Pt K d := fun a => q a + v a

/-- the index that the cell `i` of grid `c` has after a move by `t` half cells: cells become cells of the other grid of an axis if `t` is odd there -/
def movedCell (t : Idx d) (c : Nat) (i : Idx d) : Idx d := fun a => i a + (if t a % 2 = 1 then (if c.testBit a.1 then (t a - 1) / 2 else (t a + 1) / 2) else t a / 2)

/-- the grid whose cells the cells of grid `c` become: the grids change along the axes with an odd displacement -/
def movedGrid (t : Idx d) (c : Nat) : Nat := c ^^^ Nat.ofBits fun a => decide (t a % 2 = 1)

/-- the bundle `b` after the move -/
def movedBundle (t b : Idx d) : Idx d := fun a => b a + t a

/-- the map with the moved region -/
def movedKind (t : Idx d) : Kind d → Kind d
  | .dynamic gb gb' => .dynamic gb gb'
  | .static size lo => .static size (movedBundle t lo)

end

section
variable {K : Type} [Field K] {d : Nat}

/-- the displacement by `t` half cells -/
def displacement (r : K) (t : Idx d) : Pt K d := fun a => r / 2 * (t a : K)

/-- The maps `g` and `g'` have the same resolution and the same test of the points; the origin of the second is displaced by `t` half cells. -/
structure Displaced (t : Idx d) (g g' : Geo K d) : Prop where
  r : g'.r = g.r
  normal : g'.normal = g.normal
  toMap : ∀ p, g'.toMap p = translate (displacement g.r t) (g.toMap p)

/-- The same scan, given to both maps; the order of the hash map may be different. The line iterator visits the same bundles of space in both maps. -/
structure DisplacedScan {W : Type} (t : Idx d) (g : Geo K d) (s s' : Scan K d W) : Prop where
  pose : s'.pose = s.pose
  cloud : s'.cloud = s.cloud
  ray : ∀ p q, s'.ray (translate (displacement g.r t) p) (translate (displacement g.r t) q) = (s.ray p q).map (movedBundle t)

/-- the same operation on both occupancy maps (`insert` calls); lookups and allocations may concern any bundles -/
inductive DisplacedOccOp {W E : Type} (t : Idx d) (g : Geo K d) : OccMapOp K d W E → OccMapOp K d W E → Prop
  | insert (s s' : Scan K d W) (h : DisplacedScan t g s s') : DisplacedOccOp t g (.insert s) (.insert s')
  | core (op op' : CoreOp d) : DisplacedOccOp t g (.core op) (.core op')

/-- The same operation on both occupancy maps, of any kind: `insert`, `insertVisible` with or without models, lookups and allocations at the same place. The model of the occupancy does not depend on the places `F` of the hits. -/
inductive DisplacedAnyOp {W E : Type} (F : E → E) (t : Idx d) (g : Geo K d) : OccMapOp K d W E → OccMapOp K d W E → Prop
  | insert (s s' : Scan K d W) (h : DisplacedScan t g s s') : DisplacedAnyOp F t g (.insert s) (.insert s')
  | insertVisible (s s' : Scan K d W) (h : DisplacedScan t g s s') (occ : Option (Occ W E → K)) (ho : ∀ f, occ = some f → ∀ o, f (mapHits F o) = f o) (vm : Option (VisModel K)) :
      DisplacedAnyOp F t g (.insertVisible s occ vm) (.insertVisible s' occ vm)
  | bundleAt (b : Idx d) : DisplacedAnyOp F t g (.core (.bundleAt b)) (.core (.bundleAt (movedBundle t b)))
  | get (b b' : Idx d) : DisplacedAnyOp F t g (.core (.get b)) (.core (.get b'))
  | expandOne (b : Idx d) : DisplacedAnyOp F t g (.core (.expandOne b)) (.core (.expandOne (movedBundle t b)))
  | expandAll : DisplacedAnyOp F t g (.core .expandAll) (.core .expandAll)

/-- the same operation on both NDT maps -/
inductive DisplacedOp : GridOp K d → GridOp K d → Prop
  | insert (pose : Pt K d → Pt K d) (cloud : List (Pt K d)) : DisplacedOp (.insert pose cloud) (.insert pose cloud)
  | core (op op' : CoreOp d) : DisplacedOp (.core op) (.core op')

end
end Ndt
