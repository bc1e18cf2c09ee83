import Verif.Model.Map
import Mathlib.Algebra.Order.Group.Multiset

/-!
Histories of operations on maps and the NDT grid map `Map<option, Dim, Distribution, T>` (`CN/map/impl/gridmap.hpp`).

A distribution is represented by the multiset of points it was fed (assumption A1).
-/

namespace Ndt

/-- Which map is constructed: a dynamic one on octrees (whose uninitialised size counters have arbitrary values) or a static one of a given size and minimum
bundle index on arrays (`CN/map/traits.hpp:27-39`, `CN/map/generic_map.hpp:51-74, 217-223`). -/
inductive Kind (d : Nat) where
  | dynamic (g : Nat → Nat) (g' : Nat)
  | static (size : Fin d → Nat) (lo : Idx d)

namespace Kind
variable {d : Nat}

def dyn : Kind d → Bool
  | dynamic _ _ => true
  | static _ _ => false

abbrev backend : Kind d → Backend d
  | dynamic _ _ => octreeBackend d
  | static _ _ => arrayBackend d

/-- the newly constructed map -/
def init (D : Type) [Inhabited D] : (k : Kind d) → St k.backend D
  | dynamic g g' => dynInit d D g g'
  | static size lo => staticInit d D size lo

end Kind

/-- Geometry parameters of a map (`CN/map/abstract_map.hpp:271-276`): `resolution_`, the transformation `m_T_w_` into map coordinates (an arbitrary function, assumption A5), and
`isNormal()` of the point class. -/
structure Geo (K : Type) (d : Nat) where
  r : K
  toMap : Pt K d → Pt K d
  normal : Pt K d → Bool

/-- Operations that exist on every kind of map and do not insert data. -/
inductive CoreOp (d : Nat) where
  /-- `getDistributionBundle(bi)` -/
  | bundleAt (bi : Idx d)
  /-- `get(bi)` -/
  | get (bi : Idx d)
  /-- `allocatePartiallyAllocatedBundle(bi, get(bi))` for an allocated bundle, nothing otherwise -/
  | expandOne (bi : Idx d)
  /-- `allocatePartiallyAllocatedBundles()` -/
  | expandAll

namespace St
variable {d : Nat} {B : Backend d} {D : Type} [Inhabited D]

/-- Execution of a core operation. -/
def coreStep (dyn : Bool) (exp : D → Bool) : CoreOp d → St B D → Option (St B D)
  | .bundleAt bi, st => (getDistributionBundle dyn bi st).map Prod.snd
  | .get bi, st => (getBundle dyn bi st).map fun _ => st
  | .expandOne bi, st =>
    match getBundle dyn bi st with
    | none => none
    | some none => some st
    | some (some _) => allocPartial dyn exp bi st
  | .expandAll, st => allocPartials dyn exp st

/-- `update` for a list of (index, effect) pairs, e.g. the final loop of `insert` (`CN/map/impl/gridmap.hpp:67-68`). -/
def updateList (dyn : Bool) : List (Idx d × (D → D)) → St B D → Option (St B D)
  | [], st => some st
  | e :: l, st => (update dyn e.1 e.2 st).bind (updateList dyn l)

end St

section
variable {K : Type} [Field K] [LinearOrder K] [FloorRing K] {d : Nat}

/-- The loop of `insert` that collects the points per bundle (`CN/map/impl/gridmap.hpp:56-65`); `ok` is `valid`. -/
def collect (g : Geo K d) (ok : Idx d → Bool) (pose : Pt K d → Pt K d) (cloud : List (Pt K d)) : List (Idx d × Multiset (Pt K d)) :=
  cloud.foldl (fun updates p =>
    let pw := pose p
    if g.normal pw then
      let pm := g.toMap pw
      let bi := toBundleIndex g.r pm
      if ok bi then upsert 0 (fun s => s + {pm}) bi updates else updates
    else updates) []

/-- `insert(points, origin)` of the NDT map (`CN/map/impl/gridmap.hpp:51-69`); `pose` is the action of `points_origin`. -/
def gridInsert {B : Backend d} (g : Geo K d) (dyn : Bool) (pose : Pt K d → Pt K d) (cloud : List (Pt K d)) (st : St B (Multiset (Pt K d))) :
    Option (St B (Multiset (Pt K d))) :=
  St.updateList dyn ((collect g (st.valid dyn) pose cloud).map fun e => (e.1, fun s => s + e.2)) st

/-- Operations on an NDT map. -/
inductive GridOp (K : Type) (d : Nat) where
  | insert (pose : Pt K d → Pt K d) (cloud : List (Pt K d))
  | core (op : CoreOp d)

def gridStep {B : Backend d} (g : Geo K d) (dyn : Bool) (exp : Multiset (Pt K d) → Bool) :
    GridOp K d → St B (Multiset (Pt K d)) → Option (St B (Multiset (Pt K d)))
  | .insert pose cloud, st => gridInsert g dyn pose cloud st
  | .core op, st => St.coreStep dyn exp op st

/-- A history of operations; `none` if one of them leaves the contract of the storages. -/
def gridRun {B : Backend d} (g : Geo K d) (dyn : Bool) (exp : Multiset (Pt K d) → Bool) :
    List (GridOp K d) → St B (Multiset (Pt K d)) → Option (St B (Multiset (Pt K d)))
  | [], st => some st
  | op :: l, st => (gridStep g dyn exp op st).bind (gridRun g dyn exp l)

end
end Ndt
