import Verif.Model.OccMap
import Verif.Model.Rounding

/-!
Occupancy maps with rounded quantisation of points (C93): the operations of `Model/OccMap.lean` with `toBundleIndexR` in place of `toBundleIndex`.

The ray tracer is an arbitrary function of the origin and the mean in both files, so the rounding inside of it needs no model. Simplification: the mean and the weight of the
points of a bundle are those of the flavour, functions of the multiset of points.
-/

namespace Ndt

section
variable {K : Type} [Field K] [LinearOrder K] [FloorRing K] {d : Nat} {W E : Type} [AddCommMonoid W]

/-- The loop that collects the points per bundle (`CN/map/impl/occupancy_gridmap.hpp:63-75`, `weighted_occupancy_gridmap.hpp:59-71`), as `occCollect`, with rounded quantisation; `none` if an index leaves the range of `int`. -/
def occCollectR (R : Arith K) (fl : Flavour K d W E) (g : Geo K d) (ok : Idx d → Bool) (pose : Pt K d → Pt K d) (cloud : List (Pt K d)) : Option (List (Idx d × Multiset E)) :=
  (collectR R g ok pose (cloud.filter fun p => g.normal p) []).map fun u => u.map fun e => (e.1, e.2.map fl.sample)

/-- `insert` (`occupancy_gridmap.hpp:57-97`, `weighted_occupancy_gridmap.hpp:53-95`), as `occInsert`, with rounded quantisation. -/
def occInsertR {B : Backend d} (R : Arith K) (fl : Flavour K d W E) (g : Geo K d) (dyn : Bool) (s : Scan K d W) (st : St B (Occ W E)) : Option (St B (Occ W E)) :=
  (occCollectR R fl g (st.valid dyn) s.pose s.cloud).bind fun updates =>
    match occHits fl dyn s.ray (rayStart g s.pose) updates [] st with
    | none => none
    | some (free, st1) => occFree dyn (s.order (if fl.eraseHits then eraseKeys updates free else free)) st1

/-- `insertVisible` (`occupancy_gridmap.hpp:108-194`, `weighted_occupancy_gridmap.hpp:106-193`), as `occInsertVisible`, with rounded quantisation of the points and of the
origin of the scan (`occupancy_gridmap.hpp:137`, `weighted_occupancy_gridmap.hpp:136`). -/
def occInsertVisibleR {B : Backend d} (R : Arith K) (fl : Flavour K d W E) (g : Geo K d) (dyn : Bool) (defRay : Pt K d → Pt K d → List (Idx d))
    (s : Scan K d W) (occ : Option (Occ W E → K)) (vm : Option (VisModel K)) (st : St B (Occ W E)) : Option (St B (Occ W E)) :=
  match occ, vm with
  | some occ, some vm =>
    (occCollectR R fl g (st.valid dyn) s.pose s.cloud).bind fun updates =>
    (toBundleIndexR R g.r (rayStart g s.pose)).bind fun startBi =>
      match visHits fl dyn s.ray occ vm (rayStart g s.pose) startBi updates [] st with
      | none => none
      | some (none, st1) => some st1
      | some (some free, st1) => occFree dyn (s.order (eraseKeys updates free)) st1
  | _, _ => occInsertR R fl g dyn (if fl.fallbackDefault then { s with ray := defRay } else s) st

def occStepR {B : Backend d} (R : Arith K) (fl : Flavour K d W E) (g : Geo K d) (dyn : Bool) (defRay : Pt K d → Pt K d → List (Idx d))
    (exp : Occ W E → Bool) : OccMapOp K d W E → St B (Occ W E) → Option (St B (Occ W E))
  | .insert s, st => occInsertR R fl g dyn s st
  | .insertVisible s occ vm, st => occInsertVisibleR R fl g dyn defRay s occ vm st
  | .core op, st => St.coreStep dyn exp op st

/-- A history of operations on an occupancy map with rounded quantisation. -/
def occRunR {B : Backend d} (R : Arith K) (fl : Flavour K d W E) (g : Geo K d) (dyn : Bool) (defRay : Pt K d → Pt K d → List (Idx d))
    (exp : Occ W E → Bool) : List (OccMapOp K d W E) → St B (Occ W E) → Option (St B (Occ W E))
  | [], st => some st
  | op :: l, st => (occStepR R fl g dyn defRay exp op st).bind (occRunR R fl g dyn defRay exp l)

end
end Ndt
