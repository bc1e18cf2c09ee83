import Verif.Model.Gridmap
import Verif.Model.Occupancy
import Mathlib.Data.List.Basic

/-!
Model of the occupancy maps: `CN/map/impl/occupancy_gridmap.hpp` and `CN/map/impl/weighted_occupancy_gridmap.hpp`.

Both classes are one model with a `Flavour` for the differences between the two files. Ray tracing is an arbitrary function from two points to the list of
visited bundles (assumption A6). The iteration order of `std::unordered_map` is an arbitrary permutation (assumption A9).
-/

namespace Ndt

/-- What differs between the two map classes; `E` is the type of samples, `W` the type of free counters. -/
structure Flavour (K : Type) (d : Nat) (W E : Type) where
  /-- how a point enters the distribution of its bundle: `updates[bi] += pm` resp. `updates[bi].add(pm)` with the default weight 1 -/
  sample : Pt K d → E
  /-- `getMean()` -/
  mean : Multiset E → Pt K d
  /-- `getN()` resp. `getWeight()` -/
  amount : Multiset E → W
  /-- `insert` tests `valid(i)` before `updateOccupied` (`occupancy_gridmap.hpp:82`; not in `weighted_occupancy_gridmap.hpp:79`) -/
  checkValid : Bool
  /-- `insert` removes the hit bundles from the free updates (`weighted_occupancy_gridmap.hpp:90-91`; not in `occupancy_gridmap.hpp`) -/
  eraseHits : Bool
  /-- `insertVisible` falls back to `insert` with the default line iterator instead of its own (`weighted_occupancy_gridmap.hpp:115` vs `occupancy_gridmap.hpp:117`) -/
  fallbackDefault : Bool

/-- Arguments of an `insert` call: the pose (its action on points), the point cloud, the line iterator of the call, and the iteration order of the hash map. -/
structure Scan (K : Type) (d : Nat) (W : Type) where
  pose : Pt K d → Pt K d
  cloud : List (Pt K d)
  ray : Pt K d → Pt K d → List (Idx d)
  order : List (Idx d × W) → List (Idx d × W)
  order_perm : ∀ l, (order l).Perm l

/-- The visibility model of `insertVisible` (`inverse_sensor_model_t`, its probabilities) -/
structure VisModel (K : Type) where
  probPrior : K
  probFree : K
  probOcc : K

section
variable {K : Type} [Field K] [LinearOrder K] [FloorRing K] {d : Nat} {W E : Type} [AddCommMonoid W]

/-- `OccupancyGridmap`: samples are points; the mean is the sum of the points divided by their number -/
def occFlavour (K : Type) [Field K] (d : Nat) : Flavour K d Nat (Pt K d) where
  sample := id
  mean := fun s a => (s.map fun p => p a).sum / (s.card : K)
  amount := fun s => s.card
  checkValid := true
  eraseHits := false
  fallbackDefault := false

/-- `WeightedOccupancyGridmap`: samples are weighted points -/
def weightedFlavour (K : Type) [Field K] (d : Nat) : Flavour K d K (Pt K d × K) where
  sample := fun p => (p, 1)
  mean := fun s a => (s.map fun x => x.2 * x.1 a).sum / (s.map Prod.snd).sum
  amount := fun s => (s.map Prod.snd).sum
  checkValid := false
  eraseHits := true
  fallbackDefault := true

/-- the loop that collects the points per bundle (`occupancy_gridmap.hpp:63-75`, `weighted_occupancy_gridmap.hpp:59-71`). `p->isNormal()` is tested before the transformation and `pw.isNormal()` after it. Simplification: points are turned into samples after collecting. -/
def occCollect (fl : Flavour K d W E) (g : Geo K d) (ok : Idx d → Bool) (pose : Pt K d → Pt K d) (cloud : List (Pt K d)) : List (Idx d × Multiset E) :=
  (collect g ok pose (cloud.filter fun p => g.normal p)).map fun e => (e.1, e.2.map fl.sample)

/-- the loop over a ray (`occupancy_gridmap.hpp:85-91`, `weighted_occupancy_gridmap.hpp:81-87`): `updates_free[bi] += n` for the valid cells -/
def addRay (ok : Idx d → Bool) (n : W) (cells : List (Idx d)) (free : List (Idx d × W)) : List (Idx d × W) :=
  cells.foldl (fun f bi => if ok bi then upsert 0 (fun w => w + n) bi f else f) free

/-- the loop over the hit bundles (`occupancy_gridmap.hpp:79-92`, `weighted_occupancy_gridmap.hpp:74-88`) -/
def occHits {B : Backend d} (fl : Flavour K d W E) (dyn : Bool) (ray : Pt K d → Pt K d → List (Idx d)) (start : Pt K d) :
    List (Idx d × Multiset E) → List (Idx d × W) → St B (Occ W E) → Option (List (Idx d × W) × St B (Occ W E))
  | [], free, st => some (free, st)
  | e :: l, free, st =>
    match (if fl.checkValid && !st.valid dyn e.1 then some st else St.update dyn e.1 (fun o => o.updateOccupied e.2) st) with
    | none => none
    | some st1 => occHits fl dyn ray start l (addRay (st1.valid dyn) (fl.amount e.2) (ray start (fl.mean e.2)) free) st1

/-- `updates_free.erase` of all hit bundles (`weighted_occupancy_gridmap.hpp:90-91`, `occupancy_gridmap.hpp:189-190`) -/
def eraseKeys (updates : List (Idx d × Multiset E)) (free : List (Idx d × W)) : List (Idx d × W) :=
  free.filter fun f => !(updates.map Prod.fst).contains f.1

/-- the final loop of `insert`: `updateFree` in hash order (`occupancy_gridmap.hpp:95-96`, `weighted_occupancy_gridmap.hpp:93-94`) -/
def occFree {B : Backend d} (dyn : Bool) (free : List (Idx d × W)) (st : St B (Occ W E)) : Option (St B (Occ W E)) :=
  St.updateList dyn (free.map fun f => (f.1, fun o => o.updateFree f.2)) st

/-- origin of the rays in map coordinates: `m_T_w_ * points_origin.translation()`; the translation of a pose is its action on the origin -/
def rayStart (g : Geo K d) (pose : Pt K d → Pt K d) : Pt K d := g.toMap (pose 0)

/-- `insert` (`occupancy_gridmap.hpp:57-97`, `weighted_occupancy_gridmap.hpp:53-95`) -/
def occInsert {B : Backend d} (fl : Flavour K d W E) (g : Geo K d) (dyn : Bool) (s : Scan K d W) (st : St B (Occ W E)) :
    Option (St B (Occ W E)) :=
  let updates := occCollect fl g (st.valid dyn) s.pose s.cloud
  match occHits fl dyn s.ray (rayStart g s.pose) updates [] st with
  | none => none
  | some (free, st1) => occFree dyn (s.order (if fl.eraseHits then eraseKeys updates free else free)) st1

/-! #### visibility -/

/-- sum over the bins of the occupancies, the null pointer being dereferenced (`occupancy_gridmap.hpp:147-149`) -/
def sumOccupancy {B : Backend d} {D : Type} (occ : D → K) (b : Bundle) (st : St B D) : List Nat → K → Option K
  | [], x => some x
  | c :: l, x =>
    match b.data c with
    | none => none
    | some a => sumOccupancy occ b st l (x + (1 / (twoPow d : K)) * occ (st.heap a))

/-- the lambda `occupancy` (`occupancy_gridmap.hpp:143-152`, `weighted_occupancy_gridmap.hpp:141-150`) -/
def bundleOccupancy {B : Backend d} {D : Type} (dyn : Bool) (occ : D → K) (bi : Idx d) (st : St B D) : Option K :=
  match St.getBundle dyn bi st with
  | none => none
  | some none => some 0
  | some (some b) => sumOccupancy occ b st (List.range (twoPow d)) 0

/-- the lambda `generate_occlusion_index` (`occupancy_gridmap.hpp:138-142`) -/
def occlusionIndex (startBi bi : Idx d) (c : Fin d) : Idx d :=
  Function.update bi c (bi c + (if startBi c < bi c then -1 else 1))

/-- the loop over the dimensions in `current_visibility` (`occupancy_gridmap.hpp:154-159`) -/
def occlusionProb {B : Backend d} {D : Type} (dyn : Bool) (occ : D → K) (startBi bi : Idx d) (st : St B D) : List (Fin d) → K → Option K
  | [], x => some x
  | c :: l, x =>
    if st.valid dyn (occlusionIndex startBi bi c) then
      match bundleOccupancy dyn occ (occlusionIndex startBi bi c) st with
      | none => none
      | some o => occlusionProb dyn occ startBi bi st l (min x o)
    else occlusionProb dyn occ startBi bi st l x

/-- the lambda `current_visibility` (`occupancy_gridmap.hpp:137-163`, `weighted_occupancy_gridmap.hpp:135-161`) -/
def currentVisibility {B : Backend d} {D : Type} (dyn : Bool) (occ : D → K) (vm : VisModel K) (startBi bi : Idx d) (st : St B D) : Option K :=
  (occlusionProb dyn occ startBi bi st (List.finRange d) 1).map fun o => vm.probFree * o + vm.probOcc * (1 - o)

/-- walking a ray (`occupancy_gridmap.hpp:173-182`, `weighted_occupancy_gridmap.hpp:172-181`); the inner `none` is the `return` statement inside the loop -/
def visRay {B : Backend d} {D : Type} (dyn : Bool) (occ : D → K) (vm : VisModel K) (startBi : Idx d) (n : W) (st : St B D) :
    List (Idx d) → K → List (Idx d × W) → Option (Option (K × List (Idx d × W)))
  | [], v, free => some (some (v, free))
  | bi :: l, v, free =>
    match currentVisibility dyn occ vm startBi bi st with
    | none => none
    | some cv =>
      if v * cv < vm.probPrior then some none
      else visRay dyn occ vm startBi n st l (v * cv) (if st.valid dyn bi then upsert 0 (fun w => w + n) bi free else free)

/-- the loop over the hit bundles (`occupancy_gridmap.hpp:164-187`, `weighted_occupancy_gridmap.hpp:163-186`). The result `(none, st)` is the early `return`. -/
def visHits {B : Backend d} (fl : Flavour K d W E) (dyn : Bool) (ray : Pt K d → Pt K d → List (Idx d)) (occ : Occ W E → K) (vm : VisModel K)
    (start : Pt K d) (startBi : Idx d) :
    List (Idx d × Multiset E) → List (Idx d × W) → St B (Occ W E) → Option (Option (List (Idx d × W)) × St B (Occ W E))
  | [], free, st => some (some free, st)
  | e :: l, free, st =>
    match visRay dyn occ vm startBi (fl.amount e.2) st (ray start (fl.mean e.2)) 1 free with
    | none => none
    | some none => some (none, st)
    | some (some (v, free')) =>
      match currentVisibility dyn occ vm startBi e.1 st with
      | none => none
      | some cv =>
        if vm.probPrior ≤ v * cv then
          match St.update dyn e.1 (fun o => o.updateOccupied e.2) st with
          | none => none
          | some st1 => visHits fl dyn ray occ vm start startBi l free' st1
        else visHits fl dyn ray occ vm start startBi l free' st

/-- `insertVisible` (`occupancy_gridmap.hpp:108-194`, `weighted_occupancy_gridmap.hpp:106-193`); `occ` is `getOccupancy` with the inverse model `ivm` (`none` = null
pointer), `defRay` the default line iterator of the class. -/
def occInsertVisible {B : Backend d} (fl : Flavour K d W E) (g : Geo K d) (dyn : Bool) (defRay : Pt K d → Pt K d → List (Idx d))
    (s : Scan K d W) (occ : Option (Occ W E → K)) (vm : Option (VisModel K)) (st : St B (Occ W E)) : Option (St B (Occ W E)) :=
  match occ, vm with
  | some occ, some vm =>
    let updates := occCollect fl g (st.valid dyn) s.pose s.cloud
    match visHits fl dyn s.ray occ vm (rayStart g s.pose) (toBundleIndex g.r (rayStart g s.pose)) updates [] st with
    | none => none
    | some (none, st1) => some st1
    | some (some free, st1) => occFree dyn (s.order (eraseKeys updates free)) st1
  | _, _ => occInsert fl g dyn (if fl.fallbackDefault then { s with ray := defRay } else s) st

/-- Operations on an occupancy map -/
inductive OccMapOp (K : Type) (d : Nat) (W E : Type) where
  | insert (s : Scan K d W)
  | insertVisible (s : Scan K d W) (occ : Option (Occ W E → K)) (vm : Option (VisModel K))
  | core (op : CoreOp d)

def occStep {B : Backend d} (fl : Flavour K d W E) (g : Geo K d) (dyn : Bool) (defRay : Pt K d → Pt K d → List (Idx d))
    (exp : Occ W E → Bool) : OccMapOp K d W E → St B (Occ W E) → Option (St B (Occ W E))
  | .insert s, st => occInsert fl g dyn s st
  | .insertVisible s occ vm, st => occInsertVisible fl g dyn defRay s occ vm st
  | .core op, st => St.coreStep dyn exp op st

/-- a history of operations -/
def occRun {B : Backend d} (fl : Flavour K d W E) (g : Geo K d) (dyn : Bool) (defRay : Pt K d → Pt K d → List (Idx d))
    (exp : Occ W E → Bool) : List (OccMapOp K d W E) → St B (Occ W E) → Option (St B (Occ W E))
  | [], st => some st
  | op :: l, st => (occStep fl g dyn defRay exp op st).bind (occRun fl g dyn defRay exp l)

end
end Ndt
