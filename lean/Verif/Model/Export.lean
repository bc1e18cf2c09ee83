import Verif.Model.Gridmap
import Verif.Model.Occupancy
import Verif.Model.Float

/-!
Model of the exports for visualisation: point clouds (`C3/conversion/sensor_msgs_pointcloud2.hpp`) and markers (`C2/conversion/distributions.hpp`, `C3/conversion/distributions.hpp`).

The density of a distribution, its eigenvalue decomposition, occupancies, colours, rotations and rounding to `float` are arbitrary functions; the theorems quantify over them. A pose is its
action on points.
-/

namespace Ndt

/-- `for (storage : src.getStorages()) storage->traverse(...)` (`C3/conversion/sensor_msgs_pointcloud2.hpp:81-84`, `C3/conversion/distributions.hpp:91-94` and all
others): the visited indices and distributions, in order. -/
def St.items {d : Nat} {B : Backend d} {D : Type} (st : St B D) : List (Idx d × D) :=
  (List.range (twoPow d)).flatMap fun c => (B.traverse (st.storage c)).map fun e => (e.1, st.heap e.2)

/-- `if (allocate_all) src.allocatePartiallyAllocatedBundles()` (`C3/conversion/sensor_msgs_pointcloud2.hpp:52-53, 112-113`) -/
def St.allocateAll {d : Nat} {B : Backend d} {D : Type} [Inhabited D] (dyn : Bool) (exp : D → Bool) (all : Bool) (st : St B D) : Option (St B D) :=
  if all then St.allocPartials dyn exp st else some st

/-- `StableDistribution::getMean()` of the points of a distribution (A1): their sum divided by their number, the zero vector as long as there are none -/
def meanPoint {K : Type} [Field K] {d : Nat} (s : Multiset (Pt K d)) : Pt K d := fun a => (s.map fun p => p a).sum / (s.card : K)

/-! #### point clouds -/

/-- `float` in memory: 4 bytes, little endian as on the platforms the message claims (`is_bigendian = false`) -/
structure Float32 (F : Type) where
  enc : F → List UInt8
  dec : List UInt8 → F
  len : ∀ x, (enc x).length = 4
  dec_enc : ∀ x, dec (enc x) = x

/-- `sensor_msgs::PointField` (the data type is always `FLOAT32`) -/
structure PointField where
  name : String
  offset : Nat
  count : Nat

/-- `sensor_msgs::PointCloud2`, without the header, which is not touched -/
structure PointCloud2 where
  width : Nat
  height : Nat
  pointStep : Nat
  rowStep : Nat
  fields : List PointField
  data : List UInt8

/-- `from(tmp, dst)` (`C3/conversion/sensor_msgs_pointcloud2.hpp:13-41`). `width` and `row_step` are 32-bit unsigned. -/
def cloudMessage {F : Type} (C : Float32 F) (tmp : List F) : PointCloud2 where
  width := tmp.length / 4 % 2 ^ 32
  height := 1
  pointStep := 4 * 4
  rowStep := 4 * tmp.length % 2 ^ 32
  fields := (["x", "y", "z", "intensity"].zipIdx).map fun e => { name := e.1, offset := e.2 * 4, count := tmp.length / 4 % 2 ^ 32 }
  data := tmp.flatMap C.enc

section
variable {K : Type} [Field K] {F : Type} {B : Backend 3}

/-- the four `emplace_back` calls (`C3/conversion/sensor_msgs_pointcloud2.hpp:73-78, 136-141`) -/
def pushPoint (cast : K → F) (tmp : List F) (p : Pt K 3) (v : K) : List F := tmp ++ [cast (p 0)] ++ [cast (p 1)] ++ [cast (p 2)] ++ [cast v]

/-- `from(map, dst, transform, allocate_all)` for NDT maps up to the vector `tmp` (`C3/conversion/sensor_msgs_pointcloud2.hpp:43-86`); `T` is the action of
`transform * src.getInitialOrigin()`. -/
def cloudNdt (cast : K → F) (T : Pt K 3 → Pt K 3) (dens : Multiset (Pt K 3) → Pt K 3 → K) (st : St B (Multiset (Pt K 3))) : List F :=
  st.items.foldl (fun tmp e => pushPoint cast tmp (T (meanPoint e.2)) (dens e.2 (meanPoint e.2))) []

variable [LinearOrder K]

/-- `from(map, dst, ivm, transform, threshold, allocate_all)` for occupancy maps up to the vector `tmp` (`C3/conversion/sensor_msgs_pointcloud2.hpp:101-149`); `occ` is
`getOccupancy(ivm)`. -/
def cloudOcc (cast : K → F) (T : Pt K 3 → Pt K 3) (dens : Multiset (Pt K 3) → Pt K 3 → K) (occ : Occ Nat (Pt K 3) → K) (threshold : K)
    (st : St B (Occ Nat (Pt K 3))) : List F :=
  st.items.foldl (fun tmp e =>
    if occ e.2 < threshold then tmp
    else match e.2.data with
      | none => tmp
      | some s => pushPoint cast tmp (T (meanPoint s)) (dens s (meanPoint s) * occ e.2)) []

end

/-! #### markers -/

/-- `visualization_msgs::Marker::action` -/
inductive MarkerAction where
  | add
  | deleteAll
deriving DecidableEq

/-- `visualization_msgs::Marker`: the fields that vary. `Q` is the type of orientations, `C` of colours. Time, frame, name space, type and life time are constant. -/
structure Marker (K Q C : Type) where
  action : MarkerAction
  id : Nat
  position : Pt K 3
  orientation : Q
  scale : Fin 3 → Fl K
  alpha : K
  color : C

/-- What the marker conversion depends on: the action of `transform * src.getInitialOrigin()`, the decomposition `getEigenValuesVectors` of a distribution
(`none`: failed), the orientation of the marker for given eigenvectors, the colour for a position, and the square root. -/
structure Viz (K : Type) (d : Nat) (Q C V : Type) where
  origin : Pt K d → Pt K d
  eigen : Multiset (Pt K d) → Option ((Fin d → Fl K) × V)
  orient : V → Q
  color : Pt K d → C
  sqrt : Fl K → Fl K

section
variable {K : Type} [Field K] [LinearOrder K] {Q C V : Type}

/-- `std::max(a, b)`: `(a < b) ? b : a` -/
def stdMax (a b : Fl K) : Fl K := if a.lt b then b else a

/-- `std::max(1e-4, 2 * std::sqrt(eval(i)))` (`C2/conversion/distributions.hpp:77-78`, `C3/conversion/distributions.hpp:77-79`); `e` is `1e-4` -/
def markerScale (e : K) (sqrt : Fl K → Fl K) (ev : Fl K) : Fl K := stdMax (.fin e) (.fin 2 * sqrt ev)

/-- What distinguishes the 2D and the 3D conversion: the position of the marker and its scale. -/
structure VizDim (K : Type) (d : Nat) where
  position : Pt K d → Pt K 3
  scale : (Fl K → Fl K) → (Fin d → Fl K) → Fin 3 → Fl K

/-- 2D (`C2/conversion/distributions.hpp:53-55, 77-79`): height 0 and scale 1e-4 -/
def viz2 (e : K) : VizDim K 2 where
  position := fun p i => if i = 0 then p 0 else if i = 1 then p 1 else 0
  scale := fun sqrt ev i => if i = 0 then markerScale e sqrt (ev 0) else if i = 1 then markerScale e sqrt (ev 1) else .fin e

/-- 3D (`C3/conversion/distributions.hpp:55-57, 77-79`) -/
def viz3 (e : K) : VizDim K 3 where
  position := fun p => p
  scale := fun sqrt ev i => markerScale e sqrt (ev i)

/-- The body of `process_item` after the distribution has been obtained (`C3/conversion/distributions.hpp:51-88, 141-184`): `alpha` is 1 or the occupancy. The marker object is reused from call to call;
if the decomposition fails, its position has already been overwritten. -/
def markerItem {d : Nat} (D : VizDim K d) (v : Viz K d Q C V) (alpha : K) (s : Multiset (Pt K d)) (x : List (Marker K Q C) × Marker K Q C) :
    List (Marker K Q C) × Marker K Q C :=
  let p := v.origin (meanPoint s)
  let m := { x.2 with position := D.position p }
  match v.eigen s with
  | none => (x.1, m)
  | some (ev, vec) =>
    let m := { m with orientation := v.orient vec }
    let m := { m with scale := D.scale v.sqrt ev }
    let m := { m with alpha := alpha, color := v.color p }
    (x.1 ++ [m], { m with id := m.id + 1 })

/-- The set-up of the conversions (`C3/conversion/distributions.hpp:29-40`): `marker0` is the default constructed marker (its id is 0). -/
def markerStart (marker0 : Marker K Q C) (dst : List (Marker K Q C)) : List (Marker K Q C) × Marker K Q C :=
  let m := { marker0 with action := .deleteAll }
  let dst := dst ++ [m]
  let m := { m with action := .add, alpha := 1 }
  (dst, { m with id := m.id + 1 })

/-- `from(map, dst, time, frame, transform)` for NDT maps (`C2/conversion/distributions.hpp:14-95`, `C3/conversion/distributions.hpp:14-95`) -/
def markersNdt {d : Nat} {B : Backend d} (D : VizDim K d) (v : Viz K d Q C V) (marker0 : Marker K Q C) (dst : List (Marker K Q C))
    (st : St B (Multiset (Pt K d))) : List (Marker K Q C) :=
  (st.items.foldl (fun x e => markerItem D v 1 e.2 x) (markerStart marker0 dst)).1

/-- `from(map, dst, ivm, time, frame, transform, occupancy_threshold)` for occupancy maps (`C2/conversion/distributions.hpp:113-191`, `C3/conversion/distributions.hpp:112-192`) -/
def markersOcc {d : Nat} {B : Backend d} (D : VizDim K d) (v : Viz K d Q C V) (occ : Occ Nat (Pt K d) → K) (threshold : K) (marker0 : Marker K Q C)
    (dst : List (Marker K Q C)) (st : St B (Occ Nat (Pt K d))) : List (Marker K Q C) :=
  (st.items.foldl (fun x e =>
    if occ e.2 < threshold then x
    else match e.2.data with
      | none => x
      | some s => markerItem D v (occ e.2) s x) (markerStart marker0 dst)).1

end
end Ndt
