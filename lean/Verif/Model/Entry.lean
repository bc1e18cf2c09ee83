import Verif.Model.Raster
import Verif.Model.Export

/-!
Model of the entry points of the conversions: what happens to the source map and to the target, for null pointers, with and without `allocate_all`
(`C2/conversion/{probability,binary,distance,likelihood_field}_gridmap.hpp`, `C3/conversion/sensor_msgs_pointcloud2.hpp`).

A shared pointer is an `Option`. The maps have `mutable` storages: `allocatePartiallyAllocatedBundles` is `const` and changes the source.
-/

namespace Ndt

section
variable {B : Backend 2} {D V M : Type} [Inhabited D]

/-- conversion to a distance grid (`C2/conversion/distance_gridmap.hpp:29-68, 89-128`); `dt` is the distance transform of cslibs_gridmaps (external code: an arbitrary function on the data) -/
def toDistance {K : Type} [Field K] [LinearOrder K] [FloorRing K] (r s : K) (bil : Bool) (dt : Grid K → Nat → Nat → K) (f : D → Pt K 2 → K) (st : St B D) : Option (Grid K) :=
  (toProb r s 0 bil f st).map fun G => { G with cells := dt G }

/-- `from(src, dst, ...)` for NDT maps (`C2/conversion/probability_gridmap.hpp:26-71`, `binary_gridmap.hpp:17-63`, `distance_gridmap.hpp:17-69`, `likelihood_field_gridmap.hpp:17-78`): the source after the call and the target pointer.
`conv` is the conversion proper (`toProb`, `toBinary`, `toDistance`, `toLikelihood`): `dst` is reset to a new grid, whatever it was before. -/
def convertRef (dyn : Bool) (exp : D → Bool) (all : Bool) (conv : St B D → Option (Grid V)) (st : St B D) (_dst : Option (Grid V)) : Option (St B D × Option (Grid V)) :=
  (St.allocateAll dyn exp all st).bind fun st' => (conv st').map fun G => (st', some G)

/-- `from(src, dst, ..., inverse_model, ...)` for occupancy maps (`C2/conversion/probability_gridmap.hpp:76-124, 129-178`, `binary_gridmap.hpp:68-125`, `distance_gridmap.hpp:74-129`, `likelihood_field_gridmap.hpp:83-147`): returns at once without a model -/
def convertOccRef (dyn : Bool) (exp : D → Bool) (model : Option M) (all : Bool) (conv : M → St B D → Option (Grid V)) (st : St B D) (dst : Option (Grid V)) : Option (St B D × Option (Grid V)) :=
  match model with
  | none => some (st, dst)
  | some m => convertRef dyn exp all (conv m) st dst

/-- the overloads taking a pointer to an NDT map (`C2/conversion/probability_gridmap.hpp:220-235`, `binary_gridmap.hpp:128-142`, `distance_gridmap.hpp:132-148`, `likelihood_field_gridmap.hpp:150-167`) -/
def convertPtr (dyn : Bool) (exp : D → Bool) (all : Bool) (conv : St B D → Option (Grid V)) (src : Option (St B D)) (dst : Option (Grid V)) : Option (Option (St B D) × Option (Grid V)) :=
  match src with
  | none => some (none, dst)
  | some st => (convertRef dyn exp all conv st dst).map fun e => (some e.1, e.2)

/-- the overloads taking a pointer to an occupancy map (`C2/conversion/probability_gridmap.hpp:238-273`, `binary_gridmap.hpp:145-160`, `distance_gridmap.hpp:151-168`, `likelihood_field_gridmap.hpp:170-188`) -/
def convertOccPtr (dyn : Bool) (exp : D → Bool) (model : Option M) (all : Bool) (conv : M → St B D → Option (Grid V)) (src : Option (St B D)) (dst : Option (Grid V)) :
    Option (Option (St B D) × Option (Grid V)) :=
  match src with
  | none => some (none, dst)
  | some st => (convertOccRef dyn exp model all conv st dst).map fun e => (some e.1, e.2)

end

/-- How a call ends: it returns, or it throws. Either way the source and the target are as given. -/
inductive Exit (S T : Type) where
  | returned (src : S) (dst : T)
  | thrown (what : String) (src : S) (dst : T)

section
variable {F : Type} {B : Backend 3}

/-- `process_item` of the export of an occupancy map (`C3/conversion/sensor_msgs_pointcloud2.hpp:130-143`) with the model as it is passed on, possibly null; `getOccupancy` throws for a null model -/
noncomputable def cloudItem (cast : ℝ → F) (T : Pt ℝ 3 → Pt ℝ 3) (dens : Multiset (Pt ℝ 3) → Pt ℝ 3 → ℝ) (model : Option Ivm) (threshold : ℝ) (tmp : List F) (o : Occ Nat (Pt ℝ 3)) : Except String (List F) :=
  match o.occupancyPtr model with
  | .error e => .error e
  | .ok x =>
    if x < threshold then .ok tmp
    else match o.data with
      | none => .ok tmp
      | some s => match o.occupancyPtr model with
        | .error e => .error e
        | .ok y => .ok (pushPoint cast tmp (T (meanPoint s)) (dens s (meanPoint s) * y))

/-- the traversal of the storages (`C3/conversion/sensor_msgs_pointcloud2.hpp:145-148`): an exception ends it -/
noncomputable def cloudItems (cast : ℝ → F) (T : Pt ℝ 3 → Pt ℝ 3) (dens : Multiset (Pt ℝ 3) → Pt ℝ 3 → ℝ) (model : Option Ivm) (threshold : ℝ) : List (Idx 3 × Occ Nat (Pt ℝ 3)) → List F → Except String (List F)
  | [], tmp => .ok tmp
  | e :: l, tmp => match cloudItem cast T dens model threshold tmp e.2 with
    | .error x => .error x
    | .ok tmp' => cloudItems cast T dens model threshold l tmp'

/-- `from(map, dst, ivm, transform, threshold, allocate_all)` for occupancy maps (`C3/conversion/sensor_msgs_pointcloud2.hpp:103-150`); the outer `none` is the outcome "out of contract" of the storages -/
noncomputable def cloudOccRef (C : Float32 F) (dyn : Bool) (exp : Occ Nat (Pt ℝ 3) → Bool) (cast : ℝ → F) (T : Pt ℝ 3 → Pt ℝ 3) (dens : Multiset (Pt ℝ 3) → Pt ℝ 3 → ℝ) (model : Option Ivm) (threshold : ℝ)
    (all : Bool) (st : St B (Occ Nat (Pt ℝ 3))) (dst : PointCloud2) : Option (Exit (St B (Occ Nat (Pt ℝ 3))) PointCloud2) :=
  (St.allocateAll dyn exp all st).map fun st' =>
    match cloudItems cast T dens model threshold st'.items [] with
    | .error x => .thrown x st' dst
    | .ok tmp => .returned st' (cloudMessage C tmp)

/-- the overload taking a pointer (`C3/conversion/sensor_msgs_pointcloud2.hpp:153-165`) -/
noncomputable def cloudOccPtr (C : Float32 F) (dyn : Bool) (exp : Occ Nat (Pt ℝ 3) → Bool) (cast : ℝ → F) (T : Pt ℝ 3 → Pt ℝ 3) (dens : Multiset (Pt ℝ 3) → Pt ℝ 3 → ℝ) (model : Option Ivm) (threshold : ℝ)
    (all : Bool) (src : Option (St B (Occ Nat (Pt ℝ 3)))) (dst : PointCloud2) : Option (Exit (Option (St B (Occ Nat (Pt ℝ 3)))) PointCloud2) :=
  match src with
  | none => some (.returned none dst)
  | some st => (cloudOccRef C dyn exp cast T dens model threshold all st dst).map fun
    | .thrown x s d => .thrown x (some s) d
    | .returned s d => .returned (some s) d

end
end Ndt
