import Verif.Model.Export

/-!
Model of the coloured point cloud export: `C3/conversion/sensor_msgs_pointcloud2_rgb.hpp` (`RGB` below).

`interpolateColor` is an arbitrary function of a height and the two limits; a pose is its action on points. External code: `PointcloudRGB3` keeps its points in the order of insertion, and `min()`, `max()` are the
componentwise minimum and maximum of its points; the conversion of the finished cloud to a message is not modelled.
-/

namespace Ndt

section
variable {K : Type} [Field K] [LinearOrder K] {C : Type} {B : Backend 3}

/-- The third component of `cloud.min()` and `cloud.max()` (`RGB:55-56, 107-108`) -/
def zRange : List (Pt K 3) → Option (K × K)
  | [] => none
  | p :: ps => some (ps.foldl (fun r q => (min r.1 (q 2), max r.2 (q 2))) (p 2, p 2))

/-- `ColorTransform::apply` for all points (`RGB:14-25, 57, 109`). The limits of an empty cloud are not used. -/
def colour (interp : K → K → K → C) (cloud : List (Pt K 3)) : List (Pt K 3 × C) :=
  match zRange cloud with
  | none => []
  | some r => cloud.map fun p => (p, interp (p 2) r.1 r.2)

/-- `rgbFrom` for NDT maps up to the cloud of points (`RGB:27-59`); `T` is the action of `transform * src.getInitialOrigin()`. -/
def rgbNdt (T : Pt K 3 → Pt K 3) (interp : K → K → K → C) (st : St B (Multiset (Pt K 3))) : List (Pt K 3 × C) :=
  colour interp (st.items.foldl (fun cloud e => cloud ++ [T (meanPoint e.2)]) [])

/-- `rgbFrom` for occupancy maps up to the cloud of points (`RGB:74-111`); `occ` is `getOccupancy(ivm)`. -/
def rgbOcc (T : Pt K 3 → Pt K 3) (interp : K → K → K → C) (occ : Occ Nat (Pt K 3) → K) (threshold : K) (st : St B (Occ Nat (Pt K 3))) : List (Pt K 3 × C) :=
  colour interp (st.items.foldl (fun cloud e =>
    match e.2.data with
    | none => cloud
    | some s => if occ e.2 < threshold then cloud else cloud ++ [T (meanPoint s)]) [])

end
end Ndt
