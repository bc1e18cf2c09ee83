import Verif.Model.Gridmap
import Verif.Model.Occupancy

/-!
Model of the memory accounting of the maps: `AbstractMap::getByteSize` and the `byte_size` members it sums up (`CN = cslibs_ndt/include/cslibs_ndt`).
-/

namespace Ndt
variable {d : Nat} {D : Type}

/-- The sizes of the C++ types of a dynamic map: `sizeof` of the map object, the sizes used by the octree of the bundles (whose `Bundle::byte_size` is the constant
`sizeof(Bundle)`, `CN/common/bundle.hpp:71-74`) and the sizes used by the octrees of the distributions (`dist.data` is the `byte_size()` of a distribution). -/
structure MapSizes (D : Type) where
  this : Nat
  bundle : Octree.Sizes Bundle
  dist : Octree.Sizes D

/-- `Distribution::byte_size` (`CN/common/distribution.hpp:23-26`) -/
def distributionByteSize (sizeofThis : Nat) (_ : D) : Nat := sizeofThis

/-- `OccupancyDistribution::byte_size` (`CN/common/occupancy_distribution.hpp:135-138`) and `WeightedOccupancyDistribution::byte_size`
(`CN/common/weighted_occupancy_distribution.hpp:138-141`) -/
def Occ.byteSize {W E : Type} (sizeofThis sizeofDist : Nat) (o : Occ W E) : Nat :=
  if o.data.isSome then sizeofThis + sizeofDist else sizeofThis

/-- `getByteSize()` (`CN/map/abstract_map.hpp:262-268`) of a map whose storages are octrees. `storage->byte_size()` is taken to forward to the backend
(`CN/backend/octree.hpp:222-225`), the wrapper being part of cslibs_indexed_storage. -/
def St.getByteSize (sz : MapSizes D) (st : St (octreeBackend d) D) : Nat :=
  let size := Octree.Tree.byteSize sz.bundle st.bundles
  let size := (List.range (2 ^ d)).foldl (fun size c =>
    size + Octree.Tree.byteSize { sz.dist with data := fun a => sz.dist.data (st.heap a) } (st.storage c)) size
  sz.this + size

end Ndt
