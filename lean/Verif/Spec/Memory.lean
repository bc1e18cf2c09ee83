import Verif.Spec.FiniteMap

/-!
Specification: the memory taken by an octree that stores exactly the indices `S`.
-/

namespace Ndt.Spec

/-- Bytes of an octree that stores exactly the indices `S`, where the entry at `i` takes `data i` bytes: the tree object, one node object per non-empty cube of each level, an array
of `2^d` child pointers per node above the leaves, and one index and one entry per stored index. -/
def treeBytes {d : Nat} (this node ptr index : Nat) (data : (Fin d → Int) → Nat) (S : Finset (Fin d → Int)) : Nat :=
  this + octreeNodes S * node + (octreeNodes S - S.card) * (2 ^ d * ptr) + ∑ i ∈ S, (index + data i)

end Ndt.Spec
