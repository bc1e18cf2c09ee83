import Verif.Model.Copy

/-!
Destruction of maps: `~AbstractMap() = default` (`CN/map/abstract_map.hpp:121`) destroys the members, among them the shared pointers to the storages, which no other object holds unless the user
copied them. What becomes of the distribution objects is decided by the destructors of the storages:

* The octree has no destructor (`CN/backend/octree.hpp`: none is declared; `root_` is a raw pointer, `381`), so that no node and no distribution object is released.
* Array storages are assumed to release their cells, i.e. the distribution objects (A4).

An access to a released object is undefined behaviour: a distinct outcome.
-/

namespace Ndt

variable {d : Nat}

/-- the distribution objects in the storages of a map -/
def ownedObjects (B : Backend d) (storage : Nat → B.Store Nat) : List Nat :=
  (List.range (twoPow d)).flatMap fun c => (B.traverse (storage c)).map Prod.snd

/-- the distribution objects that are released when a map is destroyed -/
def released : (k : Kind d) → (Nat → k.backend.Store Nat) → List Nat
  | .dynamic _ _, _ => []
  | .static _ _, storage => ownedObjects (arrayBackend d) storage

/-- reading bin `c` of the bundle at `bi`, e.g. `get(bi)->at(c)->data()`, when the objects `freed` have been released: `none` if there is no such bundle, the pointer is null or the object does not
exist any more -/
def St.readBin {B : Backend d} {D : Type} (freed : List Nat) (st : St B D) (bi : Idx d) (c : Nat) : Option D :=
  match (st.bundle bi).bind fun b => b.data c with
  | none => none
  | some a => if a ∈ freed then none else some (st.heap a)

end Ndt
