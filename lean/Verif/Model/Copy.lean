import Verif.Model.Gridmap

/-!
Copying a map: `AbstractMap(const AbstractMap&)` (`CN/map/abstract_map.hpp:95-106`), `utility::create` (`CN/utility/create.hpp:9-26`), and the implicit copy constructors of
the storages.

* The octree has no copy constructor of its own (`CN/backend/octree.hpp:382-386`): its raw root pointer is copied, so that both trees share all nodes, unless the root is still null.
* Array storages are assumed to copy their cells, i.e. the distribution objects (A4). The bundles they hold are copied too, but a bundle is an array of raw pointers
  (`CN/common/bundle.hpp:7-18`), which still point into the storages of the original.

Distribution objects of both maps live in one heap. The move constructors of `GenericMap` (`CN/map/generic_map.hpp:98-103, 236`) pass the named parameter `other`, an lvalue,
to the base class and hence copy in exactly the same way.
-/

namespace Ndt

/-- What a map object holds besides the distribution objects. -/
structure Obj {d : Nat} (B : Backend d) where
  storage : Nat → B.Store Nat
  bundles : B.Store Bundle
  minB : Idx d
  maxB : Idx d

/-- An original and its copy. `shareS c` / `shareB` say that the copy's storage `c` / bundle storage consists of the nodes of the original (then the corresponding field of
`copy` is not used). Simplification: the size counters of shared octrees are shared, too (they are separate in the code, but no map operation reads them). -/
structure Twin {d : Nat} (B : Backend d) (D : Type) where
  heap : Nat → D
  next : Nat
  orig : Obj B
  copy : Obj B
  shareS : Nat → Bool
  shareB : Bool

namespace Twin
variable {d : Nat} {B : Backend d} {D : Type}

/-- the original, seen as a map -/
def viewO (T : Twin B D) : St B D where
  heap := T.heap
  next := T.next
  storage := T.orig.storage
  bundles := T.orig.bundles
  minB := T.orig.minB
  maxB := T.orig.maxB

/-- the copy, seen as a map -/
def viewC (T : Twin B D) : St B D where
  heap := T.heap
  next := T.next
  storage := fun c => if T.shareS c then T.orig.storage c else T.copy.storage c
  bundles := if T.shareB then T.orig.bundles else T.copy.bundles
  minB := T.copy.minB
  maxB := T.copy.maxB

/-- effect of an operation on the original -/
def putO (T : Twin B D) (st : St B D) : Twin B D :=
  { T with heap := st.heap, next := st.next, orig := ⟨st.storage, st.bundles, st.minB, st.maxB⟩ }

/-- effect of an operation on the copy -/
def putC (T : Twin B D) (st : St B D) : Twin B D :=
  { T with
    heap := st.heap
    next := st.next
    orig := { T.orig with
      storage := fun c => if T.shareS c then st.storage c else T.orig.storage c
      bundles := if T.shareB then st.bundles else T.orig.bundles }
    copy := ⟨st.storage, st.bundles, st.minB, st.maxB⟩ }

/-- an operation on the original (`false`) or on the copy (`true`); `f` is what an operation does to a map of the class at hand (`gridStep`, `occStep`) -/
def stepWith {Op : Type} (f : Op → St B D → Option (St B D)) (T : Twin B D) : Bool × Op → Option (Twin B D)
  | (false, op) => (f op T.viewO).map T.putO
  | (true, op) => (f op T.viewC).map T.putC

/-- a history of operations on both maps -/
def runWith {Op : Type} (f : Op → St B D → Option (St B D)) : List (Bool × Op) → Twin B D → Option (Twin B D)
  | [], T => some T
  | op :: l, T => (T.stepWith f op).bind (runWith f l)

section
variable {K : Type} [Field K] [LinearOrder K] [FloorRing K]

/-- NDT maps: an operation on the original (`false`) or on the copy (`true`) -/
abbrev step (g : Geo K d) (dyn : Bool) (exp : Multiset (Pt K d) → Bool) (T : Twin B (Multiset (Pt K d))) (op : Bool × GridOp K d) : Option (Twin B (Multiset (Pt K d))) :=
  T.stepWith (gridStep g dyn exp) op

/-- NDT maps: a history of operations on both maps -/
abbrev run (g : Geo K d) (dyn : Bool) (exp : Multiset (Pt K d) → Bool) (hist : List (Bool × GridOp K d)) (T : Twin B (Multiset (Pt K d))) : Option (Twin B (Multiset (Pt K d))) :=
  T.runWith (gridStep g dyn exp) hist

end
end Twin

/-- Copy construction of a dynamic map: every octree whose root is not null is shared. -/
def copyDynamic {d : Nat} {D : Type} (st : St (octreeBackend d) D) : Twin (octreeBackend d) D where
  heap := st.heap
  next := st.next
  orig := ⟨st.storage, st.bundles, st.minB, st.maxB⟩
  copy := ⟨st.storage, st.bundles, st.minB, st.maxB⟩
  shareS := fun c => (st.storage c).root.isSome
  shareB := st.bundles.root.isSome

/-- Copying the distribution objects of an array, cell by cell, to new addresses. -/
def dupCells {d : Nat} {D : Type} : List (Idx d × Nat) → (Nat → D) × Nat × Arr d Nat → (Nat → D) × Nat × Arr d Nat
  | [], x => x
  | (k, a) :: l, (h, n, s) => dupCells l (Function.update h n (h a), n + 1, { s with cells := Function.update s.cells k (some n) })

/-- Copying the storages number `m-1`, …, `0` (the order is irrelevant). -/
def dupStorages {d : Nat} {D : Type} (storage : Nat → Arr d Nat) : Nat → (Nat → D) × Nat × (Nat → Arr d Nat) → (Nat → D) × Nat × (Nat → Arr d Nat)
  | 0, x => x
  | c + 1, (h, n, S) =>
    let r := dupCells ((arrayBackend d).traverse (storage c)) (h, n, { storage c with cells := fun _ => none })
    dupStorages storage c (r.1, r.2.1, Function.update S c r.2.2)

/-- Copy construction of a static map: the storages are copied with their objects, the bundles with their pointers to the objects of the original. -/
def copyStatic {d : Nat} {D : Type} (st : St (arrayBackend d) D) : Twin (arrayBackend d) D :=
  let r := dupStorages st.storage (2 ^ d) (st.heap, st.next, st.storage)
  { heap := r.1
    next := r.2.1
    orig := ⟨st.storage, st.bundles, st.minB, st.maxB⟩
    copy := ⟨r.2.2, st.bundles, st.minB, st.maxB⟩
    shareS := fun _ => false
    shareB := false }

/-- Copy of a newly constructed map. -/
def copyNew {d : Nat} (D : Type) [Inhabited D] : (k : Kind d) → Twin k.backend D
  | .dynamic gs gb => copyDynamic (dynInit d D gs gb)
  | .static size lo => copyStatic (staticInit d D size lo)

end Ndt
