import Verif.Model.Lifetime
import Verif.Model.Mono

/-!
Moving maps, and copying and moving the single-resolution map.

* `GenericMap(GenericMap &&other) : base_t(other)` (`CN/map/generic_map.hpp:98-103, 236`): the named parameter is an lvalue, so that the copy constructor of `AbstractMap` is called; its move constructor
  (`CN/map/abstract_map.hpp:108-119`) is never selected. The implicit move constructor of `Map` and `Map(base_t &&)` (`CN/map/impl/gridmap.hpp:43`, `occupancy_gridmap.hpp:48`, `weighted_occupancy_gridmap.hpp:44`) end there, too.
* The single-resolution map has a copy constructor that copies the storage and a move constructor that copies the shared pointer to it (`C2/static_maps/mono_gridmap.hpp:90-114`).
-/

namespace Ndt

/-- move construction of a map: source (`orig`) and new map (`copy`) -/
def moveMap {d : Nat} {D : Type} : (k : Kind d) → St k.backend D → Twin k.backend D
  | .dynamic _ _, st => copyDynamic st
  | .static _ _, st => copyStatic st

/-- Two single-resolution maps, the second one constructed from the first one. `shared` says that the second one's storage is that of the first one (then `dst.store` is not used). -/
structure MonoPair (d : Nat) (D : Type) where
  src : Mono d D
  dst : Mono d D
  shared : Bool

namespace MonoPair
variable {d : Nat} {D : Type}

/-- `Gridmap(const Gridmap &)` (`C2/static_maps/mono_gridmap.hpp:90-101`); copying an array storage copies its cells (A4), which hold the distributions by value -/
def copy (m : Mono d D) : MonoPair d D := ⟨m, m, false⟩

/-- `Gridmap(Gridmap &&)` (`C2/static_maps/mono_gridmap.hpp:103-114`): `storage_(other.storage_)` -/
def move (m : Mono d D) : MonoPair d D := ⟨m, m, true⟩

/-- the map constructed from the other one -/
def viewDst (P : MonoPair d D) : Mono d D := if P.shared then { P.dst with store := P.src.store } else P.dst

def putSrc (P : MonoPair d D) (m : Mono d D) : MonoPair d D := { P with src := m }

def putDst (P : MonoPair d D) (m : Mono d D) : MonoPair d D :=
  { P with dst := m, src := if P.shared then { P.src with store := m.store } else P.src }

section
variable {K : Type} [Field K] [LinearOrder K] [FloorRing K]

/-- Operations on a single-resolution map that change it: `insert(p)`, `getDistribution(i)` (`C2/static_maps/mono_gridmap.hpp:168-177, 216-224`) -/
inductive MonoOp (K : Type) (d : Nat) where
  | insert (p : Pt K d)
  | distributionAt (i : Idx d)

def monoStep (g : Geo K d) : MonoOp K d → Mono d (Multiset (Pt K d)) → Option (Mono d (Multiset (Pt K d)))
  | .insert p, m => m.insert g p
  | .distributionAt i, m => m.getAllocate i

def monoRun (g : Geo K d) : List (MonoOp K d) → Mono d (Multiset (Pt K d)) → Option (Mono d (Multiset (Pt K d)))
  | [], m => some m
  | op :: l, m => (monoStep g op m).bind (monoRun g l)

/-- an operation on the source (`false`) or on the new map (`true`) -/
def step (g : Geo K d) (P : MonoPair d (Multiset (Pt K d))) : Bool × MonoOp K d → Option (MonoPair d (Multiset (Pt K d)))
  | (false, op) => (monoStep g op P.src).map P.putSrc
  | (true, op) => (monoStep g op P.viewDst).map P.putDst

def run (g : Geo K d) : List (Bool × MonoOp K d) → MonoPair d (Multiset (Pt K d)) → Option (MonoPair d (Multiset (Pt K d)))
  | [], P => some P
  | op :: l, P => (P.step g op).bind (run g l)

end

/-- what is left after the destruction of the source: the storage lives as long as one `shared_ptr` refers to it -/
def destroySrc (P : MonoPair d D) : Mono d D := P.viewDst

end MonoPair
end Ndt
