import Verif.Model.Convert
import Verif.Model.Gridmap

/-!
Model of the single-resolution map `C2/static_maps/mono_gridmap.hpp` and of `C2/conversion/merge.hpp`, which fills one from an NDT map.

The class exists for `Dim = 2` only; the model has an arbitrary dimension where this makes no difference.
-/

namespace Ndt

/-- The members `size_`, `min_index_`, `max_index_` and `storage_` (`C2/static_maps/mono_gridmap.hpp:280-290`). The geometry is passed separately (`Geo`). -/
structure Mono (d : Nat) (D : Type) where
  size : Fin d → Nat
  lo : Idx d
  hi : Idx d
  store : Arr d D

namespace Mono
variable {d : Nat} {D : Type}

/-- the constructors (`C2/static_maps/mono_gridmap.hpp:48-87`): the maximum index is `min + size` -/
def init (size : Fin d → Nat) (lo : Idx d) : Mono d D := ⟨size, lo, fun a => lo a + (size a : Int), Arr.fresh size lo⟩

/-- the comparison in `validate` and `toIndex` (`C2/static_maps/mono_gridmap.hpp:275-276, 307-308`) -/
def accepts (m : Mono d D) (i : Idx d) : Bool := decide (∀ a, m.lo a ≤ i a ∧ i a ≤ m.hi a)

/-- `getAllocate(i)` (`C2/static_maps/mono_gridmap.hpp:292-300`); `none` is an access outside of the array -/
def getAllocate [Inhabited D] (i : Idx d) (m : Mono d D) : Option (Mono d D) :=
  if (arrayBackend d).ok m.store i then
    match (arrayBackend d).get m.store i with
    | some _ => some m
    | none => some { m with store := (arrayBackend d).insert m.store i default }
  else none

/-- writing through the pointer returned by `getAllocate(i)` -/
def modify (i : Idx d) (f : D → D) (m : Mono d D) : Mono d D := { m with store := (arrayBackend d).modify m.store i f }

section points
variable {K : Type} [Field K] [LinearOrder K] [FloorRing K]

/-- the index of a point given in map coordinates (`C2/static_maps/mono_gridmap.hpp:273-274, 305-306`); `r` is the resolution -/
def index (r : K) (p : Pt K d) : Idx d := fun a => ⌊p a * (1 / r)⌋

/-- `toIndex(p_w, index)` (`C2/static_maps/mono_gridmap.hpp:301-309`): the index if the function returns true -/
def toIndex (g : Geo K d) (p : Pt K d) (m : Mono d D) : Option (Idx d) :=
  if m.accepts (index g.r (g.toMap p)) then some (index g.r (g.toMap p)) else none

/-- `validate(p_w)` (`C2/static_maps/mono_gridmap.hpp:270-277`); `p` is the translation of the pose -/
def validate (g : Geo K d) (p : Pt K d) (m : Mono d D) : Bool := m.accepts (index g.r (g.toMap p))

/-- `insert(p)` (`C2/static_maps/mono_gridmap.hpp:168-177`): adds the point as given, i.e. in world coordinates. -/
def insert (g : Geo K d) (p : Pt K d) (m : Mono d (Multiset (Pt K d))) : Option (Mono d (Multiset (Pt K d))) :=
  match m.toIndex g p with
  | none => some m
  | some i => (m.getAllocate i).map (modify i fun s => s + {p})

/-- a sequence of insertions -/
def insertAll (g : Geo K d) : List (Pt K d) → Mono d (Multiset (Pt K d)) → Option (Mono d (Multiset (Pt K d)))
  | [], m => some m
  | p :: l, m => (m.insert g p).bind (insertAll g l)

/-- `sample(p, i)` resp. `sampleNonNormalized(p, i)` (`C2/static_maps/mono_gridmap.hpp:185-192, 200-205`); `dens` is the respective function of the distribution -/
def sampleIdx {V : Type} [Zero V] (dens : D → Pt K d → V) (p : Pt K d) (i : Idx d) (m : Mono d D) : Option V :=
  if (arrayBackend d).ok m.store i then
    match (arrayBackend d).get m.store i with
    | none => some 0
    | some s => some (dens s p)
  else none

/-- `sample(p)` resp. `sampleNonNormalized(p)` (`C2/static_maps/mono_gridmap.hpp:179-183, 194-198`) -/
def sample {V : Type} [Zero V] (g : Geo K d) (dens : D → Pt K d → V) (p : Pt K d) (m : Mono d D) : Option V :=
  match m.toIndex g p with
  | none => some 0
  | some i => m.sampleIdx dens p i

end points

/-- the size computation of `merge` (`C2/conversion/merge.hpp:20-21`): `max - min + 1` in `int` arithmetic, converted to an unsigned number. `none` is the undefined behaviour of
a signed overflow. A negative value would be a huge size; it does not occur for defined results of maps and is `none` as well. -/
def mergeSize {B : Backend d} {D : Type} (st : St B D) (a : Fin d) : Option Nat :=
  match intSub (st.maxB a) (st.minB a) with
  | none => none
  | some x => if 0 ≤ x + 1 ∧ x + 1 ≤ 2147483647 then some (x + 1).toNat else none

/-- `for (src_d : b) *dst_d += *src_d` (`C2/conversion/merge.hpp:33-35`); a null pointer is out of contract -/
def addBins {E : Type} (i : Idx d) (src : Nat → Option (Multiset E)) : List Nat → Mono d (Multiset E) → Option (Mono d (Multiset E))
  | [], m => some m
  | c :: l, m =>
    match src c with
    | none => none
    | some s => addBins i src l (m.modify i fun t => t + s)

/-- `src->traverse(…)` in `merge` (`C2/conversion/merge.hpp:30-38`) -/
def mergeList {E : Type} : List (Idx d × (Nat → Option (Multiset E))) → Mono d (Multiset E) → Option (Mono d (Multiset E))
  | [], m => some m
  | (i, src) :: l, m => ((m.getAllocate i).bind (addBins i src (List.range (twoPow d)))).bind (mergeList l)

/-- `merge` (`C2/conversion/merge.hpp:10-41`). The new map has the bundle resolution as resolution. -/
def merge {B : Backend d} {E : Type} (st : St B (Multiset E)) : Option (Mono d (Multiset E)) :=
  if ∀ a, (mergeSize st a).isSome then mergeList (St.bundleList st) (init (fun a => (mergeSize st a).getD 0) st.minB) else none

end Mono
end Ndt
