import Verif.Model.Backend

/-!
Model of the map core: `CN/map/abstract_map.hpp`, `CN/map/generic_map.hpp`, `CN/common/bundle.hpp`.

Distribution objects live in a heap and are named by their address; each of the `2^Dim` storages maps indices to
addresses, and the bundle storage maps bundle indices to bundles, which hold one address (or null) per storage.

All operations return an `Option`: `none` is the distinct outcome "out of contract", i.e. an access to a storage with an index it does not cover, or a null dereference.
The theorems say when it cannot occur.
-/

namespace Ndt

/-- `Bundle<T*, Size>` (`CN/common/bundle.hpp:7-99`): one pointer per bin (`none` = null) and the mutable `expand_` flag. -/
structure Bundle where
  data : Nat → Option Nat
  expand : Bool

/-- `Bundle()` (`CN/common/bundle.hpp:14-18`). -/
def Bundle.new : Bundle := { data := fun _ => none, expand := true }

/-- State of a map (`CN/map/abstract_map.hpp:271-279`): `storage_`, `bundle_storage_`, `min_bundle_index_`, `max_bundle_index_`, and the heap of distribution
objects of type `D` with its allocation counter. -/
structure St {d : Nat} (B : Backend d) (D : Type) where
  heap : Nat → D
  next : Nat
  storage : Nat → B.Store Nat
  bundles : B.Store Bundle
  minB : Idx d
  maxB : Idx d

namespace St
variable {d : Nat} {B : Backend d} {D : Type} [Inhabited D]

/-- `getAllocate(storage, i)` (`CN/map/abstract_map.hpp:282-288`): the object stored at `k` in storage `c`, default-constructed and inserted if there is none. -/
def getAllocateDist (c : Nat) (k : Idx d) (st : St B D) : Option (Nat × St B D) :=
  if B.ok (st.storage c) k then
    match B.get (st.storage c) k with
    | some a => some (a, st)
    | none => some (st.next, { st with
        heap := Function.update st.heap st.next default
        next := st.next + 1
        storage := Function.update st.storage c (B.insert (st.storage c) k st.next) })
  else none

/-- The loop of `getAllocate(bi)` over the bins (`CN/map/abstract_map.hpp:298-302`), on the list of `(bin, index)` pairs produced by `apply_indices`. -/
def allocBins : List (Nat × Idx d) → Bundle → St B D → Option (Bundle × St B D)
  | [], b, st => some (b, st)
  | (c, k) :: l, b, st =>
    match b.data c with
    | some _ => allocBins l b st
    | none =>
      match getAllocateDist c k st with
      | none => none
      | some (a, st') => allocBins l { b with data := Function.update b.data c (some a) } st'

/-- `updateIndices` (`CN/map/generic_map.hpp:162-164` static: nothing; `287-291` dynamic: componentwise min/max, assumption A3). -/
def updateIndices (dyn : Bool) (bi : Idx d) (st : St B D) : St B D :=
  if dyn then { st with minB := fun a => min (st.minB a) (bi a), maxB := fun a => max (st.maxB a) (bi a) } else st

/-- `getAllocate(bi)` (`CN/map/abstract_map.hpp:290-306`). Simplification: the new bundle is written to the bundle storage empty and once more when all bins
are known, instead of through a pointer bin by bin; nothing reads it in between. -/
def getAllocate (dyn : Bool) (bi : Idx d) (st : St B D) : Option (Bundle × St B D) :=
  if B.ok st.bundles bi then
    match B.get st.bundles bi with
    | some b => some (b, st)
    | none =>
      let st1 : St B D := { st with bundles := B.insert st.bundles bi Bundle.new }
      match allocBins (applyIndices bi 0 (twoPow d)) Bundle.new st1 with
      | none => none
      | some (b, st2) =>
        some (b, updateIndices dyn bi { st2 with bundles := B.modify st2.bundles bi (fun _ => b) })
  else none

/-- `for (i < bin_count) f(*bundle->at(i))`, dereferencing every pointer of a bundle (e.g. `CN/map/impl/gridmap.hpp:190-191`). -/
def applyBins (f : D → D) (b : Bundle) : List Nat → St B D → Option (St B D)
  | [], st => some st
  | c :: l, st =>
    match b.data c with
    | none => none
    | some a => applyBins f b l { st with heap := Function.update st.heap a (f (st.heap a)) }

/-- `update(bi, …)` of the map classes: `getAllocate` followed by an update of every bin (`CN/map/impl/gridmap.hpp:186-192`,
`occupancy_gridmap.hpp:345-359`, `weighted_occupancy_gridmap.hpp` likewise). -/
def update (dyn : Bool) (bi : Idx d) (f : D → D) (st : St B D) : Option (St B D) :=
  match getAllocate dyn bi st with
  | none => none
  | some (b, st') => applyBins f b (List.range (twoPow d)) st'

/-- `valid(index)` (`CN/map/generic_map.hpp:166-175` static, upper bound exclusive; `293-296` dynamic). -/
def valid (dyn : Bool) (st : St B D) (i : Idx d) : Bool :=
  dyn || decide (∀ a, st.minB a ≤ i a ∧ i a < st.maxB a)

/-- `getDistributionBundle(bi)` (`CN/map/generic_map.hpp:110-127, 243-257`); the first component is the returned pointer. -/
def getDistributionBundle (dyn : Bool) (bi : Idx d) (st : St B D) : Option (Option Bundle × St B D) :=
  if st.valid dyn bi then
    match getAllocate dyn bi st with
    | none => none
    | some (b, st') => some (some b, st')
  else some (none, st)

/-- `get(bi)` (`CN/map/generic_map.hpp:138-141, 265-268`). Out of contract if the storage does not cover the index. -/
def getBundle (dyn : Bool) (bi : Idx d) (st : St B D) : Option (Option Bundle) :=
  if st.valid dyn bi then
    if B.ok st.bundles bi then some (B.get st.bundles bi) else none
  else some none

/-- `expandBundle` (`CN/map/abstract_map.hpp:313-321`); `exp` is `expandDistribution`, here on the pointed-to object, a null pointer being `false` as in all map classes. -/
def expandBundle (exp : D → Bool) (b : Bundle) (st : St B D) : Bool :=
  (List.range (twoPow d)).any fun c =>
    match b.data c with
    | none => false
    | some a => exp (st.heap a)

/-- The 3^Dim neighbourhood offsets (`neighborhood_t`, `CN/map/abstract_map.hpp:59`). -/
def offsets (d : Nat) : List (Idx d) := boxList (fun _ => -1) (fun _ => 3)

/-- visiting the neighbourhood, `CN/map/abstract_map.hpp:239-246` -/
def allocNeighbours (dyn : Bool) (bi : Idx d) : List (Idx d) → St B D → Option (St B D)
  | [], st => some st
  | o :: l, st =>
    let ii : Idx d := fun a => bi a + o a
    if st.valid dyn ii then
      match getAllocate dyn ii st with
      | none => none
      | some (_, st') => allocNeighbours dyn bi l st'
    else allocNeighbours dyn bi l st

/-- `allocatePartiallyAllocatedBundle(bi, bundle)` (`CN/map/abstract_map.hpp:234-249`). The pointer `bundle` denotes the bundle currently stored at `bi`. -/
def allocPartial (dyn : Bool) (exp : D → Bool) (bi : Idx d) (st : St B D) : Option (St B D) :=
  match B.get st.bundles bi with
  | none => none
  | some b =>
    if b.expand && expandBundle exp b st then
      match allocNeighbours dyn bi (offsets d) st with
      | none => none
      | some st' => some { st' with bundles := B.modify st'.bundles bi (fun b => { b with expand := false }) }
    else some st

/-- the loop of `allocatePartiallyAllocatedBundles` over the snapshot -/
def allocPartialList (dyn : Bool) (exp : D → Bool) : List (Idx d) → St B D → Option (St B D)
  | [], st => some st
  | bi :: l, st =>
    match allocPartial dyn exp bi st with
    | none => none
    | some st' => allocPartialList dyn exp l st'

/-- `allocatePartiallyAllocatedBundles` (`CN/map/abstract_map.hpp:251-260`). -/
def allocPartials (dyn : Bool) (exp : D → Bool) (st : St B D) : Option (St B D) :=
  allocPartialList dyn exp ((B.traverse st.bundles).map Prod.fst) st

/-- `empty()` of dynamic maps (`CN/map/generic_map.hpp:238-241`), `false` for static maps (`105-108`). -/
def isEmpty (dyn : Bool) (hd : 0 < d) (st : St B D) : Bool := dyn && decide (st.minB ⟨0, hd⟩ = 2147483647)

/-- `getMin()` / `getMax()` (`CN/map/abstract_map.hpp:127-143`). -/
def getMin {K : Type} [Field K] (r : K) (st : St B D) : Pt K d := fun a => (st.minB a : K) * bundleResolution r
def getMax {K : Type} [Field K] (r : K) (st : St B D) : Pt K d := fun a => ((st.maxB a + 1 : Int) : K) * bundleResolution r

/-- `getBundleIndices` (`CN/map/abstract_map.hpp:212-218`) -/
def bundleIndices (st : St B D) : List (Idx d) := (B.traverse st.bundles).map Prod.fst

/-! Observables: what `getStorages()[c]->get(k)` and `get(bi)` let a user see. -/

/-- the object stored at `k` in storage `c` -/
def dist (st : St B D) (c : Nat) (k : Idx d) : Option Nat := B.look (st.storage c) k

/-- its contents -/
def content (st : St B D) (c : Nat) (k : Idx d) : Option D := (st.dist c k).map st.heap

/-- the bundle stored at `bi` -/
def bundle (st : St B D) (bi : Idx d) : Option Bundle := B.look st.bundles bi

/-- the contents of the `c`-th bin of the bundle at `bi`, read through the bundle -/
def binContent (st : St B D) (bi : Idx d) (c : Nat) : Option D := ((st.bundle bi).bind (fun b => b.data c)).map st.heap

end St

/-- A new dynamic map (`CN/map/generic_map.hpp:217-223`, `CN/map/abstract_map.hpp:61-76`): empty octrees (whose size counters are uninitialised), bounds at `INT_MAX`/`INT_MIN`. -/
def dynInit (d : Nat) (D : Type) [Inhabited D] (g : Nat → Nat) (g' : Nat) : St (octreeBackend d) D where
  heap := fun _ => default
  next := 0
  storage := fun c => Octree.Tree.empty (g c)
  bundles := Octree.Tree.empty g'
  minB := fun _ => 2147483647
  maxB := fun _ => -2147483648

/-- A new static map (`CN/map/generic_map.hpp:51-74`) with `size` cells of edge `resolution` per dimension and minimum bundle index `lo`. -/
def staticInit (d : Nat) (D : Type) [Inhabited D] (size : Fin d → Nat) (lo : Idx d) : St (arrayBackend d) D where
  heap := fun _ => default
  next := 0
  storage := fun c =>
    if c = 0 then Arr.fresh size (fun a => lo a / 2) else Arr.fresh (fun a => size a + 1) (fun a => lo a / 2)
  bundles := Arr.fresh (fun a => size a * 2) lo
  minB := lo
  maxB := fun a => lo a + (size a * 2 : Nat) - 1

end Ndt
