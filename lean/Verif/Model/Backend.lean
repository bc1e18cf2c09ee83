import Verif.Model.Box
import Verif.Model.Octree
import Verif.Spec.FiniteMap

/-!
The storage interface used by the maps (`cis::Storage<data_if, index_t, backend_t>`) and its two instances: the octree of `CN/backend/octree.hpp`
(default of dynamic maps) and the array of cslibs_indexed_storage (default of static maps), see `CN/map/traits.hpp:27-39`.
-/

namespace Ndt

/-- Operations of a storage. `ok s i` says that accessing index `i` is within the contract of the storage `s`; what the other operations do for other indices is
not used: the map model turns such an access into a distinct outcome. -/
structure Backend (d : Nat) where
  Store : Type → Type
  ok : {V : Type} → Store V → Idx d → Bool
  get : {V : Type} → Store V → Idx d → Option V
  /-- `insert(i, v)` for an index that is not present. -/
  insert : {V : Type} → Store V → Idx d → V → Store V
  /-- writing through the pointer returned by `get(i)` -/
  modify : {V : Type} → Store V → Idx d → (V → V) → Store V
  traverse : {V : Type} → Store V → List (Idx d × V)

namespace Backend
variable {d : Nat} (B : Backend d) {V : Type}

/-- in-contract lookup -/
def look (s : B.Store V) (i : Idx d) : Option V := if B.ok s i then B.get s i else none

/-- What a storage has to guarantee. -/
structure Lawful where
  Inv : {V : Type} → B.Store V → Prop
  inv_insert : ∀ {V : Type} (s : B.Store V) (i : Idx d) (v : V), Inv s → B.ok s i = true → Inv (B.insert s i v)
  inv_modify : ∀ {V : Type} (s : B.Store V) (i : Idx d) (f : V → V), Inv s → B.ok s i = true → Inv (B.modify s i f)
  ok_insert : ∀ {V : Type} (s : B.Store V) (i j : Idx d) (v : V), B.ok (B.insert s i v) j = B.ok s j
  ok_modify : ∀ {V : Type} (s : B.Store V) (i j : Idx d) (f : V → V), B.ok (B.modify s i f) j = B.ok s j
  look_insert : ∀ {V : Type} (s : B.Store V) (i j : Idx d) (v : V), Inv s → B.ok s i = true → B.look s i = none →
    B.look (B.insert s i v) j = if j = i then some v else B.look s j
  look_modify : ∀ {V : Type} (s : B.Store V) (i j : Idx d) (f : V → V), Inv s → B.ok s i = true →
    B.look (B.modify s i f) j = if j = i then (B.look s i).map f else B.look s j
  mem_traverse : ∀ {V : Type} (s : B.Store V), Inv s → ∀ i v, (i, v) ∈ B.traverse s ↔ B.look s i = some v
  nodup_traverse : ∀ {V : Type} (s : B.Store V), Inv s → ((B.traverse s).map Prod.fst).Nodup

end Backend

/-- The octree backend (`CN/backend/octree.hpp`). In contract: every coordinate in `[-32768, 32767]`; outside that range indices alias (C06). The merge strategy is
irrelevant because the maps insert only after a failed `get`. -/
abbrev octreeBackend (d : Nat) : Backend d where
  Store := Octree.Tree d
  ok := fun _ i => decide (Spec.InRange i)
  get := fun t i => t.get i
  insert := fun t i v => t.insert (fun _ w => w) i v
  modify := fun t i f => t.modify f i
  traverse := fun t => t.traverse

/-- Array storage of cslibs_indexed_storage: `array_size`, `array_offset` and the cells (external code, assumption A4). -/
structure Arr (d : Nat) (V : Type) where
  size : Fin d → Nat
  offset : Idx d
  cells : Idx d → Option V

/-- the cells of an array: `offset ≤ i < offset + size` -/
def Arr.InBox {d : Nat} {V : Type} (s : Arr d V) (i : Idx d) : Prop := ∀ a, s.offset a ≤ i a ∧ i a < s.offset a + s.size a

instance {d : Nat} {V : Type} (s : Arr d V) (i : Idx d) : Decidable (s.InBox i) :=
  inferInstanceAs (Decidable (∀ a, s.offset a ≤ i a ∧ i a < s.offset a + s.size a))

/-- an array without entries -/
def Arr.fresh {d : Nat} {V : Type} (size : Fin d → Nat) (offset : Idx d) : Arr d V := ⟨size, offset, fun _ => none⟩

/-- The array backend: exactly the cells `offset ≤ i < offset + size` may be accessed. -/
abbrev arrayBackend (d : Nat) : Backend d where
  Store := Arr d
  ok := fun s i => decide (s.InBox i)
  get := fun s i => s.cells i
  insert := fun s i v => { s with cells := fun j => if j = i then some v else s.cells j }
  modify := fun s i f => { s with cells := fun j => if j = i then (s.cells i).map f else s.cells j }
  traverse := fun s => (boxList s.offset s.size).filterMap fun i => (s.cells i).map (fun v => (i, v))

end Ndt
