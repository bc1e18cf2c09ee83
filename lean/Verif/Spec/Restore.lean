import Verif.Model.Gridmap

/-! What it means that a map was restored, and which maps are reachable. -/

namespace Ndt

/-- Map states that can be reached from a newly constructed map by lookups, expansions, and insertions (an insertion is a list of updates of bundles
inside the map). The operations of the NDT map and of both occupancy
maps are of this form (`grid_reachable`, `occ_reachable`). -/
inductive MapReachable {d : Nat} {D : Type} [Inhabited D] (k : Kind d) (exp : D → Bool) : St k.backend D → Prop
  | init : MapReachable k exp (k.init D)
  | core (op : CoreOp d) (st st' : St k.backend D) : MapReachable k exp st → St.coreStep k.dyn exp op st = some st' → MapReachable k exp st'
  | updates (l : List (Idx d × (D → D))) (st st' : St k.backend D) : MapReachable k exp st →
      (∀ e ∈ l, st.valid k.dyn e.1 = true) → St.updateList k.dyn l st = some st' → MapReachable k exp st'

namespace Spec

/-- Same allocated bundles, same distributions (seen through the storages and through the bundles), same bounds. -/
structure Restored {d : Nat} {B : Backend d} {D : Type} [Inhabited D] (st st' : St B D) : Prop where
  bundles : ∀ bi, bi ∈ st'.bundleIndices ↔ bi ∈ st.bundleIndices
  contents : ∀ c k, st'.content c k = st.content c k
  binContents : ∀ bi c, c < 2 ^ d → st'.binContent bi c = st.binContent bi c
  minB : st'.minB = st.minB
  maxB : st'.maxB = st.maxB

end Spec
end Ndt
