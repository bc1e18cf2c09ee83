import Verif.Model.Map

/-! What it means that a map was converted. -/

namespace Ndt.Spec

/-- Same allocated bundles and same distributions, seen through the storages and through the bundles; the storages may be of another kind. -/
structure Converted {d : Nat} {B B' : Backend d} {D : Type} [Inhabited D] (st : St B D) (st' : St B' D) : Prop where
  bundles : ∀ bi, bi ∈ st'.bundleIndices ↔ bi ∈ st.bundleIndices
  contents : ∀ c k, st'.content c k = st.content c k
  binContents : ∀ bi c, c < 2 ^ d → st'.binContent bi c = st.binContent bi c

end Ndt.Spec
