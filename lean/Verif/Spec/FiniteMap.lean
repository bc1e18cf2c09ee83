import Mathlib.Data.Finset.Image
import Mathlib.Data.Fintype.Pi
import Mathlib.Data.Fintype.Basic
import Mathlib.Algebra.BigOperators.Group.Finset.Basic

/-!
Specification of an insert-only store with a merge strategy: what has been stored under a key is the first inserted value merged, in order, with all
later values inserted under the same key.
-/

namespace Ndt.Spec

/-- The value stored under `k` after the history `hist`, for a given notion of "same key". -/
def stored {κ V : Type} (merge : V → V → V) (same : κ → κ → Bool) (hist : List (κ × V)) (k : κ) : Option V :=
  match (hist.filter (fun e => same e.1 k)).map Prod.snd with
  | [] => none
  | v :: vs => some (vs.foldl merge v)

/-- The index range of the storage: every coordinate in `[-32768, 32767]`. -/
def InRange {d : Nat} (i : Fin d → Int) : Prop := ∀ a, -32768 ≤ i a ∧ i a ≤ 32767

instance {d : Nat} (i : Fin d → Int) : Decidable (InRange i) := inferInstanceAs (Decidable (∀ a, -32768 ≤ i a ∧ i a ≤ 32767))

/-- The cube of edge `2^h` cells, on the grid starting at -32768, that contains the index. -/
def ancestor {d : Nat} (h : Nat) (i : Fin d → Int) : Fin d → Int := fun a => (i a + 32768) / 2 ^ h

/-- Number of nodes of a 16-level octree storing the indices `S`: one per level and non-empty cube of that level. -/
def octreeNodes {d : Nat} (S : Finset (Fin d → Int)) : Nat := ∑ h ∈ Finset.range 17, (S.image (ancestor h)).card

end Ndt.Spec
