import Verif.Spec.Geometry
import Mathlib.Data.Set.Basic
import Mathlib.Order.Bounds.Basic

/-!
Specification vocabulary for maps.
-/

namespace Ndt.Spec

/-- `lo`/`hi` are the componentwise bounds of a set of indices: the sentinels `INT_MAX`/`INT_MIN` for the empty set, otherwise the attained componentwise minimum and
maximum. -/
def TightBounds {d : Nat} (S : Set (Fin d → Int)) (lo hi : Fin d → Int) : Prop :=
  (S = ∅ ∧ (∀ a, lo a = 2147483647 ∧ hi a = -2147483648)) ∨
  (S.Nonempty ∧ ∀ a, IsLeast {x | ∃ i ∈ S, i a = x} (lo a) ∧ IsGreatest {x | ∃ i ∈ S, i a = x} (hi a))

/-- `j` is one of the 3^d neighbours of `i` (`i` itself included). -/
def Neighbour {d : Nat} (i j : Fin d → Int) : Prop := ∀ a, |j a - i a| ≤ 1

end Ndt.Spec
