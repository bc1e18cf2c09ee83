import Verif.Spec.Points

/-!
Specification for C113: where a map has evidence.
-/

namespace Ndt.Spec
open Ndt
variable {K : Type} [Field K] [LinearOrder K] [IsStrictOrderedRing K] [FloorRing K] {d : Nat}

/-- The point lies in the interior of the cell `k` of grid `c`. -/
def InOpenCell (r : K) (c : Nat) (k : Fin d → Int) (p : Fin d → K) : Prop :=
  ∀ i : Fin d, ((k i : K) - shift K c i.1) * r < p i ∧ p i < ((k i : K) + 1 - shift K c i.1) * r

open scoped Classical in
/-- The point lies in a cell (of one of the `2^d` grids) whose points suffice for a distribution. -/
def Seen (r : K) (enough : Multiset (Pt K d) → Prop) (points : Multiset (Pt K d)) (q : Pt K d) : Prop :=
  ∃ c, c < 2 ^ d ∧ ∃ i, InCell r c i q ∧ enough (points.filter (InCell r c i))

open scoped Classical in
/-- The point lies in the interior of such a cell. -/
def SeenInside (r : K) (enough : Multiset (Pt K d) → Prop) (points : Multiset (Pt K d)) (q : Pt K d) : Prop :=
  ∃ c, c < 2 ^ d ∧ ∃ i, InOpenCell r c i q ∧ enough (points.filter (InCell r c i))

end Ndt.Spec
