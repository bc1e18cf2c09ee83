import Verif.Spec.OccPoints

/-!
Specification: maps that cover different parts of the same area.
-/

namespace Ndt.Spec
variable {K : Type} [Field K] [LinearOrder K] {d : Nat}

/-- the area of the map `k` is a part of that of `k'` (for example, `k` is static and `k'` dynamic) -/
def Window (r : K) (k k' : Kind d) : Prop := ∀ p : Pt K d, Region r k p → Region r k' p

/-- cell `i` of grid `c` lies in the area of the map -/
def CellWithin (r : K) (k : Kind d) (c : Nat) (i : Idx d) : Prop := ∀ p : Pt K d, InCell r c i p → Region r k p

/-- all cells that contain the point lie in the area of the map -/
def CellsWithin (r : K) (k : Kind d) (q : Pt K d) : Prop := ∀ c < 2 ^ d, ∀ i : Idx d, InCell r c i q → CellWithin r k c i

end Ndt.Spec
