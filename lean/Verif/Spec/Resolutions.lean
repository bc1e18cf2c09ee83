import Verif.Spec.Points

/-!
Specification for C109: cells of maps with different resolutions.
-/

namespace Ndt.Spec

variable {K : Type} [Field K] [LinearOrder K] {d : Nat}

/-- Cell `j` of grid `c` at resolution `r` lies inside of cell `i` of grid `c'` at resolution `r'`. -/
def CellInside (r : K) (c : Nat) (j : Idx d) (r' : K) (c' : Nat) (i : Idx d) : Prop := ∀ p : Pt K d, InCell r c j p → InCell r' c' i p

/-- The cells `S` of grid `c` at resolution `r` cover cell `i` of grid `c'` at resolution `r'`. -/
def Covered (r : K) (c : Nat) (S : Finset (Idx d)) (r' : K) (c' : Nat) (i : Idx d) : Prop := ∀ p : Pt K d, InCell r' c' i p → ∃ j ∈ S, InCell r c j p

/-- the grid whose cells divide the cells of grid `c` into `n` parts per axis: the unshifted one for even `n` -/
def dividing (n c : Nat) : Nat := if n % 2 = 0 then 0 else c

end Ndt.Spec
