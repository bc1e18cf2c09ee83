import Mathlib.Algebra.Order.Field.Basic

/-!
Independent specification of the geometry of the overlapping grids.

An NDT map of resolution `r` consists of `2^d` grids whose cells are half-open boxes of edge `r`. Grid `c` (a bit mask over the dimensions) is shifted
by `-r/2` in every dimension whose bit is set in `c`.
-/

namespace Ndt.Spec

variable {K : Type} [Field K] [LinearOrder K]

/-- Shift (in cells) of grid `c` in dimension `i`: one half iff bit `i` of `c` is set. -/
def shift (K : Type) [Field K] (c : Nat) (i : Nat) : K := if c.testBit i then 1 / 2 else 0

/-- The half-open cell with index `k` of grid `c` contains the point `p`. -/
def InCell {d : Nat} (r : K) (c : Nat) (k : Fin d → Int) (p : Fin d → K) : Prop :=
  ∀ i : Fin d, ((k i : K) - shift K c i.1) * r ≤ p i ∧ p i < ((k i : K) + 1 - shift K c i.1) * r

/-- The half-open bundle with index `b` (edge `r/2`) contains the point `p`. -/
def InBundle {d : Nat} (r : K) (b : Fin d → Int) (p : Fin d → K) : Prop :=
  ∀ i : Fin d, (b i : K) * (r / 2) ≤ p i ∧ p i < ((b i : K) + 1) * (r / 2)

end Ndt.Spec
