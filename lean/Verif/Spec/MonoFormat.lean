import Verif.Spec.Format

/-! Specification: cells of the single-resolution map and points close to them (C115). -/

namespace Ndt.Spec
variable {K : Type} [Field K] [LinearOrder K] {d : Nat}

/-- The point lies in cell `i` of a grid of cells with edge `r`. -/
def InSquare (r : K) (i : Fin d → Int) (q : Fin d → K) : Prop := ∀ a, (i a : K) * r ≤ q a ∧ q a < ((i a : K) + 1) * r

/-- The point lies in the cell, or misses it by at most `ε` times its own distance from the coordinate axis and `δ`. -/
def NearSquare (ε δ r : K) (i : Fin d → Int) (q : Fin d → K) : Prop :=
  ∀ a, (i a : K) * r - ε * |q a| - δ ≤ q a ∧ q a < ((i a : K) + 1) * r + ε * |q a| + δ

/-- The point lies in the cell, further from its borders than that. -/
def InnerSquare (ε r : K) (i : Fin d → Int) (q : Fin d → K) : Prop :=
  ∀ a, (i a : K) * r + ε * |q a| ≤ q a ∧ q a < ((i a : K) + 1) * r - ε * |q a|

end Ndt.Spec
