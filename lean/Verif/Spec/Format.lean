import Verif.Model.Format
import Verif.Spec.Rounded

/-! Specification: the numbers of a binary floating-point format (C96). -/

namespace Ndt.Spec
variable {K : Type} [Field K] [LinearOrder K] {d : Nat}

/-- The finite numbers of the format (IEEE 754-2008, 3.3): fewer than `2^t` for the significand, no exponent below that of the last bit of the subnormal numbers, below `2^emax`. -/
def InFormat (F : Format) (z : K) : Prop :=
  (∃ m e : Int, |m| < 2 ^ F.t ∧ F.emin + 1 - F.t ≤ e ∧ z = (m : K) * (2 : K) ^ e) ∧ |z| < (2 : K) ^ F.emax

/-- The coordinates are zero or normal numbers. -/
def NoSubnormal (F : Format) (p : Fin d → K) : Prop := ∀ i, p i = 0 ∨ (2 : K) ^ F.emin ≤ |p i|

/-- The point lies in the bundle, or misses it by at most `ε` times its own distance from the coordinate plane through the origin of the map and `δ`. -/
def NearBundleAbs (ε δ r : K) (b : Fin d → Int) (p : Fin d → K) : Prop :=
  ∀ i : Fin d, (b i : K) * (r / 2) - ε * |p i| - δ ≤ p i ∧ p i < ((b i : K) + 1) * (r / 2) + ε * |p i| + δ

/-- The same for the cell with index `k` of grid `c`. -/
def NearCellAbs (ε δ r : K) (c : Nat) (k : Fin d → Int) (p : Fin d → K) : Prop :=
  ∀ i : Fin d, ((k i : K) - shift K c i.1) * r - ε * |p i| - δ ≤ p i ∧ p i < ((k i : K) + 1 - shift K c i.1) * r + ε * |p i| + δ

/-- The resolutions and points for which exponents do not matter: at most 2 with any numbers of the scalar type, or at most `2^t` with coordinates that are zero or normal. -/
def Ordinary (T : Format) (r : K) (p : Fin d → K) : Prop := r ≤ 2 ∧ (∀ i, InFormat T (p i)) ∨ r ≤ (2 : K) ^ T.t ∧ NoSubnormal T p

end Ndt.Spec
