import Mathlib.Algebra.Order.Ring.Defs
import Mathlib.Algebra.Order.Group.Unbundled.Abs

/-!
Floating-point values with NaN and infinities, for the properties that are about them (C43, C47, C49). Finite arithmetic is exact: rounding, overflow of finite operands and signed zeros are not modelled.
-/

namespace Ndt

/-- A value of type `T` (`float` or `double`). -/
inductive Fl (K : Type) where
  | nan
  | inf (neg : Bool)
  | fin (x : K)
deriving DecidableEq

namespace Fl
variable {K : Type}

instance [Zero K] : Zero (Fl K) := ⟨.fin 0⟩
instance [One K] : One (Fl K) := ⟨.fin 1⟩
instance [Zero K] : Inhabited (Fl K) := ⟨0⟩

/-- IEEE 754 addition on special values -/
def add [Add K] : Fl K → Fl K → Fl K
  | nan, _ => nan
  | _, nan => nan
  | inf a, inf b => if a = b then inf a else nan
  | inf a, fin _ => inf a
  | fin _, inf b => inf b
  | fin x, fin y => fin (x + y)

def neg [Neg K] : Fl K → Fl K
  | nan => nan
  | inf a => inf (!a)
  | fin x => fin (-x)

/-- IEEE 754 multiplication on special values -/
def mul [Zero K] [Mul K] [LinearOrder K] : Fl K → Fl K → Fl K
  | nan, _ => nan
  | _, nan => nan
  | inf a, inf b => inf (a != b)
  | inf a, fin y => if y = 0 then nan else inf (a != decide (y < 0))
  | fin x, inf b => if x = 0 then nan else inf (decide (x < 0) != b)
  | fin x, fin y => fin (x * y)

instance [Add K] : Add (Fl K) := ⟨add⟩
instance [Neg K] : Neg (Fl K) := ⟨neg⟩
instance [Zero K] [Mul K] [LinearOrder K] : Mul (Fl K) := ⟨mul⟩

/-- IEEE 754 comparison `a < b`: false if one of them is NaN -/
def lt [LinearOrder K] : Fl K → Fl K → Bool
  | nan, _ => false
  | _, nan => false
  | inf a, inf b => a && !b
  | inf a, fin _ => a
  | fin _, inf b => !b
  | fin x, fin y => decide (x < y)

/-- IEEE 754 comparison `a <= b` -/
def le [LinearOrder K] : Fl K → Fl K → Bool
  | nan, _ => false
  | _, nan => false
  | inf a, inf b => a || !b
  | inf a, fin _ => a
  | fin _, inf b => !b
  | fin x, fin y => decide (x ≤ y)

/-- IEEE 754 comparison `a == b` -/
def eq [DecidableEq K] : Fl K → Fl K → Bool
  | inf a, inf b => decide (a = b)
  | fin x, fin y => decide (x = y)
  | _, _ => false

/-- `std::isnormal`; `tiny` is the smallest positive normal number -/
def isNormal [LinearOrder K] [AddCommGroup K] (tiny : K) : Fl K → Bool
  | fin x => decide (tiny ≤ |x|)
  | _ => false

def isNan : Fl K → Bool
  | nan => true
  | _ => false

end Fl
end Ndt
