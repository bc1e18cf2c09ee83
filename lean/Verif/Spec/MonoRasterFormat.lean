import Verif.Model.Format
import Verif.Model.Rounding

/-! Specification for C121: the columns of the target of the conversion and the column of the source that each of them reads. -/

namespace Ndt.Spec
variable {K : Type} [Field K] [LinearOrder K] [FloorRing K]

/-- `n * a / b` with the product and the quotient rounded to `t` significant bits -/
def roundedRatio (t : Nat) (n a b : K) : K := toBits t (toBits t (n * a) / b)

/-- number of columns of the target: the width of the source of `n` columns divided by the sampling resolution, rounded up -/
def columns (t n : Nat) (r s : K) : Int := ⌈roundedRatio t (n : K) r s⌉

/-- column of the source, counted from 0, that the column `j` of the target reads -/
def sourceColumn (t : Nat) (r s : K) (j : Nat) : Int := ⌊roundedRatio t (j : K) s r⌋

/-- the value of the source for a cell with contents `c` at the point `p` -/
def cellValue {D P V : Type} [Zero V] (dens : D → P → V) (p : P) : Option D → V
  | none => 0
  | some x => dens x p

end Ndt.Spec
