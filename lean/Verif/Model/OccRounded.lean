import Verif.Model.Occupancy
import Verif.Model.Rounding

/-!
Occupancy values with rounded arithmetic (C88): `getOccupancy` of `CN/common/occupancy_distribution.hpp` and `CN/common/weighted_occupancy_distribution.hpp` with every floating-point operation rounded, and the
accumulation of weights in the scalar type of the map. Simplifications: no contraction to fused multiply-add, no underflow and overflow of finite results (`exp` of large log odds is a large number
here and infinity in the program; the quotient by it is tiny here and 0 there, and both give the occupancy 1).
-/

namespace Ndt

/-- The exponential function of the C++ library: an increasing, non-negative approximation with relative error at most `e` (assumption A7). -/
structure ExpFn where
  f : ℝ → ℝ
  e : ℝ
  nonneg : 0 ≤ e
  mono : ∀ x y, x ≤ y → f x ≤ f y
  pos : ∀ x, 0 ≤ f x
  err : ∀ x, |f x - Real.exp x| ≤ e * Real.exp x

/-- `cslibs_math::common::LogOdds<T>::from` (assumption A7), with rounding after every operation. -/
noncomputable def logOddsFromR (R : Rounding ℝ) (E : ExpFn) (l : ℝ) : ℝ := R.rnd (1 - R.rnd (1 / R.rnd (1 + E.f l)))

/-- The argument of `LogOdds<T>::from` (`CN/common/occupancy_distribution.hpp:108-110`). The counters of type `std::size_t` are converted to `T` before the multiplication; the sum of the counters is computed in
`std::size_t`. -/
def evidenceR (R : Rounding ℝ) (m : Ivm) (free occupied : Nat) : ℝ :=
  R.rnd (R.rnd (R.rnd (R.rnd (free : ℝ) * m.logFree) + R.rnd (R.rnd (occupied : ℝ) * m.logOcc)) - R.rnd (R.rnd (wrapMinusOne free occupied : ℝ) * m.logPrior))

/-- `OccupancyDistribution::getOccupancy(const ivm_t&)` (`CN/common/occupancy_distribution.hpp:104-112`), as `Occ.occupancy`, rounded. -/
noncomputable def Occ.occupancyR {E : Type} (R : Rounding ℝ) (X : ExpFn) (m : Ivm) (o : Occ Nat E) : ℝ :=
  match o.data with
  | none => 0
  | some s => logOddsFromR R X (evidenceR R m o.free s.card)

/-- Numbers of a weighted occupancy distribution: `weight_free_` and the weight of `distribution_`, `none` being the null pointer (`CN/common/weighted_occupancy_distribution.hpp:143-145`). The points do not matter for the
occupancy. -/
structure Weights where
  free : ℝ
  occupied : Option ℝ

namespace Weights

/-- default constructor (`CN/common/weighted_occupancy_distribution.hpp:27-30`) -/
def new : Weights := ⟨0, none⟩

/-- `updateFree(weight)` (`CN/common/weighted_occupancy_distribution.hpp:57-60`): the sum is rounded to `T` -/
def updateFree (R : Rounding ℝ) (w : ℝ) (o : Weights) : Weights := { o with free := R.rnd (o.free + w) }

/-- `updateOccupied(p, w)` (`CN/common/weighted_occupancy_distribution.hpp:62-68`); the distribution accumulates its weight by `W += w` in `T` (assumption A1) -/
def updateOccupied (R : Rounding ℝ) (w : ℝ) (o : Weights) : Weights :=
  let s := match o.occupied with
    | none => 0
    | some s => s
  { o with occupied := some (R.rnd (s + w)) }

/-- The argument of `LogOdds<T>::from` (`CN/common/weighted_occupancy_distribution.hpp:111-113`). -/
def evidence (R : Rounding ℝ) (m : Ivm) (free occupied : ℝ) : ℝ :=
  R.rnd (R.rnd (R.rnd (free * m.logFree) + R.rnd (occupied * m.logOcc)) - R.rnd (R.rnd (R.rnd (free + occupied) - 1) * m.logPrior))

/-- `WeightedOccupancyDistribution::getOccupancy(const ivm_t&)` (`CN/common/weighted_occupancy_distribution.hpp:107-115`), rounded. -/
noncomputable def occupancy (R : Rounding ℝ) (X : ExpFn) (m : Ivm) (o : Weights) : ℝ :=
  match o.occupied with
  | none => 0
  | some w => logOddsFromR R X (evidence R m o.free w)

/-- An update: `.free w` or `.hit w`. -/
inductive Update where
  | free (w : ℝ)
  | hit (w : ℝ)

/-- The weight of an update. -/
def Update.weight : Update → ℝ
  | .free w => w
  | .hit w => w

/-- One update. -/
def step (R : Rounding ℝ) (o : Weights) : Update → Weights
  | .free w => o.updateFree R w
  | .hit w => o.updateOccupied R w

/-- A history of updates of a new distribution. -/
def run (R : Rounding ℝ) (h : List Update) : Weights := h.foldl (step R) new

end Weights

end Ndt
