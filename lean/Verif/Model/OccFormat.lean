import Verif.Model.OccRounded
import Verif.Model.OccSpecial
import Verif.Model.SamplingFormat

/-!
Occupancy values in a binary floating-point format with bounded exponents (C118): `getOccupancy` of `CN/common/occupancy_distribution.hpp` and `CN/common/weighted_occupancy_distribution.hpp` as in
`Model/OccRounded.lean`, now with underflow, overflow, infinities and NaN, and with counters of 64 bits. Simplifications: no contraction to fused multiply-add; the sign of a zero is not modelled (the
only reciprocal is that of a number that is at least 1).
-/

namespace Ndt

/-- `std::exp` in format `T`: the approximation `X` (assumption A7), rounded to the numbers of the format, which only matters if the result underflows or overflows. -/
noncomputable def Fl.expF (T : Format) (X : ExpFn) : Fl ℝ → Fl ℝ
  | .nan => .nan
  | .inf true => .fin 0
  | .inf false => .inf false
  | .fin x => T.round (X.f x)

/-- `cslibs_math::common::LogOdds<T>::from`: `1 - 1 / (1 + exp(l))` (assumption A7) in format `T` -/
noncomputable def logOddsFromF (T : Format) (X : ExpFn) (l : Fl ℝ) : Fl ℝ := T.sub (.fin 1) (T.recip (T.conv (Fl.add (.fin 1) (Fl.expF T X l))))

/-- `cslibs_math::common::LogOdds<T>::to`: `log(p / (1 - p))` (assumption A7) in format `T`. Simplification: only the result is rounded. -/
noncomputable def logOddsToF (T : Format) (p : ℝ) : Fl ℝ := T.conv (logOddsTo p)

/-- `cslibs_gridmaps::utility::InverseModel(prob_prior, prob_free, prob_occupied)` in format `T`, as `IvmFl.mk'` -/
noncomputable def IvmFl.mkF (T : Format) (prior free occ : ℝ) : IvmFl := ⟨logOddsToF T prior, logOddsToF T free, logOddsToF T occ⟩

/-- a product in format `T` -/
def Format.mul {K : Type} [Field K] [LinearOrder K] [FloorRing K] (T : Format) (a b : Fl K) : Fl K := T.conv (Fl.mul a b)

/-- a sum in format `T` -/
def Format.add {K : Type} [Field K] [LinearOrder K] [FloorRing K] (T : Format) (a b : Fl K) : Fl K := T.conv (Fl.add a b)

/-- The argument of `LogOdds<T>::from` (`CN/common/occupancy_distribution.hpp:108-110`), as `evidenceR`. The counters are of type `std::size_t`, that is modulo `2^64`, and are converted to `T`. -/
noncomputable def evidenceF (T : Format) (m : IvmFl) (free occupied : Nat) : Fl ℝ :=
  T.sub (T.add (T.mul (T.round ((free % 2 ^ 64 : Nat) : ℝ)) m.logFree) (T.mul (T.round ((occupied % 2 ^ 64 : Nat) : ℝ)) m.logOcc)) (T.mul (T.round (wrapMinusOne free occupied : ℝ)) m.logPrior)

/-- `OccupancyDistribution::getOccupancy(const ivm_t&)` (`CN/common/occupancy_distribution.hpp:104-112`), as `Occ.occupancyR` -/
noncomputable def Occ.occupancyF {E : Type} (T : Format) (X : ExpFn) (m : IvmFl) (o : Occ Nat E) : Fl ℝ :=
  match o.data with
  | none => .fin 0
  | some s => logOddsFromF T X (evidenceF T m o.free s.card)

/-- Numbers of a weighted occupancy distribution, as `Weights` -/
structure WeightsF where
  free : Fl ℝ
  occupied : Option (Fl ℝ)

namespace WeightsF

/-- default constructor (`CN/common/weighted_occupancy_distribution.hpp:27-30`) -/
noncomputable def new : WeightsF := ⟨.fin 0, none⟩

/-- `updateFree(weight)` (`CN/common/weighted_occupancy_distribution.hpp:57-60`) -/
noncomputable def updateFree (T : Format) (w : Fl ℝ) (o : WeightsF) : WeightsF := { o with free := T.add o.free w }

/-- `updateOccupied(p, w)` (`CN/common/weighted_occupancy_distribution.hpp:62-68`) -/
noncomputable def updateOccupied (T : Format) (w : Fl ℝ) (o : WeightsF) : WeightsF :=
  let s := match o.occupied with
    | none => .fin 0
    | some s => s
  { o with occupied := some (T.add s w) }

/-- The argument of `LogOdds<T>::from` (`CN/common/weighted_occupancy_distribution.hpp:111-113`), as `Weights.evidence` -/
noncomputable def evidence (T : Format) (m : IvmFl) (free occupied : Fl ℝ) : Fl ℝ :=
  T.sub (T.add (T.mul free m.logFree) (T.mul occupied m.logOcc)) (T.mul (T.sub (T.add free occupied) (.fin 1)) m.logPrior)

/-- `WeightedOccupancyDistribution::getOccupancy(const ivm_t&)` (`CN/common/weighted_occupancy_distribution.hpp:107-115`), as `Weights.occupancy` -/
noncomputable def occupancy (T : Format) (X : ExpFn) (m : IvmFl) (o : WeightsF) : Fl ℝ :=
  match o.occupied with
  | none => .fin 0
  | some w => logOddsFromF T X (evidence T m o.free w)

/-- An update: `.inl w` is a miss and `.inr w` a hit of weight `w`. -/
abbrev Update := Fl ℝ ⊕ Fl ℝ

/-- One update. -/
noncomputable def step (T : Format) (o : WeightsF) : Update → WeightsF
  | .inl w => o.updateFree T w
  | .inr w => o.updateOccupied T w

/-- A history of updates of a new distribution. -/
noncomputable def run (T : Format) (h : List Update) : WeightsF := h.foldl (step T) new

end WeightsF

end Ndt
