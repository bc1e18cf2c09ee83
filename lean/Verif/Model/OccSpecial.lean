import Verif.Model.Occupancy
import Verif.Model.Float
import Mathlib.Analysis.SpecialFunctions.Log.Basic

/-!
Occupancy values for inverse sensor models with probabilities 0 and 1, whose log odds are infinite (C97): `getOccupancy` of `CN/common/occupancy_distribution.hpp` and
`CN/common/weighted_occupancy_distribution.hpp` with NaN and infinities. Simplification: finite arithmetic is exact.
-/

namespace Ndt

/-- `std::log(p / (1 - p))`, the log odds of a probability in `[0, 1]` (assumption A7): `log 0` is minus infinity, and `1 / 0` and its logarithm are infinite -/
noncomputable def logOddsTo (p : ℝ) : Fl ℝ :=
  if p = 0 then .inf true else if p = 1 then .inf false else .fin (Real.log (p / (1 - p)))

/-- `std::exp` -/
noncomputable def Fl.exp : Fl ℝ → Fl ℝ
  | .nan => .nan
  | .inf true => .fin 0
  | .inf false => .inf false
  | .fin x => .fin (Real.exp x)

/-- `1 / x` for `x ≥ 0` -/
noncomputable def Fl.inverse : Fl ℝ → Fl ℝ
  | .nan => .nan
  | .inf _ => .fin 0
  | .fin x => if x = 0 then .inf false else .fin (1 / x)

/-- `cslibs_math::common::LogOdds<T>::from`: `1 - 1 / (1 + exp(l))` (assumption A7) -/
noncomputable def logOddsFromFl (l : Fl ℝ) : Fl ℝ := .fin 1 + -Fl.inverse (.fin 1 + Fl.exp l)

/-- `cslibs_gridmaps::utility::InverseModel(prob_prior, prob_free, prob_occupied)`: log odds of the probabilities. -/
structure IvmFl where
  logPrior : Fl ℝ
  logFree : Fl ℝ
  logOcc : Fl ℝ

noncomputable def IvmFl.mk' (prior free occ : ℝ) : IvmFl := ⟨logOddsTo prior, logOddsTo free, logOddsTo occ⟩

/-- `OccupancyDistribution::getOccupancy(const ivm_t&)` (`CN/common/occupancy_distribution.hpp:104-112`), as `Occ.occupancy`, with special values. -/
noncomputable def Occ.occupancyFl {E : Type} (m : IvmFl) (o : Occ Nat E) : Fl ℝ :=
  match o.data with
  | none => .fin 0
  | some s => logOddsFromFl (.fin (o.free : ℝ) * m.logFree + .fin (s.card : ℝ) * m.logOcc + -(.fin (wrapMinusOne o.free s.card : ℝ) * m.logPrior))

/-- `WeightedOccupancyDistribution::getOccupancy(const ivm_t&)` (`CN/common/weighted_occupancy_distribution.hpp:107-115`), as `Occ.occupancyW`, with special values. -/
noncomputable def Occ.occupancyWFl {P : Type} (m : IvmFl) (o : Occ ℝ (P × ℝ)) : Fl ℝ :=
  match o.data with
  | none => .fin 0
  | some s => logOddsFromFl (.fin o.free * m.logFree + .fin (s.map Prod.snd).sum * m.logOcc + -(.fin (o.free + (s.map Prod.snd).sum - 1) * m.logPrior))

/-- `sampleNonNormalized(p, bundle, ivm)` (`CN/map/impl/occupancy_gridmap.hpp:259-281`, `weighted_occupancy_gridmap.hpp:257-278`) for the distributions of a bundle, given as pairs of the density at the point and the occupancy;
`none` for a distribution without points, which contributes 0. -/
noncomputable def sampleFl (divCount : ℝ) (l : List (Option (ℝ × Fl ℝ))) : Fl ℝ :=
  l.foldl (fun v x => v + .fin divCount * (match x with | some (dens, occ) => .fin dens * occ | none => .fin 0)) (.fin 0)

end Ndt
