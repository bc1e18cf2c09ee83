import Verif.Spec.OccPoints
import Verif.Model.Occupancy
import Mathlib.Analysis.SpecialFunctions.Log.Basic
import Mathlib.Analysis.SpecialFunctions.Pow.Real

/-!
Specification for C108: Bayes' rule, and scans that look through a bundle.
-/

namespace Ndt.Spec

/-- The probabilities a user gives to the inverse sensor model: that a cell is occupied, before any observation (`prior`), and after a single miss (`free`) or hit (`occ`). -/
structure SensorModel where
  prior : ℝ
  free : ℝ
  occ : ℝ

/-- all three are probabilities other than 0 and 1 -/
structure SensorModel.Proper (m : SensorModel) : Prop where
  prior : 0 < m.prior ∧ m.prior < 1
  free : 0 < m.free ∧ m.free < 1
  occ : 0 < m.occ ∧ m.occ < 1

/-- logarithmic odds -/
noncomputable def logOdds (p : ℝ) : ℝ := Real.log (p / (1 - p))

/-- the inverse model object with these probabilities: it keeps their logarithmic odds (A7) -/
noncomputable def SensorModel.ivm (m : SensorModel) : Ivm := ⟨logOdds m.prior, logOdds m.free, logOdds m.occ⟩

/-- Bayes' rule: the belief after an observation with likelihoods `l1` (given occupied) and `l0` (given free), if the belief was `b` -/
noncomputable def posterior (l1 l0 b : ℝ) : ℝ := b * l1 / (b * l1 + (1 - b) * l0)

/-- An observation that turns the prior `p` into the belief `q` has likelihoods proportional to `q / p` and `(1 - q) / (1 - p)`. -/
noncomputable def bayes (p b q : ℝ) : ℝ := posterior (q / p) ((1 - q) / (1 - p)) b

/-- the observations an update of a distribution stands for, by the belief each would lead to if it were the only one -/
noncomputable def observations {E : Type} (m : SensorModel) : OccOp Nat E → List ℝ
  | .free n => List.replicate n m.free
  | .point _ => [m.occ]
  | .dist s => List.replicate s.card m.occ
  | .ptr none => []
  | .ptr (some s) => List.replicate s.card m.occ

/-- odds -/
noncomputable def odds (p : ℝ) : ℝ := p / (1 - p)

variable {K : Type} [Field K] [LinearOrder K] {d : Nat} {W : Type}

/-- Some ray of the scan passes through the bundle `b` of the map, which (if `skip`) contains no hit of the scan. -/
def LooksThrough [FloorRing K] (skip : Bool) (g : Geo K d) (k : Kind d) (s : Scan K d W) (b : Idx d) : Prop :=
  ValidBundle k b ∧ (skip = true → b ∉ hitBundles g k s) ∧ ∃ b' ∈ hitBundles g k s, b ∈ rayOf g k s b'

/-- No hit of the scan lies in one of the `2^d` overlapping cells that contain the bundle `b`. -/
def ClearOf (g : Geo K d) (k : Kind d) (s : Scan K d W) (b : Idx d) : Prop := ∀ p ∈ hits g k s, ∀ c < 2 ^ d, ∀ i, BundleInCell g.r b c i → ¬ InCell g.r c i p

end Ndt.Spec
