import Verif.Model.Serial
import Verif.Model.Occupancy
import Mathlib.Data.Rat.Floor

/-!
Model of the conversions between dynamic and static maps: `CN/conversion/map.hpp`.
-/

namespace Ndt

/-- `impl::convert<Distribution>::from(f, t)` (`CN/conversion/map.hpp:15-21`): the new value of `*t`. -/
def convDist {D : Type} (f _t : D) : D := f

/-- `impl::convert<OccupancyDistribution>::from(f, t)` (`CN/conversion/map.hpp:23-30`): only objects with a free or occupied observation are copied. The null check is subsumed: a null pointer is
out of contract in `assignBins`. The assignment copies the distribution object deeply (`CN/common/occupancy_distribution.hpp:40-49`). -/
def convOcc {E : Type} (f t : Occ Nat E) : Occ Nat E := if 0 < f.free ∨ 0 < f.numOccupied then f else t

namespace St
variable {d : Nat} {B B' : Backend d} {D : Type} [Inhabited D]

/-- `for (i < bin_count) impl::convert::from(b.at(i), b_dst->at(i))` (`CN/conversion/map.hpp:63-66, 105-108`); `src c` is the object pointed to by the source bundle, `none` a null pointer. -/
def assignBins (g : D → D → D) (src : Nat → Option D) (b : Bundle) : List Nat → St B D → Option (St B D)
  | [], st => some st
  | c :: l, st =>
    match src c, b.data c with
    | some f, some a => assignBins g src b l { st with heap := Function.update st.heap a (g f (st.heap a)) }
    | _, _ => none

/-- the function passed to `traverse` (`CN/conversion/map.hpp:62-67, 104-109`) -/
def convertStep (dyn : Bool) (g : D → D → D) (bi : Idx d) (src : Nat → Option D) (st : St B D) : Option (St B D) :=
  match getDistributionBundle dyn bi st with
  | none => none
  | some (none, st') => some st'
  | some (some b, st') => assignBins g src b (List.range (twoPow d)) st'

/-- `src->traverse(…)` -/
def convertList (dyn : Bool) (g : D → D → D) : List (Idx d × (Nat → Option D)) → St B D → Option (St B D)
  | [], st => some st
  | (bi, src) :: l, st =>
    match convertStep dyn g bi src st with
    | none => none
    | some st' => convertList dyn g l st'

/-- what `src->traverse` passes: bundle indices and the objects behind the pointers of the bundle -/
def bundleList (st : St B D) : List (Idx d × (Nat → Option D)) := (B.traverse st.bundles).map fun e => (e.1, fun c => (e.2.data c).map st.heap)

/-- conversion to a dynamic map (`CN/conversion/map.hpp:46-71`); `f`, `f'` are the uninitialised counters of the new octrees -/
def toDynamic (f : Nat → Nat) (f' : Nat) (g : D → D → D) (src : St B D) : Option (St (octreeBackend d) D) :=
  convertList true g (bundleList src) (dynInit d D f f')

/-- `min_distribution_index` (`CN/conversion/map.hpp:91-92`): in floating point, exact for the indices of a map -/
def convMin (st : St B D) (a : Fin d) : Int := ⌊(st.minB a : ℚ) / 2⌋ * 2

/-- `max_distribution_index` (`CN/conversion/map.hpp:93-94`) -/
def convMax (st : St B D) (a : Fin d) : Int := ⌈(st.maxB a : ℚ) / 2⌉ * 2 + 1

/-- `size` (`CN/conversion/map.hpp:96-97`): `none` is the undefined behaviour of a signed overflow or of casting a negative number to an unsigned one -/
def convSize (st : St B D) (a : Fin d) : Option Nat :=
  match intSub (convMax st a) (convMin st a) with
  | none => none
  | some x => if 0 ≤ ⌈(x : ℚ) / 2⌉ then some ⌈(x : ℚ) / 2⌉.toNat else none

/-- conversion to a static map (`CN/conversion/map.hpp:84-113`). Also returns the size of the new map. -/
def toStatic (g : D → D → D) (src : St B D) : Option ((Fin d → Nat) × St (arrayBackend d) D) :=
  if ∀ a, (convSize src a).isSome then
    let size := fun a => (convSize src a).getD 0
    (convertList false g (bundleList src) (staticInit d D size (convMin src))).map fun st => (size, st)
  else none

end St
end Ndt
