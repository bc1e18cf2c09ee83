import Verif.Model.RoundingOcc
import Verif.Model.Float

/-!
Quantisation of points in a binary floating-point format with bounded exponents (C96): the definitions of `Model/Rounding.lean` and `Model/RoundingOcc.lean` once more, now with
subnormal numbers, results that underflow to zero, infinities and NaN. Simplification: the sign of a zero is not modelled; no operation of these functions depends on it, except
`1.0 / bundle_resolution_` for a resolution so small that its half rounds to zero, where only the positive zero occurs because resolutions are positive.
-/

namespace Ndt

/-- A binary interchange format (IEEE 754-2008, 3.3): `t` significant bits, normal numbers from `2^emin` on, finite numbers below `2^emax`. -/
structure Format where
  t : Nat
  emin : Int
  emax : Int

/-- `float` -/
def Format.single : Format := { t := 24, emin := -126, emax := 128 }

/-- `double` -/
def Format.double : Format := { t := 53, emin := -1022, emax := 1024 }

section
variable {K : Type} [Field K] [LinearOrder K] [FloorRing K] {d : Nat}

namespace Format

/-- Weight of the last bit of the numbers of the format near `x`; below `2^emin` the numbers are equidistant. -/
def last (F : Format) (x : K) : K := (2 : K) ^ (max (Int.log 2 |x|) F.emin + 1 - (F.t : Int))

/-- Rounding to nearest, ties to even, before the exponent is compared with the largest one. -/
def nearest (F : Format) (x : K) : K :=
  if x < 0 then -((nearestEven (-x / F.last x) : K) * F.last x) else (nearestEven (x / F.last x) : K) * F.last x

/-- Rounding of an exact result: infinite if the rounded number is too large (IEEE 754-2008, 4.3.1 and 7.4). -/
def round (F : Format) (x : K) : Fl K := if |F.nearest x| < (2 : K) ^ F.emax then .fin (F.nearest x) else .inf (decide (x < 0))

/-- Rounding of the result of an operation, or conversion of a number of another format. -/
def conv (F : Format) : Fl K → Fl K
  | .fin x => F.round x
  | y => y

/-- `1.0 / y` in this format -/
def recip (F : Format) : Fl K → Fl K
  | .nan => .nan
  | .inf _ => .fin 0
  | .fin y => if y = 0 then .inf false else F.round (1 / y)

end Format

/-- `bundle_resolution_` (`CN/map/abstract_map.hpp:66`): `0.5 * resolution` is a `double`, converted to `T`. -/
def bundleResolutionF (T : Format) (r : K) : Fl K := T.conv (Format.double.round (1 / 2 * r))

/-- `bundle_resolution_inv_` (`CN/map/abstract_map.hpp:67`): `1.0 / bundle_resolution_` is a `double`, converted to `T`. -/
def bundleResolutionInvF (T : Format) (r : K) : Fl K := T.conv (Format.double.recip (bundleResolutionF T r))

/-- `static_cast<int>(std::floor(y))`: undefined for NaN, infinities and values out of the range of `int` ([conv.fpint]). -/
def flToInt : Fl K → Option Int
  | .fin y => toInt ⌊y⌋
  | _ => none

/-- `static_cast<int>(std::floor(p_m(i) * bundle_resolution_inv_))` (`CN/map/abstract_map.hpp:328`) for any value of the coordinate. -/
def coordIndexF (T : Format) (r : K) (x : Fl K) : Option Int := flToInt (T.conv (Fl.mul x (bundleResolutionInvF T r)))

/-- `toBundleIndex` after the transformation into map coordinates (`CN/map/abstract_map.hpp:323-330`), for any values of the coordinates. -/
def toBundleIndexF (T : Format) (r : K) (pm : Pt (Fl K) d) : Option (Idx d) :=
  if ∀ i, (coordIndexF T r (pm i)).isSome then some fun i => (coordIndexF T r (pm i)).getD 0 else none

/-- The same for a point with finite coordinates. -/
def finiteIndexF (T : Format) (r : K) (pm : Pt K d) : Option (Idx d) := toBundleIndexF T r fun i => .fin (pm i)

/-- The loop of `insert` that collects the points per bundle (`CN/map/impl/gridmap.hpp:56-65`), as `collectR`, with the quantisation as a parameter. -/
def collectQ (q : Pt K d → Option (Idx d)) (g : Geo K d) (ok : Idx d → Bool) (pose : Pt K d → Pt K d) :
    List (Pt K d) → List (Idx d × Multiset (Pt K d)) → Option (List (Idx d × Multiset (Pt K d)))
  | [], updates => some updates
  | p :: cloud, updates =>
    let pw := pose p
    if g.normal pw then
      let pm := g.toMap pw
      (q pm).bind fun bi => collectQ q g ok pose cloud (if ok bi then upsert 0 (fun s => s + {pm}) bi updates else updates)
    else collectQ q g ok pose cloud updates

/-- `insert(points, origin)` of the NDT map (`CN/map/impl/gridmap.hpp:51-69`), as `gridInsertR`, in format `T`. Simplification: the transformed points have finite coordinates. -/
def gridInsertF {B : Backend d} (T : Format) (g : Geo K d) (dyn : Bool) (pose : Pt K d → Pt K d) (cloud : List (Pt K d))
    (st : St B (Multiset (Pt K d))) : Option (St B (Multiset (Pt K d))) :=
  (collectQ (finiteIndexF T g.r) g (st.valid dyn) pose cloud []).bind fun u => St.updateList dyn (u.map fun e => (e.1, fun s => s + e.2)) st

def gridStepF {B : Backend d} (T : Format) (g : Geo K d) (dyn : Bool) (exp : Multiset (Pt K d) → Bool) :
    GridOp K d → St B (Multiset (Pt K d)) → Option (St B (Multiset (Pt K d)))
  | .insert pose cloud, st => gridInsertF T g dyn pose cloud st
  | .core op, st => St.coreStep dyn exp op st

/-- A history of operations on a map with scalar type `T`. -/
def gridRunF {B : Backend d} (T : Format) (g : Geo K d) (dyn : Bool) (exp : Multiset (Pt K d) → Bool) :
    List (GridOp K d) → St B (Multiset (Pt K d)) → Option (St B (Multiset (Pt K d)))
  | [], st => some st
  | op :: l, st => (gridStepF T g dyn exp op st).bind (gridRunF T g dyn exp l)

variable {W E : Type} [AddCommMonoid W]

/-- The loop that collects the points per bundle (`CN/map/impl/occupancy_gridmap.hpp:63-75`, `weighted_occupancy_gridmap.hpp:59-71`), as `occCollectR`, in format `T`. -/
def occCollectF (T : Format) (fl : Flavour K d W E) (g : Geo K d) (ok : Idx d → Bool) (pose : Pt K d → Pt K d) (cloud : List (Pt K d)) : Option (List (Idx d × Multiset E)) :=
  (collectQ (finiteIndexF T g.r) g ok pose (cloud.filter fun p => g.normal p) []).map fun u => u.map fun e => (e.1, e.2.map fl.sample)

/-- `insert` (`occupancy_gridmap.hpp:57-97`, `weighted_occupancy_gridmap.hpp:53-95`), as `occInsertR`, in format `T`. -/
def occInsertF {B : Backend d} (T : Format) (fl : Flavour K d W E) (g : Geo K d) (dyn : Bool) (s : Scan K d W) (st : St B (Occ W E)) : Option (St B (Occ W E)) :=
  (occCollectF T fl g (st.valid dyn) s.pose s.cloud).bind fun updates =>
    match occHits fl dyn s.ray (rayStart g s.pose) updates [] st with
    | none => none
    | some (free, st1) => occFree dyn (s.order (if fl.eraseHits then eraseKeys updates free else free)) st1

/-- `insertVisible` (`occupancy_gridmap.hpp:108-194`, `weighted_occupancy_gridmap.hpp:106-193`), as `occInsertVisibleR`, in format `T`. -/
def occInsertVisibleF {B : Backend d} (T : Format) (fl : Flavour K d W E) (g : Geo K d) (dyn : Bool) (defRay : Pt K d → Pt K d → List (Idx d))
    (s : Scan K d W) (occ : Option (Occ W E → K)) (vm : Option (VisModel K)) (st : St B (Occ W E)) : Option (St B (Occ W E)) :=
  match occ, vm with
  | some occ, some vm =>
    (occCollectF T fl g (st.valid dyn) s.pose s.cloud).bind fun updates =>
    (finiteIndexF T g.r (rayStart g s.pose)).bind fun startBi =>
      match visHits fl dyn s.ray occ vm (rayStart g s.pose) startBi updates [] st with
      | none => none
      | some (none, st1) => some st1
      | some (some free, st1) => occFree dyn (s.order (eraseKeys updates free)) st1
  | _, _ => occInsertF T fl g dyn (if fl.fallbackDefault then { s with ray := defRay } else s) st

def occStepF {B : Backend d} (T : Format) (fl : Flavour K d W E) (g : Geo K d) (dyn : Bool) (defRay : Pt K d → Pt K d → List (Idx d))
    (exp : Occ W E → Bool) : OccMapOp K d W E → St B (Occ W E) → Option (St B (Occ W E))
  | .insert s, st => occInsertF T fl g dyn s st
  | .insertVisible s occ vm, st => occInsertVisibleF T fl g dyn defRay s occ vm st
  | .core op, st => St.coreStep dyn exp op st

/-- A history of operations on an occupancy map with scalar type `T`. -/
def occRunF {B : Backend d} (T : Format) (fl : Flavour K d W E) (g : Geo K d) (dyn : Bool) (defRay : Pt K d → Pt K d → List (Idx d))
    (exp : Occ W E → Bool) : List (OccMapOp K d W E) → St B (Occ W E) → Option (St B (Occ W E))
  | [], st => some st
  | op :: l, st => (occStepF T fl g dyn defRay exp op st).bind (occRunF T fl g dyn defRay exp l)

end
end Ndt
