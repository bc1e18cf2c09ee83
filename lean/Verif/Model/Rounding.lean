import Verif.Model.Gridmap
import Mathlib.Data.Int.Log
import Mathlib.Algebra.Order.Field.Power
import Mathlib.Algebra.Order.Ring.Abs

/-!
Quantisation of points with rounded arithmetic (C77).

The other files compute with exact numbers. Here the two rounded operations on the way from a point in map coordinates to a bundle index, and the conversion to `int`, are modelled:
`CN/map/abstract_map.hpp:66-67, 323-330`. The transformations of points are arbitrary functions in all files (assumption A5), so their rounding needs no model.
-/

namespace Ndt

/-- A rounding of exact results to a floating-point type: monotone, with relative error at most `u`. Simplification: underflow and overflow of finite results are not
modelled. -/
structure Rounding (K : Type) [Field K] [LinearOrder K] where
  rnd : K → K
  u : K
  nonneg : 0 ≤ u
  mono : ∀ x y, x ≤ y → rnd x ≤ rnd y
  err : ∀ x, |rnd x - x| ≤ u * |x|

section ieee
variable {K : Type} [Field K] [LinearOrder K] [FloorRing K]

/-- Rounding to the nearest integer, ties to even (IEEE 754-2008, 4.3.1). -/
def nearestEven (y : K) : Int :=
  if 2 * (y - ⌊y⌋) < 1 then ⌊y⌋
  else if 1 < 2 * (y - ⌊y⌋) then ⌊y⌋ + 1
  else if ⌊y⌋ % 2 = 0 then ⌊y⌋ else ⌊y⌋ + 1

/-- Weight of the last of `t` significant bits of `x`. -/
def lastBit (t : Nat) (x : K) : K := (2 : K) ^ (Int.log 2 |x| + 1 - (t : Int))

/-- IEEE 754 rounding to `t` significant bits, nearest with ties to even: `float` is `t = 24`, `double` is `t = 53`. Simplification: no bounds on exponents. -/
def toBits (t : Nat) (x : K) : K :=
  if x < 0 then -((nearestEven (-x / lastBit t x) : K) * lastBit t x)
  else (nearestEven (x / lastBit t x) : K) * lastBit t x

end ieee

section
variable {K : Type} [Field K] [LinearOrder K] [FloorRing K] {d : Nat}

/-- The arithmetic of a map with scalar type `T`: `T` rounds to `T`, and `D` to `double`. The literals `0.5` and `1.0` are doubles, so for `T = float` the members are computed in
double and then converted to `float`. -/
structure Arith (K : Type) [Field K] [LinearOrder K] where
  T : Rounding K
  D : Rounding K

/-- `bundle_resolution_` (`CN/map/abstract_map.hpp:66`). -/
def bundleResolutionR (R : Arith K) (r : K) : K := R.T.rnd (R.D.rnd (1 / 2 * r))

/-- `bundle_resolution_inv_` (`CN/map/abstract_map.hpp:67`). -/
def bundleResolutionInvR (R : Arith K) (r : K) : K := R.T.rnd (R.D.rnd (1 / bundleResolutionR R r))

/-- `static_cast<int>` of an integral floating-point value: undefined out of the range of `int` ([conv.fpint]). -/
def toInt (n : Int) : Option Int := if -2147483648 ≤ n ∧ n < 2147483648 then some n else none

/-- `static_cast<int>(std::floor(p_m(i) * bundle_resolution_inv_))` (`CN/map/abstract_map.hpp:328`); `std::floor` is exact. -/
def coordIndexR (R : Arith K) (r : K) (x : K) : Option Int := toInt ⌊R.T.rnd (x * bundleResolutionInvR R r)⌋

/-- `toBundleIndex` after the transformation into map coordinates (`CN/map/abstract_map.hpp:323-330`); `none` if a coordinate leaves the range of `int`. -/
def toBundleIndexR (R : Arith K) (r : K) (pm : Pt K d) : Option (Idx d) :=
  if ∀ i, (coordIndexR R r (pm i)).isSome then some fun i => (coordIndexR R r (pm i)).getD 0 else none

/-- The loop of `insert` that collects the points per bundle (`CN/map/impl/gridmap.hpp:56-65`), as `collect`, with rounded quantisation. -/
def collectR (R : Arith K) (g : Geo K d) (ok : Idx d → Bool) (pose : Pt K d → Pt K d) :
    List (Pt K d) → List (Idx d × Multiset (Pt K d)) → Option (List (Idx d × Multiset (Pt K d)))
  | [], updates => some updates
  | p :: cloud, updates =>
    let pw := pose p
    if g.normal pw then
      let pm := g.toMap pw
      (toBundleIndexR R g.r pm).bind fun bi =>
        collectR R g ok pose cloud (if ok bi then upsert 0 (fun s => s + {pm}) bi updates else updates)
    else collectR R g ok pose cloud updates

/-- `insert(points, origin)` of the NDT map (`CN/map/impl/gridmap.hpp:51-69`), as `gridInsert`, with rounded quantisation. -/
def gridInsertR {B : Backend d} (R : Arith K) (g : Geo K d) (dyn : Bool) (pose : Pt K d → Pt K d) (cloud : List (Pt K d))
    (st : St B (Multiset (Pt K d))) : Option (St B (Multiset (Pt K d))) :=
  (collectR R g (st.valid dyn) pose cloud []).bind fun u => St.updateList dyn (u.map fun e => (e.1, fun s => s + e.2)) st

def gridStepR {B : Backend d} (R : Arith K) (g : Geo K d) (dyn : Bool) (exp : Multiset (Pt K d) → Bool) :
    GridOp K d → St B (Multiset (Pt K d)) → Option (St B (Multiset (Pt K d)))
  | .insert pose cloud, st => gridInsertR R g dyn pose cloud st
  | .core op, st => St.coreStep dyn exp op st

/-- A history of operations on a map with rounded quantisation. -/
def gridRunR {B : Backend d} (R : Arith K) (g : Geo K d) (dyn : Bool) (exp : Multiset (Pt K d) → Bool) :
    List (GridOp K d) → St B (Multiset (Pt K d)) → Option (St B (Multiset (Pt K d)))
  | [], st => some st
  | op :: l, st => (gridStepR R g dyn exp op st).bind (gridRunR R g dyn exp l)

/-- `get(p_w)` (`CN/map/generic_map.hpp:129-136, 259-263`): the bundle a world point belongs to, the inner `none` is a null pointer. -/
def lookupR {B : Backend d} {E : Type} (R : Arith K) (g : Geo K d) (dyn : Bool) (pw : Pt K d) (st : St B E) : Option (Option Bundle) :=
  (toBundleIndexR R g.r (g.toMap pw)).bind fun bi => St.getBundle dyn bi st

end
end Ndt
