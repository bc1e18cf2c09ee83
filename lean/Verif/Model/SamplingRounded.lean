import Verif.Model.Sampling
import Verif.Model.Rounding

/-!
Sampling with rounded arithmetic (C83): the same functions as `Model/Sampling.lean`, with every floating-point operation rounded to the scalar type `T` of the map.

Simplifications: no contraction to fused multiply-add, no underflow and overflow (as in `Model/Rounding.lean`). The density of a distribution and the occupancy of a cell are arbitrary functions.
-/

namespace Ndt

section weights
variable {K : Type} [Field K] [LinearOrder K]

/-- `get_bilinear_interpolation_weights(i, p, res_inv)` (`CN/utility/bilinear_interpolation.hpp:16-28`), as `interpolationWeights`: product, conversion of the index and difference are rounded. -/
def interpolationWeightsR {d : Nat} (R : Arith K) (i : Idx d) (p : Pt K d) (resInv : K) : Fin d → K :=
  fun c => if i c % 2 ≠ 0 then R.T.rnd (R.T.rnd (p c * resInv) - R.T.rnd (i c : K)) else R.T.rnd (1 - R.T.rnd (R.T.rnd (p c * resInv) - R.T.rnd (i c : K)))

/-- `to_bilinear_interpolation_weight_inner` (`CN/utility/bilinear_interpolation.hpp:40-44`) -/
def interpolationWeightInnerR (R : Arith K) (w : K) (counter dimension : Nat) : K :=
  if (counter / twoPow dimension) &&& 1 ≠ 0 then w else R.T.rnd (1 - w)

/-- `to_bilinear_interpolation_weight(w, counter)` (`CN/utility/bilinear_interpolation.hpp:47-70`): `std::accumulate` from the left -/
def interpolationWeightR {d : Nat} (R : Arith K) (w : Fin d → K) (counter : Nat) : K :=
  ((List.finRange d).map fun i => interpolationWeightInnerR R (w i) counter i.1).foldl (fun a b => R.T.rnd (a * b)) 1

/-- `div_count` (`CN/map/abstract_map.hpp:44`): the quotient of the double `1.0` and a `T`, converted to `T` -/
def divCountR (R : Arith K) (d : Nat) : K := R.T.rnd (R.D.rnd (1 / R.T.rnd (twoPow d : K)))

end weights

namespace St
variable {d : Nat} {B : Backend d} {D : Type} {K : Type} [Field K] [LinearOrder K]

/-- `evaluate` of the sampling functions (`CN/map/impl/gridmap.hpp:129-134, 171-176`), as `evaluate`: product and sum are rounded -/
def evaluateR (R : Arith K) (w : Nat → K) (f : D → K) (b : Bundle) (st : St B D) : K :=
  (List.range (twoPow d)).foldl (fun retval i => R.T.rnd (retval + R.T.rnd (w i * (match b.data i with
    | none => 0
    | some a => f (st.heap a))))) 0

/-- the common part of all sampling functions (`CN/map/impl/gridmap.hpp:108-116, 147-156`), as `sampleWith` -/
def sampleWithR (R : Arith K) (dyn : Bool) (w : Nat → K) (f : D → K) (bi : Idx d) (st : St B D) : Option K :=
  if st.valid dyn bi then
    if B.ok st.bundles bi then
      match B.get st.bundles bi with
      | none => some 0
      | some b => some (evaluateR R w f b st)
    else none
  else some 0

section points
variable [FloorRing K]

/-- `Map::sampleNonNormalized(p)` of NDT maps (`CN/map/impl/gridmap.hpp:100-137`); `p` in world coordinates. `none` is a conversion to `int` out of range, or an access out of contract. -/
def sampleNNAtR (R : Arith K) (g : Geo K d) (dyn : Bool) (dens : D → Pt K d → K) (p : Pt K d) (st : St B D) : Option K :=
  (toBundleIndexR R g.r (g.toMap p)).bind fun bi => sampleWithR R dyn (fun _ => divCountR R d) (fun s => dens s (g.toMap p)) bi st

/-- `Map::sampleNonNormalizedBilinear(p)` of NDT maps (`CN/map/impl/gridmap.hpp:139-178`) -/
def sampleBilinearAtR (R : Arith K) (g : Geo K d) (dyn : Bool) (dens : D → Pt K d → K) (p : Pt K d) (st : St B D) : Option K :=
  (toBundleIndexR R g.r (g.toMap p)).bind fun bi =>
    sampleWithR R dyn (interpolationWeightR R (interpolationWeightsR R bi (g.toMap p) (bundleResolutionInvR R g.r))) (fun s => dens s (g.toMap p)) bi st

/-- the `sample` lambda of occupancy maps (`CN/map/impl/occupancy_gridmap.hpp:265-272, 314-321`, `weighted_occupancy_gridmap.hpp` likewise), as `occValue`: the product is rounded -/
def occValueR {W E : Type} (R : Arith K) (dens : Multiset E → Pt K d → K) (occ : Occ W E → K) (p : Pt K d) (o : Occ W E) : K :=
  match o.data with
  | none => 0
  | some s => R.T.rnd (dens s p * occ o)

/-- `sampleNonNormalized(p, ivm)` of (weighted) occupancy maps (`CN/map/impl/occupancy_gridmap.hpp:243-281`): the index is computed first, then a null inverse model throws -/
def occSampleNNAtR {W E M : Type} (R : Arith K) (g : Geo K d) (dyn : Bool) (dens : Multiset E → Pt K d → K) (occ : M → Occ W E → K) (p : Pt K d) (ivm : Option M)
    (st : St B (Occ W E)) : Except String (Option K) :=
  match toBundleIndexR R g.r (g.toMap p), ivm with
  | none, _ => .ok none
  | some _, none => .error "[OccupancyGridMap]: inverse model not set"
  | some bi, some m => .ok (sampleWithR R dyn (fun _ => divCountR R d) (occValueR R dens (occ m) (g.toMap p)) bi st)

/-- `sampleNonNormalizedBilinear(p, ivm)` of (weighted) occupancy maps (`CN/map/impl/occupancy_gridmap.hpp:283-337`) -/
def occSampleBilinearAtR {W E M : Type} (R : Arith K) (g : Geo K d) (dyn : Bool) (dens : Multiset E → Pt K d → K) (occ : M → Occ W E → K) (p : Pt K d) (ivm : Option M)
    (st : St B (Occ W E)) : Except String (Option K) :=
  match toBundleIndexR R g.r (g.toMap p), ivm with
  | none, _ => .ok none
  | some _, none => .error "[OccupancyGridMap]: inverse model not set"
  | some bi, some m => .ok (sampleWithR R dyn (interpolationWeightR R (interpolationWeightsR R bi (g.toMap p) (bundleResolutionInvR R g.r)))
      (occValueR R dens (occ m) (g.toMap p)) bi st)

end points
end St
end Ndt
