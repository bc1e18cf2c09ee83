import Verif.Model.Gridmap
import Verif.Model.Occupancy

/-!
Model of sampling: `CN/utility/bilinear_interpolation.hpp` and the `sampleNonNormalized*` functions of the map classes.

The density of a distribution and the occupancy are arbitrary functions here; the theorems quantify over them.
-/

namespace Ndt

section weights
variable {K : Type} [Field K]

/-- `get_bilinear_interpolation_weights(i, p, res_inv)` (`CN/utility/bilinear_interpolation.hpp:16-28`); `p` in map coordinates. The out-of-range alternative
`c >= D` does not occur, the counter sequence being `0 … D-1`. -/
def interpolationWeights {d : Nat} (i : Idx d) (p : Pt K d) (resInv : K) : Fin d → K :=
  fun c => if i c % 2 ≠ 0 then p c * resInv - (i c : K) else 1 - (p c * resInv - (i c : K))

/-- `to_bilinear_interpolation_weight_inner` (`CN/utility/bilinear_interpolation.hpp:40-44`) -/
def interpolationWeightInner (w : K) (counter dimension : Nat) : K :=
  if (counter / twoPow dimension) &&& 1 ≠ 0 then w else 1 - w

/-- `to_bilinear_interpolation_weight(w, counter)` (`CN/utility/bilinear_interpolation.hpp:47-70`): the product over the dimensions -/
def interpolationWeight {d : Nat} (w : Fin d → K) (counter : Nat) : K :=
  ((List.finRange d).map fun i => interpolationWeightInner (w i) counter i.1).foldl (· * ·) 1

/-- `div_count` (`CN/map/abstract_map.hpp:44`) -/
def divCount (K : Type) [Field K] (d : Nat) : K := 1 / (twoPow d : K)

end weights

namespace St
variable {d : Nat} {B : Backend d} {D : Type} {K : Type} [Field K]

/-- `evaluate` of the sampling functions: the loop over the bins (`CN/map/impl/gridmap.hpp:129-134, 171-176`); `w` is the factor of a bin, `f` the value of the sample at the
given point (the null pointer has value 0). -/
def evaluate (w : Nat → K) (f : D → K) (b : Bundle) (st : St B D) : K :=
  (List.range (twoPow d)).foldl (fun retval i => retval + w i * (match b.data i with
    | none => 0
    | some a => f (st.heap a))) 0

/-- the common part of all sampling functions: validity, storage access, null bundle (`CN/map/impl/gridmap.hpp:108-116, 147-156`); the result `none` is the
outcome "out of contract" -/
def sampleWith (dyn : Bool) (w : Nat → K) (f : D → K) (bi : Idx d) (st : St B D) : Option K :=
  if st.valid dyn bi then
    if B.ok st.bundles bi then
      match B.get st.bundles bi with
      | none => some 0
      | some b => some (evaluate w f b st)
    else none
  else some 0

/-- `Map::sampleNonNormalized(p, bi)` of NDT maps (`CN/map/impl/gridmap.hpp:108-137`); `p` in map coordinates, `dens` is `sampleNonNormalized` of a distribution -/
def sampleNN (dyn : Bool) (dens : D → Pt K d → K) (p : Pt K d) (bi : Idx d) (st : St B D) : Option K :=
  sampleWith dyn (fun _ => divCount K d) (fun s => dens s p) bi st

/-- `Map::sampleNonNormalizedBilinear(p, bi)` of NDT maps (`CN/map/impl/gridmap.hpp:147-178`) -/
def sampleBilinear (r : K) (dyn : Bool) (dens : D → Pt K d → K) (p : Pt K d) (bi : Idx d) (st : St B D) : Option K :=
  sampleWith dyn (interpolationWeight (interpolationWeights bi p (bundleResolutionInv r))) (fun s => dens s p) bi st

section points
variable [LinearOrder K] [FloorRing K]

/-- `Map::sampleNonNormalized(p)` (`CN/map/impl/gridmap.hpp:100-106`); `p` in world coordinates -/
def sampleNNAt (g : Geo K d) (dyn : Bool) (dens : D → Pt K d → K) (p : Pt K d) (st : St B D) : Option K :=
  sampleNN dyn dens (g.toMap p) (toBundleIndex g.r (g.toMap p)) st

/-- `Map::sampleNonNormalizedBilinear(p)` (`CN/map/impl/gridmap.hpp:139-145`) -/
def sampleBilinearAt (g : Geo K d) (dyn : Bool) (dens : D → Pt K d → K) (p : Pt K d) (st : St B D) : Option K :=
  sampleBilinear g.r dyn dens (g.toMap p) (toBundleIndex g.r (g.toMap p)) st

end points

section occupancy
variable {W E : Type}

/-- the `sample` lambda of occupancy maps (`CN/map/impl/occupancy_gridmap.hpp:265-272, 314-321`, `weighted_occupancy_gridmap.hpp` likewise): density times occupancy, 0
without a distribution -/
def occValue (dens : Multiset E → Pt K d → K) (occ : Occ W E → K) (p : Pt K d) (o : Occ W E) : K :=
  match o.data with
  | none => 0
  | some s => dens s p * occ o

/-- `sampleNonNormalized(p, bi, ivm)` of (weighted) occupancy maps (`CN/map/impl/occupancy_gridmap.hpp:251-281`, `weighted_occupancy_gridmap.hpp` likewise): throws for a null inverse model;
`occ m` is `getOccupancy` with the inverse model `m`. -/
def occSampleNN {M : Type} (dyn : Bool) (dens : Multiset E → Pt K d → K) (occ : M → Occ W E → K) (p : Pt K d) (bi : Idx d) (ivm : Option M)
    (st : St B (Occ W E)) : Except String (Option K) :=
  match ivm with
  | none => .error "[OccupancyGridMap]: inverse model not set"
  | some m => .ok (sampleWith dyn (fun _ => divCount K d) (occValue dens (occ m) p) bi st)

/-- `sampleNonNormalizedBilinear(p, bi, ivm)` of (weighted) occupancy maps (`CN/map/impl/occupancy_gridmap.hpp:291-337`) -/
def occSampleBilinear {M : Type} (r : K) (dyn : Bool) (dens : Multiset E → Pt K d → K) (occ : M → Occ W E → K) (p : Pt K d) (bi : Idx d) (ivm : Option M)
    (st : St B (Occ W E)) : Except String (Option K) :=
  match ivm with
  | none => .error "[OccupancyGridMap]: inverse model not set"
  | some m => .ok (sampleWith dyn (interpolationWeight (interpolationWeights bi p (bundleResolutionInv r))) (occValue dens (occ m) p) bi st)

variable [LinearOrder K] [FloorRing K]

/-- `sampleNonNormalized(p, ivm)` (`CN/map/impl/occupancy_gridmap.hpp:243-249`) -/
def occSampleNNAt {M : Type} (g : Geo K d) (dyn : Bool) (dens : Multiset E → Pt K d → K) (occ : M → Occ W E → K) (p : Pt K d) (ivm : Option M)
    (st : St B (Occ W E)) : Except String (Option K) :=
  occSampleNN dyn dens occ (g.toMap p) (toBundleIndex g.r (g.toMap p)) ivm st

/-- `sampleNonNormalizedBilinear(p, ivm)` (`CN/map/impl/occupancy_gridmap.hpp:283-289`) -/
def occSampleBilinearAt {M : Type} (g : Geo K d) (dyn : Bool) (dens : Multiset E → Pt K d → K) (occ : M → Occ W E → K) (p : Pt K d) (ivm : Option M)
    (st : St B (Occ W E)) : Except String (Option K) :=
  occSampleBilinear g.r dyn dens occ (g.toMap p) (toBundleIndex g.r (g.toMap p)) ivm st

end occupancy
end St
end Ndt
