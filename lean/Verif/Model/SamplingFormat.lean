import Verif.Model.SamplingRounded
import Verif.Model.Format

/-!
Sampling in a binary floating-point format with bounded exponents (C114): the functions of `Model/SamplingRounded.lean` once more, now with subnormal numbers, results that underflow to zero,
infinities and NaN. Simplifications: no contraction to fused multiply-add; the sign of a zero is not modelled; the coordinates of the sampled point are finite (for others no index exists, C96).
The density of a distribution and the occupancy of a cell are arbitrary functions, and may be NaN or infinite.
-/

namespace Ndt

section weights
variable {K : Type} [Field K] [LinearOrder K] [FloorRing K]

/-- a difference in format `T` -/
def Format.sub (T : Format) (a b : Fl K) : Fl K := T.conv (Fl.add a (Fl.neg b))

/-- `get_bilinear_interpolation_weights(i, p, res_inv)` (`CN/utility/bilinear_interpolation.hpp:16-28`), as `interpolationWeightsR` -/
def interpolationWeightsF {d : Nat} (T : Format) (i : Idx d) (p : Pt K d) (resInv : Fl K) : Fin d → Fl K :=
  fun c =>
    let pos := T.sub (T.conv (Fl.mul (.fin (p c)) resInv)) (T.round (i c : K))
    if i c % 2 ≠ 0 then pos else T.sub (.fin 1) pos

/-- `to_bilinear_interpolation_weight_inner` (`CN/utility/bilinear_interpolation.hpp:40-44`) -/
def interpolationWeightInnerF (T : Format) (w : Fl K) (counter dimension : Nat) : Fl K :=
  if (counter / twoPow dimension) &&& 1 ≠ 0 then w else T.sub (.fin 1) w

/-- `to_bilinear_interpolation_weight(w, counter)` (`CN/utility/bilinear_interpolation.hpp:47-70`): `std::accumulate` from the left -/
def interpolationWeightF {d : Nat} (T : Format) (w : Fin d → Fl K) (counter : Nat) : Fl K :=
  ((List.finRange d).map fun i => interpolationWeightInnerF T (w i) counter i.1).foldl (fun a b => T.conv (Fl.mul a b)) (.fin 1)

/-- `div_count` (`CN/map/abstract_map.hpp:44`): the quotient of the double `1.0` and a `T`, converted to `T` -/
def divCountF (K : Type) [Field K] [LinearOrder K] [FloorRing K] (T : Format) (d : Nat) : Fl K := T.conv (Format.double.recip (T.round (twoPow d : K)))

end weights

namespace St
variable {d : Nat} {B : Backend d} {D : Type} {K : Type} [Field K] [LinearOrder K] [FloorRing K]

/-- `evaluate` of the sampling functions (`CN/map/impl/gridmap.hpp:129-134, 171-176`), as `evaluateR` -/
def evaluateF (T : Format) (w : Nat → Fl K) (f : D → Fl K) (b : Bundle) (st : St B D) : Fl K :=
  (List.range (twoPow d)).foldl (fun retval i => T.conv (Fl.add retval (T.conv (Fl.mul (w i) (match b.data i with
    | none => .fin 0
    | some a => f (st.heap a)))))) (.fin 0)

/-- the common part of all sampling functions (`CN/map/impl/gridmap.hpp:108-116, 147-156`), as `sampleWithR` -/
def sampleWithF (T : Format) (dyn : Bool) (w : Nat → Fl K) (f : D → Fl K) (bi : Idx d) (st : St B D) : Option (Fl K) :=
  if st.valid dyn bi then
    if B.ok st.bundles bi then
      match B.get st.bundles bi with
      | none => some (.fin 0)
      | some b => some (evaluateF T w f b st)
    else none
  else some (.fin 0)

/-- `Map::sampleNonNormalized(p)` of NDT maps (`CN/map/impl/gridmap.hpp:100-137`), as `sampleNNAtR` -/
def sampleNNAtF (T : Format) (g : Geo K d) (dyn : Bool) (dens : D → Pt K d → Fl K) (p : Pt K d) (st : St B D) : Option (Fl K) :=
  (finiteIndexF T g.r (g.toMap p)).bind fun bi => sampleWithF T dyn (fun _ => divCountF K T d) (fun s => dens s (g.toMap p)) bi st

/-- `Map::sampleNonNormalizedBilinear(p)` of NDT maps (`CN/map/impl/gridmap.hpp:139-178`), as `sampleBilinearAtR` -/
def sampleBilinearAtF (T : Format) (g : Geo K d) (dyn : Bool) (dens : D → Pt K d → Fl K) (p : Pt K d) (st : St B D) : Option (Fl K) :=
  (finiteIndexF T g.r (g.toMap p)).bind fun bi =>
    sampleWithF T dyn (interpolationWeightF T (interpolationWeightsF T bi (g.toMap p) (bundleResolutionInvF T g.r))) (fun s => dens s (g.toMap p)) bi st

/-- the `sample` lambda of occupancy maps (`CN/map/impl/occupancy_gridmap.hpp:265-272, 314-321`, `weighted_occupancy_gridmap.hpp` likewise), as `occValueR` -/
def occValueF {W E : Type} (T : Format) (dens : Multiset E → Pt K d → Fl K) (occ : Occ W E → Fl K) (p : Pt K d) (o : Occ W E) : Fl K :=
  match o.data with
  | none => .fin 0
  | some s => T.conv (Fl.mul (dens s p) (occ o))

/-- `sampleNonNormalized(p, ivm)` of (weighted) occupancy maps (`CN/map/impl/occupancy_gridmap.hpp:243-281`), as `occSampleNNAtR` -/
def occSampleNNAtF {W E M : Type} (T : Format) (g : Geo K d) (dyn : Bool) (dens : Multiset E → Pt K d → Fl K) (occ : M → Occ W E → Fl K) (p : Pt K d) (ivm : Option M)
    (st : St B (Occ W E)) : Except String (Option (Fl K)) :=
  match finiteIndexF T g.r (g.toMap p), ivm with
  | none, _ => .ok none
  | some _, none => .error "[OccupancyGridMap]: inverse model not set"
  | some bi, some m => .ok (sampleWithF T dyn (fun _ => divCountF K T d) (occValueF T dens (occ m) (g.toMap p)) bi st)

/-- `sampleNonNormalizedBilinear(p, ivm)` of (weighted) occupancy maps (`CN/map/impl/occupancy_gridmap.hpp:283-337`), as `occSampleBilinearAtR` -/
def occSampleBilinearAtF {W E M : Type} (T : Format) (g : Geo K d) (dyn : Bool) (dens : Multiset E → Pt K d → Fl K) (occ : M → Occ W E → Fl K) (p : Pt K d) (ivm : Option M)
    (st : St B (Occ W E)) : Except String (Option (Fl K)) :=
  match finiteIndexF T g.r (g.toMap p), ivm with
  | none, _ => .ok none
  | some _, none => .error "[OccupancyGridMap]: inverse model not set"
  | some bi, some m => .ok (sampleWithF T dyn (interpolationWeightF T (interpolationWeightsF T bi (g.toMap p) (bundleResolutionInvF T g.r)))
      (occValueF T dens (occ m) (g.toMap p)) bi st)

end St
end Ndt
