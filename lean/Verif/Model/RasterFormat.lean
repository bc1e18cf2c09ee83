import Verif.Model.RasterRounded
import Verif.Model.OccFormat

/-!
Rasterisation of 2D maps in a floating-point format with bounded exponents (C119): the loops of `Model/RasterRounded.lean` once more, now with subnormal numbers, infinities and NaN, with the conversions to `int` and `std::size_t`
that are undefined out of range, and with the `int` arithmetic of the indices of the cells. Simplifications: the sign of a zero is not modelled (a quotient by zero is out of the range of both integer types with either sign); the
allocation of the target (external code) succeeds.
-/

namespace Ndt

section
variable {K : Type} [Field K] [LinearOrder K] [FloorRing K] {B : Backend 2} {D V : Type}

/-- IEEE 754 division on special values -/
def Fl.div : Fl K → Fl K → Fl K
  | .nan, _ => .nan
  | _, .nan => .nan
  | .inf _, .inf _ => .nan
  | .inf a, .fin y => .inf (a != decide (y < 0))
  | .fin _, .inf _ => .fin 0
  | .fin x, .fin y => if y = 0 then (if x = 0 then .nan else .inf (decide (x < 0))) else .fin (x / y)

/-- `a / b` in the format -/
def Format.div (T : Format) (a b : Fl K) : Fl K := T.conv (Fl.div a b)

/-- `static_cast<int>(y)`: truncation towards zero; undefined for NaN, infinities and values out of the range of `int` ([conv.fpint]). -/
def flTrunc : Fl K → Option Int
  | .fin y => toInt (if y < 0 then ⌈y⌉ else ⌊y⌋)
  | _ => none

/-- `std::ceil(y)` converted to the parameter of type `std::size_t` of the constructor of the target: undefined for NaN, infinities and values out of the range of `std::size_t`. -/
def flCeilSize : Fl K → Option Nat
  | .fin y => if 0 ≤ ⌈y⌉ ∧ ⌈y⌉ < 18446744073709551616 then some ⌈y⌉.toNat else none
  | _ => none

/-- `chunk_step` (`C2/conversion/probability_gridmap.hpp:45-46`, and the identical lines of `likelihood_field_gridmap.hpp`, `distance_gridmap.hpp`, `binary_gridmap.hpp`) for any sampling resolution -/
def chunkStepF (T : Format) (r : K) (s : Fl K) : Option Int := flTrunc (T.div (bundleResolutionF T r) s)

/-- `std::ceil(src.getWidth() / sampling_resolution)` (`C2/conversion/probability_gridmap.hpp:41-42`, `CN/map/abstract_map.hpp:185-193`): `int` arithmetic for the number of bundles, which is then converted to `T` -/
def rasterExtentF (T : Format) (r : K) (s : Fl K) (st : St B D) (a : Fin 2) : Option Nat :=
  match intSub (st.maxB a) (st.minB a) with
  | none => none
  | some x => if x + 1 ≤ 2147483647 then flCeilSize (T.div (T.mul (T.round ((x + 1 : Int) : K)) (bundleResolutionF T r)) s) else none

/-- one coordinate of the sampled point (`C2/conversion/probability_gridmap.hpp:55-56`) -/
def samplePosF (T : Format) (r : K) (s : Fl K) (b : Int) (k : Nat) : Fl K :=
  T.add (T.mul (T.round (b : K)) (bundleResolutionF T r)) (T.mul (T.round (k : K)) s)

/-- one component of `w` (`C2/conversion/probability_gridmap.hpp:60-64`) -/
def chunkWeightF (K : Type) [Field K] [LinearOrder K] [FloorRing K] (T : Format) (b : Int) (k n : Nat) : Fl K :=
  if b % 2 ≠ 0 then T.div (T.round (k : K)) (T.round (n : K)) else T.sub (.fin 1) (T.div (T.round (k : K)) (T.round (n : K)))

/-- `(bi[0] - min_bi[0]) * chunk_step + k` (`C2/conversion/probability_gridmap.hpp:57-58`): three operations on `int`; `none` is a signed overflow -/
def cellIndexF (lo b : Int) (n k : Nat) : Option Int :=
  (intSub b lo).bind fun x => (toInt (x * (n : Int))).bind fun y => toInt (y + (k : Int))

/-- the writes for one bundle (`C2/conversion/probability_gridmap.hpp:53-70`), one after the other; `none` is a signed overflow in one of the indices -/
def rasterCellsF (T : Format) (r : K) (s : Fl K) (n : Nat) (lo bi : Idx 2) (val : Pt (Fl K) 2 → (Fin 2 → Fl K) → V) : List (Option (List (Int × Int × V))) :=
  (List.range n).flatMap fun (k : Nat) => (List.range n).map fun (l : Nat) =>
    (cellIndexF (lo 0) (bi 0) n k).bind fun u => (cellIndexF (lo 1) (bi 1) n l).map fun v =>
      [(u, v, val ![samplePosF T r s (bi 0) k, samplePosF T r s (bi 1) l] ![chunkWeightF K T (bi 0) k n, chunkWeightF K T (bi 1) l n])]

/-- all writes, in the order of `traverse` (`C2/conversion/probability_gridmap.hpp:51-73`) -/
def rasterWritesF (T : Format) (r : K) (s : Fl K) (n : Nat) (val : Bundle → Pt (Fl K) 2 → (Fin 2 → Fl K) → V) (st : St B D) : List (Option (List (Int × Int × V))) :=
  (B.traverse st.bundles).flatMap fun e => rasterCellsF T r s n st.minB e.1 (val e.2)

/-- the raster part of all conversions (`C2/conversion/probability_gridmap.hpp:37-74`) for any sampling resolution; `none` is undefined behaviour: a conversion or an `int` operation out of range, or a write outside of the target.
A negative `chunk_step` enters none of the loops. -/
def rasterizeF (T : Format) (r : K) (s : Fl K) (dflt : V) (val : Bundle → Pt (Fl K) 2 → (Fin 2 → Fl K) → V) (st : St B D) : Option (Grid V) :=
  match rasterExtentF T r s st 0, rasterExtentF T r s st 1, chunkStepF T r s with
  | some w, some h, some n => Grid.perform (rasterWritesF T r s n.toNat val st) ⟨w, h, fun _ _ => dflt⟩
  | _, _, _ => none

end
end Ndt
