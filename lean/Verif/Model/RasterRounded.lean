import Verif.Model.Raster
import Verif.Model.Rounding

/-!
Rasterisation of 2D maps with rounded arithmetic (C78): the same loops as `Model/Raster.lean`, with every floating-point operation rounded to the scalar type `T` of the map.
-/

namespace Ndt

section
variable {K : Type} [Field K] [LinearOrder K] [FloorRing K] {B : Backend 2} {D V : Type}

/-- `chunk_step = static_cast<int>(bundle_resolution / sampling_resolution)` (`C2/conversion/probability_gridmap.hpp:45-46`, and the identical lines of `likelihood_field_gridmap.hpp`, `distance_gridmap.hpp`,
`binary_gridmap.hpp`); the number is positive, so truncation is the floor. `none` is the undefined conversion out of the range of `int`. -/
def chunkStepR (R : Arith K) (r s : K) : Option Nat := (toInt ⌊R.T.rnd (bundleResolutionR R r / s)⌋).map Int.toNat

/-- `std::ceil(src.getWidth() / sampling_resolution)` for `x` bundles (`C2/conversion/probability_gridmap.hpp:41-42`, `CN/map/abstract_map.hpp:185-193`): the `int` is converted to `T`, multiplied and divided.
Simplification: the conversion of the result to `std::size_t` is exact. -/
def extentR (R : Arith K) (r s : K) (x : Int) : Nat := ⌈R.T.rnd (R.T.rnd (R.T.rnd (x : K) * bundleResolutionR R r) / s)⌉.toNat

/-- the extent of a map (`C2/conversion/probability_gridmap.hpp:41-42`), as `rasterExtent`: `none` is a signed overflow -/
def rasterExtentR (R : Arith K) (r s : K) (st : St B D) (a : Fin 2) : Option Nat :=
  match intSub (st.maxB a) (st.minB a) with
  | none => none
  | some x => if x + 1 ≤ 2147483647 then some (extentR R r s (x + 1)) else none

/-- one coordinate of the sampled point (`C2/conversion/probability_gridmap.hpp:55-56`) -/
def samplePosR (R : Arith K) (r s : K) (b : Int) (k : Nat) : K :=
  R.T.rnd (R.T.rnd (R.T.rnd (b : K) * bundleResolutionR R r) + R.T.rnd (R.T.rnd (k : K) * s))

/-- one component of `w` (`C2/conversion/probability_gridmap.hpp:60-64`) -/
def chunkWeightR (R : Arith K) (b : Int) (k n : Nat) : K :=
  if b % 2 ≠ 0 then R.T.rnd (R.T.rnd (k : K) / R.T.rnd (n : K)) else R.T.rnd (1 - R.T.rnd (R.T.rnd (k : K) / R.T.rnd (n : K)))

/-- the writes for one bundle (`C2/conversion/probability_gridmap.hpp:53-70`), as `rasterCells` -/
def rasterCellsR (R : Arith K) (r s : K) (n : Nat) (lo bi : Idx 2) (val : Pt K 2 → (Fin 2 → K) → V) : List (Int × Int × V) :=
  (List.range n).flatMap fun (k : Nat) => (List.range n).map fun (l : Nat) =>
    ((bi 0 - lo 0) * (n : Int) + (k : Int), (bi 1 - lo 1) * (n : Int) + (l : Int),
      val ![samplePosR R r s (bi 0) k, samplePosR R r s (bi 1) l] ![chunkWeightR R (bi 0) k n, chunkWeightR R (bi 1) l n])

/-- all writes, in the order of `traverse` (`C2/conversion/probability_gridmap.hpp:51-73`), as `rasterWrites` -/
def rasterWritesR (R : Arith K) (r s : K) (n : Nat) (val : Bundle → Pt K 2 → (Fin 2 → K) → V) (st : St B D) : List (Int × Int × V) :=
  (B.traverse st.bundles).flatMap fun e => rasterCellsR R r s n st.minB e.1 (val e.2)

/-- the raster part of all conversions (`C2/conversion/probability_gridmap.hpp:37-74`), as `rasterize`: `none` is a write outside of the target or a signed overflow -/
def rasterizeR (R : Arith K) (r s : K) (dflt : V) (val : Bundle → Pt K 2 → (Fin 2 → K) → V) (st : St B D) : Option (Grid V) :=
  match rasterExtentR R r s st 0, rasterExtentR R r s st 1, chunkStepR R r s with
  | some w, some h, some n => Grid.writeAll (rasterWritesR R r s n val st) ⟨w, h, fun _ _ => dflt⟩
  | _, _, _ => none

end
end Ndt
