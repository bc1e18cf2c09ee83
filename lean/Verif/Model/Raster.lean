import Verif.Model.Sampling
import Verif.Model.Mono
import Verif.Model.Float
import Mathlib.Data.Fin.VecNotation
import Mathlib.Analysis.Complex.Exponential

/-!
Model of the rasterisation of 2D maps: `C2/conversion/probability_gridmap.hpp`, and the identical loops of `likelihood_field_gridmap.hpp`, `distance_gridmap.hpp` and `binary_gridmap.hpp`.
-/

namespace Ndt

/-- A target grid of cslibs_gridmaps: width, height and cells (external code). -/
structure Grid (V : Type) where
  width : Nat
  height : Nat
  cells : Nat → Nat → V

/-- `dst->at(u,v) = x`; `u`, `v` outside of the grid (also by the conversion of a negative number to `std::size_t`) are the outcome "out of range" -/
def Grid.write {V : Type} (u v : Int) (x : V) (g : Grid V) : Option (Grid V) :=
  if 0 ≤ u ∧ u < g.width ∧ 0 ≤ v ∧ v < g.height then
    some { g with cells := fun i j => if (i : Int) = u ∧ (j : Int) = v then x else g.cells i j }
  else none

def Grid.writeAll {V : Type} : List (Int × Int × V) → Grid V → Option (Grid V)
  | [], g => some g
  | (u, v, x) :: l, g => (g.write u v x).bind (Grid.writeAll l)

section
variable {K : Type} [Field K] [LinearOrder K] [FloorRing K] {B : Backend 2} {D V : Type}

/-- `std::ceil(src.getWidth() / sampling_resolution)` resp. height (`C2/conversion/probability_gridmap.hpp:41-42`, `CN/map/abstract_map.hpp:185-193`): `max - min + 1` in `int` arithmetic;
`none` is the undefined behaviour of a signed overflow -/
def rasterExtent (r s : K) (st : St B D) (a : Fin 2) : Option Nat :=
  match intSub (st.maxB a) (st.minB a) with
  | none => none
  | some x => if x + 1 ≤ 2147483647 then some ⌈((x + 1 : Int) : K) * bundleResolution r / s⌉.toNat else none

/-- `chunk_step` (`C2/conversion/probability_gridmap.hpp:46`): truncation of a positive number -/
def chunkStep (r s : K) : Nat := ⌊bundleResolution r / s⌋.toNat

/-- one component of `w` (`C2/conversion/probability_gridmap.hpp:60-64`) -/
def chunkWeight (b : Int) (k n : Nat) : K := if b % 2 ≠ 0 then (k : K) / (n : K) else 1 - (k : K) / (n : K)

/-- the writes for one bundle (`C2/conversion/probability_gridmap.hpp:53-70`); `val p w` is the value sampled at `p` resp. with the weights `w`. Indices are exact integers. -/
def rasterCells (r s : K) (lo bi : Idx 2) (val : Pt K 2 → (Fin 2 → K) → V) : List (Int × Int × V) :=
  let n : Nat := chunkStep r s
  (List.range n).flatMap fun (k : Nat) => (List.range n).map fun (l : Nat) =>
    ((bi 0 - lo 0) * (n : Int) + (k : Int), (bi 1 - lo 1) * (n : Int) + (l : Int),
      val ![(bi 0 : K) * bundleResolution r + (k : K) * s, (bi 1 : K) * bundleResolution r + (l : K) * s] ![chunkWeight (bi 0) k n, chunkWeight (bi 1) l n])

/-- all writes, in the order of `traverse` (`C2/conversion/probability_gridmap.hpp:51-73`, `likelihood_field_gridmap.hpp:47-70`, `distance_gridmap.hpp`, `binary_gridmap.hpp:51-65`); `val b p w` is the value computed from
the bundle `b` -/
def rasterWrites (r s : K) (val : Bundle → Pt K 2 → (Fin 2 → K) → V) (st : St B D) : List (Int × Int × V) :=
  (B.traverse st.bundles).flatMap fun e => rasterCells r s st.minB e.1 (val e.2)

/-- the raster part of all conversions, with the default value `dflt` and without `allocate_all` (`C2/conversion/probability_gridmap.hpp:37-74`); with `allocate_all` it is preceded by the core operation `expandAll`. -/
def rasterize (r s : K) (dflt : V) (val : Bundle → Pt K 2 → (Fin 2 → K) → V) (st : St B D) : Option (Grid V) :=
  match rasterExtent r s st 0, rasterExtent r s st 1 with
  | some w, some h => Grid.writeAll (rasterWrites r s val st) ⟨w, h, fun _ _ => dflt⟩
  | _, _ => none

/-- the sampled value, `sampleNonNormalized(p, &b)` resp. `sampleNonNormalizedBilinear(p, w, &b)` (`C2/conversion/probability_gridmap.hpp:59-68`, `CN/map/impl/gridmap.hpp:118-137, 158-178`); `f` is the value of an object at a
point: the density, resp. density times occupancy for occupancy maps. `bil` is the flag `bilinear`. -/
def probValue (bil : Bool) (f : D → Pt K 2 → K) (st : St B D) (b : Bundle) (p : Pt K 2) (w : Fin 2 → K) : K :=
  St.evaluate (if bil then interpolationWeight w else fun _ => divCount K 2) (fun x => f x p) b st

/-- conversion to a probability grid (`C2/conversion/probability_gridmap.hpp:26-74`) -/
def toProb (r s : K) (dflt : K) (bil : Bool) (f : D → Pt K 2 → K) (st : St B D) : Option (Grid K) := rasterize r s dflt (probValue bil f st) st

/-- conversion to a binary grid (`C2/conversion/binary_gridmap.hpp:18-68, 73-130`): true is `OCCUPIED` -/
def toBinary (r s threshold : K) (f : D → Pt K 2 → K) (st : St B D) : Option (Grid Bool) :=
  rasterize r s false (fun b p w => decide (threshold ≤ probValue false f st b p w)) st

/-- `evaluate` on floating-point values: the same function as `St.evaluate` (`CN/map/impl/gridmap.hpp:118-137`) -/
def evaluateFl (w : Nat → Fl K) (f : D → Fl K) (b : Bundle) (st : St B D) : Fl K :=
  (List.range (twoPow 2)).foldl (fun retval i => retval + w i * (match b.data i with
    | none => 0
    | some a => f (st.heap a))) 0

/-- conversion to a probability grid with floating-point values of the densities -/
def toProbFl (r s : K) (dflt : Fl K) (f : D → Pt K 2 → Fl K) (st : St B D) : Option (Grid (Fl K)) :=
  rasterize r s dflt (fun b p _ => evaluateFl (fun _ => .fin (divCount K 2)) (fun x => f x p) b st) st

/-- `validate` (`C2/conversion/probability_gridmap.hpp:15-21`) -/
def validateFl (tiny : K) (v : Fl K) : Fl K := if Fl.lt (.fin 1) v || !Fl.isNormal tiny v then 0 else v

/-- the writes of the conversion of a single-resolution map (`C2/conversion/probability_gridmap.hpp:202-215`): row by row; `org` is the transform `src.getOrigin()`, `r` the resolution of the source. The outer `none` is an access
outside of the source. -/
def monoWrites (r s tiny : K) (org : Pt K 2 → Pt K 2) (dens : D → Pt K 2 → Fl K) (m : Mono 2 D) (w h : Nat) : List (Option (List (Int × Int × Fl K))) :=
  (List.range h).flatMap fun (i : Nat) => (List.range w).map fun (j : Nat) =>
    let p : Pt K 2 := ![(j : K) * s, (i : K) * s]
    (m.sampleIdx dens (org p) (fun a => m.lo a + ⌊p a / r⌋)).map fun x =>
      if Fl.le 0 (validateFl tiny x) then [((j : Int), (i : Int), validateFl tiny x)] else []

/-- perform the writes of `monoWrites` -/
def Grid.perform {V : Type} : List (Option (List (Int × Int × V))) → Grid V → Option (Grid V)
  | [], g => some g
  | none :: _, _ => none
  | some l :: ls, g => (g.writeAll l).bind (Grid.perform ls)

/-- conversion of a single-resolution map to a probability grid (`C2/conversion/probability_gridmap.hpp:181-217`, `C2/static_maps/mono_gridmap.hpp:230-238`) -/
def monoToProb (r s tiny : K) (org : Pt K 2 → Pt K 2) (dens : D → Pt K 2 → Fl K) (m : Mono 2 D) : Option (Grid (Fl K)) :=
  let w := ⌈(m.size 0 : K) * r / s⌉.toNat
  let h := ⌈(m.size 1 : K) * r / s⌉.toNat
  Grid.perform (monoWrites r s tiny org dens m w h) ⟨w, h, fun _ _ => 0⟩

end

/-- A 2D pose: rotation by the matrix `(c, -s; s, c)` and translation (external code: `cslibs_math_2d::Transform2d`, assumption A5). -/
structure Pose2 (K : Type) where
  c : K
  s : K
  t : Pt K 2

/-- `T * p` of cslibs_math_2d -/
def Pose2.apply {K : Type} [Field K] (T : Pose2 K) (p : Pt K 2) : Pt K 2 := ![T.c * p 0 - T.s * p 1 + T.t 0, T.s * p 0 + T.c * p 1 + T.t 1]

/-- `getOrigin()` (`CN/map/abstract_map.hpp:149-154`): the minimum is added to the translation without rotating it -/
def getOrigin {K : Type} [Field K] {B : Backend 2} {D : Type} (r : K) (T : Pose2 K) (st : St B D) : Pose2 K :=
  { T with t := fun a => T.t a + st.getMin r a }

/-- the last step of the conversion to a likelihood field (`C2/conversion/likelihood_field_gridmap.hpp:31, 76-80`): from the distance `z` to the likelihood -/
noncomputable def likelihood (sigma z : ℝ) : ℝ := Real.exp (-z * z * (1 / 2 / (sigma * sigma)))

/-- conversion to a likelihood field (`C2/conversion/likelihood_field_gridmap.hpp:18-80`); `dt` is the distance transform of cslibs_gridmaps (external code: an arbitrary function on the data) -/
noncomputable def toLikelihood {B : Backend 2} {D : Type} (r s sigma : ℝ) (bil : Bool) (dt : Grid ℝ → Nat → Nat → ℝ) (f : D → Pt ℝ 2 → ℝ) (st : St B D) : Option (Grid ℝ) :=
  (toProb r s 0 bil f st).map fun G => { G with cells := fun u v => likelihood sigma (dt G u v) }

end Ndt
