import Verif.Model.RasterFormat
import Verif.Model.MonoFormat

/-!
Conversion of a single-resolution map to a probability grid in a floating-point format with bounded exponents (C121): `monoToProb` of `Model/Raster.lean` once more, with rounding, infinities and NaN, and with conversions to `int` and
`std::size_t` that are undefined out of range. Simplifications: the allocation of the target (external code) succeeds; the transformation `src.getOrigin()` and the densities are arbitrary functions of values of the scalar type; the output
to `std::cerr` is not modelled.
-/

namespace Ndt

section
variable {K : Type} [Field K] [LinearOrder K] [FloorRing K] {D : Type}

/-- `std::ceil(src.getWidth() / sampling_resolution)` (`C2/conversion/probability_gridmap.hpp:189-192`, `C2/static_maps/mono_gridmap.hpp:230-238`); `n` is the number of cells of the source along the axis -/
def monoExtentF (T : Format) (r : K) (s : Fl K) (n : Nat) : Option Nat := flCeilSize (T.div (T.mul (T.round (n : K)) (.fin r)) s)

/-- `j * sampling_resolution` (`C2/conversion/probability_gridmap.hpp:205-206`) -/
def monoPosF (T : Format) (s : Fl K) (j : Nat) : Fl K := T.mul (T.round (j : K)) s

/-- `min_index[0] + static_cast<int>(p(0) / src.getResolution())` (`C2/conversion/probability_gridmap.hpp:208-209`); `none` is a conversion or a sum out of the range of `int` -/
def monoIndexF (T : Format) (r : K) (s : Fl K) (lo : Int) (j : Nat) : Option Int := (flTrunc (T.div (monoPosF T s j) (.fin r))).bind fun x => toInt (lo + x)

/-- the loops (`C2/conversion/probability_gridmap.hpp:203-216`): row by row; `none` is an undefined conversion or an access outside of the source -/
def monoWritesF (T : Format) (r : K) (s : Fl K) (tiny : K) (org : Pt (Fl K) 2 → Pt (Fl K) 2) (dens : D → Pt (Fl K) 2 → Fl K) (m : Mono 2 D) (w h : Nat) : List (Option (List (Int × Int × Fl K))) :=
  (List.range h).flatMap fun (i : Nat) => (List.range w).map fun (j : Nat) =>
    (monoIndexF T r s (m.lo 0) j).bind fun x => (monoIndexF T r s (m.lo 1) i).bind fun y =>
      (m.sampleIdx dens (org ![monoPosF T s j, monoPosF T s i]) ![x, y]).map fun v =>
        if Fl.le 0 (validateFl tiny v) then [((j : Int), (i : Int), validateFl tiny v)] else []

/-- the conversion (`C2/conversion/probability_gridmap.hpp:180-218`); `none` is undefined behaviour -/
def monoToProbF (T : Format) (r : K) (s : Fl K) (tiny : K) (org : Pt (Fl K) 2 → Pt (Fl K) 2) (dens : D → Pt (Fl K) 2 → Fl K) (m : Mono 2 D) : Option (Grid (Fl K)) :=
  match monoExtentF T r s (m.size 0), monoExtentF T r s (m.size 1) with
  | some w, some h => Grid.perform (monoWritesF T r s tiny org dens m w h) ⟨w, h, fun _ _ => 0⟩
  | _, _ => none

end
end Ndt
