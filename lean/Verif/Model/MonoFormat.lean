import Verif.Model.Mono
import Verif.Model.Format

/-!
The single-resolution map in a binary floating-point format with bounded exponents (C115): the functions of `Model/Mono.lean` that compute with coordinates once more, with rounding, underflow, infinities
and NaN. The transformation between world and map is an arbitrary function of points with arbitrary values of the scalar type, NaN included. Simplification: the sign of a zero is not modelled.
-/

namespace Ndt
namespace Mono
section
variable {K : Type} [Field K] [LinearOrder K] [FloorRing K] {d : Nat} {D : Type}

/-- `resolution_inv_` (`C2/static_maps/mono_gridmap.hpp:53, 75`): `1.0 / resolution_` is a `double`, converted to `T` -/
def resolutionInvF (T : Format) (r : K) : Fl K := T.conv (Format.double.recip (.fin r))

/-- `static_cast<int>(std::floor(p_m(i) * resolution_inv_))` (`C2/static_maps/mono_gridmap.hpp:273-274, 305-306`) -/
def coordF (T : Format) (r : K) (x : Fl K) : Option Int := flToInt (T.conv (Fl.mul x (resolutionInvF T r)))

/-- both coordinates; `none` if the conversion of one of them is undefined -/
def indexF (T : Format) (r : K) (p : Pt (Fl K) d) : Option (Idx d) :=
  if ∀ a, (coordF T r (p a)).isSome then some fun a => (coordF T r (p a)).getD 0 else none

/-- `validate(p_w)` (`C2/static_maps/mono_gridmap.hpp:270-277`); `tm` is the multiplication with `m_T_w_` -/
def validateF (T : Format) (r : K) (tm : Pt (Fl K) d → Pt (Fl K) d) (p : Pt (Fl K) d) (m : Mono d D) : Option Bool := (indexF T r (tm p)).map m.accepts

/-- `toIndex(p_w, index)` (`C2/static_maps/mono_gridmap.hpp:301-309`): the inner `none` is the result false -/
def toIndexF (T : Format) (r : K) (tm : Pt (Fl K) d → Pt (Fl K) d) (p : Pt (Fl K) d) (m : Mono d D) : Option (Option (Idx d)) :=
  (indexF T r (tm p)).map fun i => if m.accepts i then some i else none

/-- `insert(p)` (`C2/static_maps/mono_gridmap.hpp:168-177`); unlike the insertions of NDT maps it does not test the point for being normal -/
def insertF (T : Format) (r : K) (tm : Pt (Fl K) d → Pt (Fl K) d) (p : Pt (Fl K) d) (m : Mono d (Multiset (Pt (Fl K) d))) : Option (Mono d (Multiset (Pt (Fl K) d))) :=
  (m.toIndexF T r tm p).bind fun
    | none => some m
    | some i => (m.getAllocate i).map (modify i fun s => s + {p})

/-- a sequence of insertions -/
def insertAllF (T : Format) (r : K) (tm : Pt (Fl K) d → Pt (Fl K) d) : List (Pt (Fl K) d) → Mono d (Multiset (Pt (Fl K) d)) → Option (Mono d (Multiset (Pt (Fl K) d)))
  | [], m => some m
  | p :: l, m => (m.insertF T r tm p).bind (insertAllF T r tm l)

/-- `sample(p)` resp. `sampleNonNormalized(p)` (`C2/static_maps/mono_gridmap.hpp:179-205`) -/
def sampleF {V : Type} [Zero V] (T : Format) (r : K) (tm : Pt (Fl K) d → Pt (Fl K) d) (dens : D → Pt (Fl K) d → V) (p : Pt (Fl K) d) (m : Mono d D) : Option V :=
  (m.toIndexF T r tm p).bind fun
    | none => some 0
    | some i => if (arrayBackend d).ok m.store i then
        match (arrayBackend d).get m.store i with
        | none => some 0
        | some s => some (dens s p)
      else none

/-- `getMin()` (`C2/static_maps/mono_gridmap.hpp:122-126`): the index is converted to `T` and multiplied in `T` -/
def getMinF (T : Format) (r : K) (m : Mono d D) : Pt (Fl K) d := fun a => T.conv (Fl.mul (T.round (m.lo a : K)) (.fin r))

end
end Mono

/-- `getMin()` of NDT and occupancy maps (`CN/map/abstract_map.hpp:127-132`) with minimum bundle index `lo`: the index is converted to `T` and multiplied in `T` -/
def ndtMinF {K : Type} [Field K] [LinearOrder K] [FloorRing K] {d : Nat} (T : Format) (r : K) (lo : Idx d) : Pt (Fl K) d := fun a => T.conv (Fl.mul (T.round (lo a : K)) (bundleResolutionF T r))

end Ndt
