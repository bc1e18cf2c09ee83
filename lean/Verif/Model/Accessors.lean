import Verif.Model.Serial
import Verif.Model.Sampling

/-!
Model of the geometry accessors of maps (`CN/map/abstract_map.hpp:185-193, 228-232`, `CN/map/generic_map.hpp`) and of `CN/utility/to_point.hpp`.

`none` is the undefined behaviour of a signed overflow.
-/

namespace Ndt
namespace St

variable {K : Type} [Field K] {d : Nat} {B : Backend d} {D : Type}

/-- `max - min + 1` in `int` arithmetic -/
def bundleCount (st : St B D) (a : Fin d) : Option Int :=
  match intSub (st.maxB a) (st.minB a) with
  | none => none
  | some x => if x + 1 ≤ 2147483647 then some (x + 1) else none

/-- `getWidth()` (`CN/map/abstract_map.hpp:190-193`) -/
def getWidth (r : K) (h : 0 < d) (st : St B D) : Option K := (st.bundleCount ⟨0, h⟩).map fun (n : Int) => (n : K) * bundleResolution r

/-- `getHeight()` (`CN/map/abstract_map.hpp:185-188`) -/
def getHeight (r : K) (h : 1 < d) (st : St B D) : Option K := (st.bundleCount ⟨1, h⟩).map fun (n : Int) => (n : K) * bundleResolution r

/-- `getSizeM()[a]`: of a dynamic map (`CN/map/generic_map.hpp:270-276`), and of a static one, for which it is the member `size_m_` (`55-56, 143-146`) -/
def getSizeM (k : Kind d) (r : K) (st : St k.backend D) (a : Fin d) : Option K :=
  match k with
  | .dynamic _ _ => (st.bundleCount a).map fun (n : Int) => (n : K) * bundleResolution r
  | .static size _ => some (((size a + 1 : Nat) : K) * r)

/-- `getSize()[a]`: of a dynamic map the difference of the bounds, converted to `std::size_t` (`CN/map/generic_map.hpp:278-284`), of a static one the member `size_` (`148-151`) -/
def getSize (k : Kind d) (st : St k.backend D) (a : Fin d) : Option Nat :=
  match k with
  | .dynamic _ _ => (intSub (st.maxB a) (st.minB a)).map fun n => (n % 2 ^ 64).toNat
  | .static size _ => some (size a)

/-- `getBundleSize()[a]` of a static map (`CN/map/generic_map.hpp:153-156`) -/
def getBundleSize (size : Fin d → Nat) (a : Fin d) : Nat := size a * 2

end St

/-- `to_point<point_t>(p)` for a vector of another dimension (`CN/utility/to_point.hpp:12-25`) -/
def toPoint {K : Type} [Zero K] {n : Nat} (d : Nat) (p : Pt K n) : Pt K d := fun c => if h : c.1 ≥ n then 0 else p ⟨c.1, Nat.lt_of_not_le h⟩

/-- `validate(pose)` (`CN/map/abstract_map.hpp:228-232`); `q` is the translation of the 2D pose -/
def validate {K : Type} [Field K] [LinearOrder K] [FloorRing K] {d : Nat} {B : Backend d} {D : Type} (g : Geo K d) (dyn : Bool) (q : Pt K 2) (st : St B D) : Bool :=
  let pw := toPoint d q
  st.valid dyn (toBundleIndex g.r (g.toMap pw))

/-- `get(p)` by point (`CN/map/generic_map.hpp:129-136` static, `259-263` dynamic) -/
def getAtPoint {K : Type} [Field K] [LinearOrder K] [FloorRing K] {d : Nat} {B : Backend d} {D : Type} (g : Geo K d) (dyn : Bool) (p : Pt K d) (st : St B D) : Option (Option Bundle) :=
  st.getBundle dyn (toBundleIndex g.r (g.toMap p))

end Ndt
