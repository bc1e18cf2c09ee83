import Verif.Model.Move
import Verif.Model.Raster

/-! Model of the accessors of the single-resolution map (`C2/static_maps/mono_gridmap.hpp:116-165, 207-267`). -/

namespace Ndt
namespace Mono
variable {d : Nat} {D : Type} {K : Type} [Field K]

/-- `getMin()` (`C2/static_maps/mono_gridmap.hpp:122-126`) -/
def getMin (r : K) (m : Mono d D) : Pt K d := fun a => (m.lo a : K) * r

/-- `getMax()` (`C2/static_maps/mono_gridmap.hpp:132-136`) -/
def getMax (r : K) (m : Mono d D) : Pt K d := fun a => ((m.hi a + 1 : Int) : K) * r

/-- `getWidth()` and `getHeight()` (`C2/static_maps/mono_gridmap.hpp:231-239`): the components 0 and 1 -/
def extent (r : K) (m : Mono d D) : Pt K d := fun a => (m.size a : K) * r

/-- `getOrigin()` (`C2/static_maps/mono_gridmap.hpp:142-147`): the minimum is added to the translation without rotating it -/
def monoOrigin (r : K) (T : Pose2 K) (m : Mono 2 D) : Pose2 K := { T with t := fun a => T.t a + m.getMin r a }

/-- `getIndices(indices)` (`C2/static_maps/mono_gridmap.hpp:257-263`); `traverse(f)` (251-255) visits the same indices -/
def indices (m : Mono d D) : List (Idx d) := ((arrayBackend d).traverse m.store).map Prod.fst

/-- `get(p)` (`C2/static_maps/mono_gridmap.hpp:207-214`): the distribution the returned pointer refers to, `some none` for the null pointer, `none` for an access outside of the array -/
def getAt [LinearOrder K] [FloorRing K] (g : Geo K d) (p : Pt K d) (m : Mono d D) : Option (Option D) :=
  match m.toIndex g p with
  | none => some none
  | some i => if (arrayBackend d).ok m.store i then some ((arrayBackend d).get m.store i) else none

end Mono
end Ndt
