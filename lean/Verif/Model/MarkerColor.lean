import Verif.Model.Export

/-!
Model of the colours of the exported markers in three dimensions: what `Viz` in `Model/Export.lean` leaves open about them (`C3/conversion/distributions.hpp:42-44, 77-82, 139-141, 178-183`). In two dimensions all markers have the
colour given by the caller.
-/

namespace Ndt

section
variable {K : Type} [Field K] {B : Backend 3} {D Q C V : Type}

/-- `min_height` and `max_height` (`C3/conversion/distributions.hpp:43-44, 140-141`): the heights of the two corners of the map; `origin` is the action of `transform * src.getInitialOrigin()`. -/
def heightLimits (origin : Pt K 3 → Pt K 3) (r : K) (st : St B D) : K × K := (origin (st.getMin r) 2, origin (st.getMax r) 2)

/-- `interpolateColor(p(2), min_height, max_height)` as the colour of a marker (`C3/conversion/distributions.hpp:77-82, 178-183`); `interp` is `interpolateColor`, an arbitrary function. -/
def heightViz (v : Viz K 3 Q C V) (interp : K → K → K → C) (r : K) (st : St B D) : Viz K 3 Q C V :=
  { v with color := fun p => interp (p 2) (heightLimits v.origin r st).1 (heightLimits v.origin r st).2 }

end
end Ndt
