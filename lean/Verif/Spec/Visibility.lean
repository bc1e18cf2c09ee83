import Verif.Spec.OccPoints
import Mathlib.Algebra.BigOperators.Group.Finset.Basic

/-!
Specification: when a bundle is visible from the origin of a scan.
-/

namespace Ndt.Spec

variable {K : Type} [Field K] [LinearOrder K] {d : Nat}

/-- the bundle next to `b` along axis `a`: the one before `b` if `b` lies behind the bundle `s` on that axis, the one after `b` otherwise -/
def towards (s b : Idx d) (a : Fin d) : Idx d := fun j => if j = a then (if s a < b a then b a - 1 else b a + 1) else b j

/-- the cell of grid `c` that contains bundle `b` -/
def binCell (b : Idx d) (c : Nat) : Idx d := fun j => (b j + if c.testBit j then 1 else 0) / 2

open scoped Classical in
/-- the occupancy of bundle `b`: the mean of the occupancies of its `2^d` distributions, 0 if the bundle is not allocated -/
noncomputable def bundleOcc {D : Type} [Inhabited D] (occ : D → K) (content : Nat → Idx d → Option D) (alloc : Set (Idx d)) (b : Idx d) : K :=
  if b ∈ alloc then (∑ c ∈ Finset.range (2 ^ d), occ ((content c (binCell b c)).getD default)) / 2 ^ d else 0

open scoped Classical in
/-- the occlusion of bundle `b` seen from bundle `s`: the smallest occupancy of the `d` neighbours `towards s b`, at most 1; neighbours outside of the map do not count -/
noncomputable def occlusion {D : Type} [Inhabited D] (k : Kind d) (occ : D → K) (content : Nat → Idx d → Option D) (alloc : Set (Idx d)) (s b : Idx d) : K :=
  ((List.finRange d).map fun a => if ValidBundle k (towards s b a) then bundleOcc occ content alloc (towards s b a) else 1).foldr min 1

/-- the probability that bundle `b` is visible given that the bundle before it on the ray is -/
noncomputable def visibility {D : Type} [Inhabited D] (k : Kind d) (occ : D → K) (vm : VisModel K) (content : Nat → Idx d → Option D) (alloc : Set (Idx d)) (s b : Idx d) : K :=
  vm.probFree * occlusion k occ content alloc s b + vm.probOcc * (1 - occlusion k occ content alloc s b)

/-- the visibility left behind the cells of a ray, `none` if it falls below `prior` on the way -/
def walk (prior : K) (vis : Idx d → K) : List (Idx d) → K → Option K
  | [], v => some v
  | x :: l, v => if v * vis x < prior then none else walk prior vis l (v * vis x)

end Ndt.Spec
