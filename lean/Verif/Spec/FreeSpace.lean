import Verif.Spec.Visibility

/-!
Specification: visibility in a map in which nothing is occupied.
-/

namespace Ndt.Spec

variable {K : Type} [Field K] [LinearOrder K] {d : Nat}

/-- All neighbours of bundle `b` in the direction of bundle `s` lie outside of the map. -/
def Walled (k : Kind d) (s b : Idx d) : Prop := ∀ a, ¬ ValidBundle k (towards s b a)

open scoped Classical in
/-- the visibility of bundle `b` from bundle `s` if nothing in the map is occupied -/
noncomputable def clearness (k : Kind d) (vm : VisModel K) (s b : Idx d) : K := if Walled k s b then vm.probFree else vm.probOcc

/-- the probabilities of a visibility model are probabilities -/
def Probabilities (vm : VisModel K) : Prop := (0 ≤ vm.probFree ∧ vm.probFree ≤ 1) ∧ (0 ≤ vm.probOcc ∧ vm.probOcc ≤ 1) ∧ vm.probPrior ≤ 1

end Ndt.Spec
