import Verif.Spec.Visibility

/-!
Specification: the outcome of a visibility-aware insertion, bundle by bundle.
-/

namespace Ndt.Spec

variable {K : Type} [Field K] [LinearOrder K] {d : Nat} {W E : Type}

/-- lexicographic order of bundle indices: the first coordinate that differs decides -/
def Before (x y : Idx d) : Prop := ∃ a, (∀ a' < a, x a' = y a') ∧ x a < y a

open scoped Classical in
/-- a distribution after the samples `m` were added; it is untouched if there are none -/
noncomputable def withSamples (m : Multiset E) (o : Occ W E) : Occ W E := if m = 0 then o else ⟨o.free, some (o.samples + m)⟩

open scoped Classical in
/-- the hits of a scan that lie in the cell `i` of grid `c` and in one of the bundles `S` -/
noncomputable def hitsOn (g : Geo K d) (k : Kind d) (s : Scan K d W) (S : Finset (Idx d)) (c : Nat) (i : Idx d) : Multiset (Pt K d) :=
  (hits g k s).filter fun p => InCell g.r c i p ∧ ∃ b ∈ S, InBundle g.r b p

/-- the distributions of a map after the hits in the bundles `S` were recorded -/
noncomputable def recorded [AddCommMonoid W] (sample : Pt K d → E) (g : Geo K d) (k : Kind d) (s : Scan K d W) (content : Nat → Idx d → Option (Occ W E)) (S : Finset (Idx d)) :
    Nat → Idx d → Option (Occ W E) :=
  fun c i => some (withSamples ((hitsOn g k s S c i).map sample) ((content c i).getD Occ.new))

/-- What becomes of the hit bundle `b` once the hits in the bundles `S` were recorded: `none` if the ray to it is occluded, otherwise whether its hits count. -/
noncomputable def verdict [AddCommMonoid W] [FloorRing K] (sample : Pt K d → E) (g : Geo K d) (k : Kind d) (s : Scan K d W) (occ : Occ W E → K) (vm : VisModel K)
    (content : Nat → Idx d → Option (Occ W E)) (alloc : Set (Idx d)) (S : Finset (Idx d)) (b : Idx d) : Option Bool :=
  let vis := visibility k occ vm (recorded sample g k s content S) (alloc ∪ ↑S) (fun a => ⌊g.toMap (s.pose 0) a / (g.r / 2)⌋)
  (walk vm.probPrior vis (rayOf g k s b) 1).map fun v => decide (vm.probPrior ≤ v * vis b)

/-- One pass over a list of bundles: the bundles whose hits were recorded (in addition to `S`), and whether the pass got to the end of the list. -/
def pass (v : Finset (Idx d) → Idx d → Option Bool) : List (Idx d) → Finset (Idx d) → Finset (Idx d) × Bool
  | [], S => (S, true)
  | b :: l, S =>
    match v S b with
    | none => (S, false)
    | some true => pass v l (insert b S)
    | some false => pass v l S

end Ndt.Spec
