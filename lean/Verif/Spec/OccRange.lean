import Verif.Spec.OccPoints
import Verif.Model.OccMap
import Mathlib.Algebra.Order.Group.Unbundled.Abs

/-! Specification: the bundle indices that the operations of a history on a dynamic occupancy map concern (C51). -/

namespace Ndt

section
variable {K : Type} [Field K] [LinearOrder K] [FloorRing K] {d : Nat} {W E : Type}

/-- a lookup, allocation or expansion only mentions indices with coordinates in `[-n, n]` -/
def CoreWithin (n : Int) : CoreOp d → Prop
  | .bundleAt bi => ∀ a, |bi a| ≤ n
  | .get bi => ∀ a, |bi a| ≤ n
  | .expandOne bi => ∀ a, |bi a| ≤ n
  | .expandAll => True

/-- 1 for an expansion, 0 otherwise -/
def CoreOp.expands : CoreOp d → Nat
  | .expandOne _ => 1
  | .expandAll => 1
  | _ => 0

/-- all hit bundles and all ray cells of a scan on a dynamic map have coordinates in `[-n, n]` -/
def ScanWithin (g : Geo K d) (n : Int) (s : Scan K d W) : Prop :=
  ∀ b ∈ Spec.hitBundles g (.dynamic (fun _ => 0) 0) s, (∀ a, |b a| ≤ n) ∧ ∀ x ∈ Spec.rayOf g (.dynamic (fun _ => 0) 0) s b, ∀ a, |x a| ≤ n

/-- what an operation on a dynamic occupancy map concerns lies in `[-n, n]` -/
def OccOpWithin (fl : Flavour K d W E) (g : Geo K d) (defRay : Pt K d → Pt K d → List (Idx d)) (n : Int) : OccMapOp K d W E → Prop
  | .insert s => ScanWithin g n s
  | .insertVisible s (some _) (some _) => ScanWithin g n s
  | .insertVisible s _ _ => ScanWithin g n (if fl.fallbackDefault then { s with ray := defRay } else s)
  | .core op => CoreWithin n op

/-- number of expansions -/
def occExpansions : List (OccMapOp K d W E) → Nat
  | [] => 0
  | .core op :: l => op.expands + occExpansions l
  | _ :: l => occExpansions l

end
end Ndt
