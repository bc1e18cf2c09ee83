import Verif.Spec.Restore

/-! What it means that two maps cannot be told apart by later operations. -/

namespace Ndt

/-- the two outcomes are both undefined, or both defined and related -/
def BothOr {α β : Type} (R : α → β → Prop) : Option α → Option β → Prop
  | none, none => True
  | some a, some b => R a b
  | _, _ => False

/-- both histories leave the contract of the map, or both end in maps with the same bundles, contents and bounds -/
def Spec.SameOutcome {d : Nat} {B : Backend d} {D : Type} [Inhabited D] (x y : Option (St B D)) : Prop := BothOr Spec.Restored x y

end Ndt
