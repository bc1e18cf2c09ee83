import Verif.Model.Occupancy

/-!
Specifications for occupancy distributions: what a history of updates contributes, and value semantics of objects.
-/

namespace Ndt.Spec
variable {W E : Type} [AddCommMonoid W]

/-- free observations contributed by an update -/
def freeOf : OccOp W E → W
  | .free n => n
  | _ => 0

/-- hits contributed by an update -/
def hitsOf : OccOp W E → Multiset E
  | .free _ => 0
  | .point x => {x}
  | .dist m => m
  | .ptr none => 0
  | .ptr (some m) => m

/-- the update does not merge a distribution without samples -/
def Substantial : OccOp W E → Prop
  | .dist m => m ≠ 0
  | .ptr (some m) => m ≠ 0
  | _ => True

/-- Value semantics: every object owns its contents. -/
abbrev Env (W E : Type) := Nat → Occ W E

def addSamples (o : Occ W E) (m : Multiset E) : Occ W E := ⟨o.free, some (o.samples + m)⟩

/-- contents of two objects put together -/
def together (o p : Occ W E) : Occ W E :=
  ⟨o.free + p.free, if o.data = none ∧ p.data = none then none else some (o.samples + p.samples)⟩

open scoped Classical in
/-- the object an operation writes, and its new value; all other objects keep theirs -/
noncomputable def envStep (e : Env W E) : MemOp W E → Env W E
  | .free v n => Function.update e v ⟨(e v).free + n, (e v).data⟩
  | .point v x => Function.update e v (addSamples (e v) {x})
  | .dist v m => Function.update e v (addSamples (e v) m)
  | .copy v w => Function.update e v (e w)
  | .merge v w => Function.update e v (together (e v) (e w))

noncomputable def envRun (h : List (MemOp W E)) (e : Env W E) : Env W E := h.foldl envStep e

/-- the variable an operation writes -/
def target : MemOp W E → Nat
  | .free v _ => v
  | .point v _ => v
  | .dist v _ => v
  | .copy v _ => v
  | .merge v _ => v

/-- Operations that do not make two objects share a distribution: a merge into an object without distribution of one with a distribution shares; in the
weighted class (`deep = false`), so does copying an object with a distribution (to another variable). -/
def NoShare (deep : Bool) (e : Env W E) : MemOp W E → Prop
  | .merge v w => (e w).data = none ∨ (e v).data ≠ none
  | .copy v w => deep = true ∨ (e w).data = none ∨ v = w
  | _ => True

/-- every operation of a history is free of sharing at the time it is executed -/
def NoShareRun (deep : Bool) : List (MemOp W E) → Env W E → Prop
  | [], _ => True
  | op :: l, e => NoShare deep e op ∧ NoShareRun deep l (envStep e op)

end Ndt.Spec
