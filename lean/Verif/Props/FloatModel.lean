import Verif.Model.Float
import Mathlib.Data.EReal.Operations

/-! The floating-point values of the model (C43, C47, C71), related to the extended reals of Mathlib: special values behave as IEEE 754 demands. -/

namespace Ndt

/-- The extended real number that a value stands for; NaN stands for none. -/
noncomputable def Spec.value : Fl ℝ → Option EReal
  | .nan => none
  | .inf true => some ⊥
  | .inf false => some ⊤
  | .fin x => some (x : EReal)

open Spec

/-- **C43, C47** (model of comparison). `<`, `<=` and `==` compare the extended real numbers; all are false as soon as NaN is involved. -/
theorem C43_comparisons (a b : Fl ℝ) :
    (a.lt b = true ↔ ∃ x y, value a = some x ∧ value b = some y ∧ x < y) ∧
    (a.le b = true ↔ ∃ x y, value a = some x ∧ value b = some y ∧ x ≤ y) ∧
    (a.eq b = true ↔ ∃ x, value a = some x ∧ value b = some x) := by
  rcases a with _ | (_ | _) | x <;> rcases b with _ | (_ | _) | y <;> simp [Fl.lt, Fl.le, Fl.eq, value]
  exact eq_comm

/-- **C43, C47** (model of addition). The sum is NaN iff an operand is NaN or infinities of opposite signs are added; otherwise it is the sum in the extended reals. -/
theorem C43_addition (a b : Fl ℝ) :
    (value (a + b) = none ↔ value a = none ∨ value b = none ∨ (value a = some ⊤ ∧ value b = some ⊥) ∨ (value a = some ⊥ ∧ value b = some ⊤)) ∧
    ∀ z, value (a + b) = some z → ∃ x y, value a = some x ∧ value b = some y ∧ z = x + y := by
  show (value (Fl.add a b) = none ↔ _) ∧ ∀ z, value (Fl.add a b) = some z → _
  rcases a with _ | (_ | _) | x <;> rcases b with _ | (_ | _) | y <;> simp [Fl.add, value]

/-- **C43, C47** (model of multiplication). The product is NaN iff an operand is NaN or zero is multiplied with an infinity; otherwise it is the product in the extended reals. -/
theorem C43_multiplication (a b : Fl ℝ) :
    (value (a * b) = none ↔ value a = none ∨ value b = none ∨ (value a = some 0 ∧ (value b = some ⊤ ∨ value b = some ⊥)) ∨ (value b = some 0 ∧ (value a = some ⊤ ∨ value a = some ⊥))) ∧
    ∀ z, value (a * b) = some z → ∃ x y, value a = some x ∧ value b = some y ∧ z = x * y := by
  show (value (Fl.mul a b) = none ↔ _) ∧ ∀ z, value (Fl.mul a b) = some z → _
  rcases a with _ | (_ | _) | x <;> rcases b with _ | (_ | _) | y <;> try simp [Fl.mul, value]
  · rcases lt_trichotomy y 0 with h | h | h
    · simp [h, h.ne, EReal.top_mul_coe_of_neg h]
    · simp [h]
    · simp [h.ne', h.not_gt, EReal.top_mul_coe_of_pos h]
  · rcases lt_trichotomy y 0 with h | h | h
    · simp [h, h.ne, EReal.bot_mul_coe_of_neg h]
    · simp [h]
    · simp [h.ne', h.not_gt, EReal.bot_mul_coe_of_pos h]
  · rcases lt_trichotomy x 0 with h | h | h
    · simp [h, h.ne, EReal.coe_mul_top_of_neg h]
    · simp [h]
    · simp [h.ne', h.not_gt, EReal.coe_mul_top_of_pos h]
  · rcases lt_trichotomy x 0 with h | h | h
    · simp [h, h.ne, EReal.coe_mul_bot_of_neg h]
    · simp [h]
    · simp [h.ne', h.not_gt, EReal.coe_mul_bot_of_pos h]

/-- **C43, C47** (model of the sign). -/
theorem C43_negation (a : Fl ℝ) : value (-a) = (value a).map fun x => -x := by
  show value (Fl.neg a) = _
  rcases a with _ | (_ | _) | x <;> simp [Fl.neg, value]

/-- all kinds of values occur: an infinity, a number, and a sum that is NaN -/
example : value (.inf true) = some ⊥ ∧ value (.fin 2) = some ((2 : ℝ) : EReal) ∧ value (Fl.inf true + Fl.inf false) = none ∧ (Fl.inf true : Fl ℝ).lt (.fin (-5)) = true :=
  ⟨rfl, rfl, rfl, rfl⟩

end Ndt
