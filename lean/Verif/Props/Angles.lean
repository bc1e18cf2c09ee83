import Verif.Model.Matching
import Verif.Spec.Rotation
import Mathlib.Analysis.Real.Pi.Bounds
import Mathlib.Tactic.Linarith
import Mathlib.Tactic.LinearCombination
import Mathlib.Tactic.Ring
import Mathlib.Tactic.FieldSimp
import Mathlib.Tactic.LinearCombination
import Mathlib.Tactic.NormNum
import Mathlib.Tactic.Positivity
import Mathlib.Tactic.FinCases

/-!
C44, C60: angle differences and Euler updates.
-/

namespace Ndt

open Real Matching Spec

/-- the normalised angle lies in `(-π, π]` and is the same rotation -/
theorem angleNorm_spec (r : ℝ) : -π < angleNorm r ∧ angleNorm r ≤ π ∧ SameAngle (angleNorm r) r := by
  have e : (⟨cos r, sin r⟩ : ℂ) = Complex.cos r + Complex.sin r * Complex.I := by
    apply Complex.ext
    · simp [Complex.cos_ofReal_re, ← Complex.ofReal_cos, ← Complex.ofReal_sin]
    · simp [← Complex.ofReal_cos, ← Complex.ofReal_sin]
  unfold angleNorm atan2
  rw [e]
  refine ⟨Complex.neg_pi_lt_arg _, Complex.arg_le_pi _, ?_⟩
  exact ⟨_, (Complex.arg_cos_add_sin_mul_I_sub r)⟩

theorem Spec.SameAngle.symm {a b : ℝ} (h : SameAngle a b) : SameAngle b a := by
  obtain ⟨k, hk⟩ := h
  exact ⟨-k, by push_cast; linarith⟩

theorem Spec.SameAngle.trans {a b c : ℝ} (h : SameAngle a b) (h' : SameAngle b c) : SameAngle a c := by
  obtain ⟨k, hk⟩ := h
  obtain ⟨l, hl⟩ := h'
  exact ⟨k + l, by push_cast; linarith⟩

/-- an angle difference below one turn that is a multiple of a turn is zero -/
theorem eq_of_sameAngle {a b : ℝ} (h : SameAngle a b) (h1 : |a - b| < 2 * π) : a = b := by
  obtain ⟨k, hk⟩ := h
  rw [hk, abs_mul, abs_of_pos two_pi_pos] at h1
  have : |(k : ℝ)| < 1 := by
    by_contra hc
    push Not at hc
    nlinarith [two_pi_pos]
  have hk0 : k = 0 := by
    have : |k| < 1 := by exact_mod_cast this
    exact Int.abs_lt_one_iff.1 this
  rw [hk0] at hk
  simp at hk
  linarith

theorem angleNorm_eq_iff (a b : ℝ) : angleNorm a = angleNorm b ↔ SameAngle a b := by
  obtain ⟨a1, a2, a3⟩ := angleNorm_spec a
  obtain ⟨b1, b2, b3⟩ := angleNorm_spec b
  constructor
  · intro h
    rw [h] at a3
    exact a3.symm.trans b3
  · intro h
    refine eq_of_sameAngle (a3.trans (h.trans b3.symm)) ?_
    rw [abs_lt]
    constructor <;> linarith

/-- both branches of `AngleDifference` -/
theorem angleDifference_cases (r0 r : ℝ) :
    (angleDifference r0 r = angleNorm r0 - angleNorm r ∧ |angleNorm r0 - angleNorm r| < π) ∨
    (angleDifference r0 r = angleNorm r0 - angleNorm r - 2 * π ∧ π ≤ angleNorm r0 - angleNorm r) ∨
    (angleDifference r0 r = angleNorm r0 - angleNorm r + 2 * π ∧ angleNorm r0 - angleNorm r ≤ -π) := by
  obtain ⟨a1, a2, _⟩ := angleNorm_spec r0
  obtain ⟨b1, b2, _⟩ := angleNorm_spec r
  have hp := pi_pos
  unfold angleDifference
  simp only
  have hD1 : angleNorm r0 - angleNorm r < 2 * π := by linarith
  have hD2 : -(2 * π) < angleNorm r0 - angleNorm r := by linarith
  generalize angleNorm r0 - angleNorm r = D at hD1 hD2 ⊢
  by_cases h0 : 0 < D
  · rw [if_pos h0, abs_of_pos h0]
    have e2 : |(2 * π - D) * -1| = 2 * π - D := by rw [mul_neg_one, abs_neg, abs_of_pos (by linarith)]
    rw [e2]
    by_cases h : D < 2 * π - D
    · rw [if_pos h]
      exact Or.inl ⟨rfl, by linarith⟩
    · rw [if_neg h]
      exact Or.inr (Or.inl ⟨by ring, by linarith⟩)
  · rw [if_neg h0]
    push Not at h0
    rw [abs_of_nonpos h0]
    have e2 : |(2 * π - -D) * 1| = 2 * π + D := by rw [mul_one, sub_neg_eq_add, abs_of_pos (by linarith)]
    rw [e2]
    by_cases h : -D < 2 * π + D
    · rw [if_pos h]
      exact Or.inl ⟨rfl, by linarith⟩
    · rw [if_neg h]
      exact Or.inr (Or.inr ⟨by ring, by linarith⟩)

/-- **C44** For all angles, the difference used by the rotation priors is congruent to `a - b` modulo a full turn and is the smallest such number in absolute value; in particular it is at most `π` in absolute value. It is zero iff the
angles are the same rotation. -/
theorem C44_angle_difference (a b : ℝ) :
    SameAngle (angleDifference a b) (a - b) ∧ |angleDifference a b| ≤ π ∧ (∀ c, SameAngle c (a - b) → |angleDifference a b| ≤ |c|) ∧ (angleDifference a b = 0 ↔ SameAngle a b) := by
  obtain ⟨a1, a2, ⟨ka, ha⟩⟩ := angleNorm_spec a
  obtain ⟨b1, b2, ⟨kb, hb⟩⟩ := angleNorm_spec b
  have hp := pi_pos
  have h1 : SameAngle (angleDifference a b) (a - b) := by
    rcases angleDifference_cases a b with ⟨h, _⟩ | ⟨h, _⟩ | ⟨h, _⟩
    · exact ⟨ka - kb, by rw [h]; push_cast; linarith⟩
    · exact ⟨ka - kb - 1, by rw [h]; push_cast; linarith⟩
    · exact ⟨ka - kb + 1, by rw [h]; push_cast; linarith⟩
  have h2 : |angleDifference a b| ≤ π := by
    rcases angleDifference_cases a b with ⟨h, h'⟩ | ⟨h, h'⟩ | ⟨h, h'⟩
    · rw [h]; exact h'.le
    · rw [h, abs_le]; constructor <;> linarith
    · rw [h, abs_le]; constructor <;> linarith
  have h3 : ∀ c, SameAngle c (a - b) → |angleDifference a b| ≤ |c| := by
    intro c hc
    by_contra hlt
    push Not at hlt
    have hs : SameAngle (angleDifference a b) c := h1.trans hc.symm
    have : angleDifference a b = c := by
      refine eq_of_sameAngle hs ?_
      have := abs_sub (angleDifference a b) c
      linarith
    rw [this] at hlt
    exact lt_irrefl _ hlt
  refine ⟨h1, h2, h3, fun h => ?_, fun h => ?_⟩
  · rw [h] at h1
    obtain ⟨k, hk⟩ := h1
    exact ⟨-k, by push_cast; linarith⟩
  · obtain ⟨k, hk⟩ := h
    have := h3 0 ⟨-k, by push_cast; linarith⟩
    rw [abs_zero] at this
    exact abs_nonpos_iff.1 this

/-- a non-trivial case: the difference of 3 and -3 is a small negative number, not 6 -/
example : angleDifference 3 (-3) = 6 - 2 * π := by
  have hp := pi_gt_three
  have hp' := pi_lt_d2
  have h := (C44_angle_difference 3 (-3)).1
  have h2 := (C44_angle_difference 3 (-3)).2.1
  refine eq_of_sameAngle ?_ ?_
  · obtain ⟨k, hk⟩ := h
    exact ⟨k + 1, by push_cast; linarith⟩
  · rw [abs_le] at h2
    rw [abs_lt]
    constructor <;> linarith

/-- **C44** Swapping the angles changes the sign. -/
theorem C44_antisymmetric (a b : ℝ) : angleDifference b a = -angleDifference a b := by
  have hp := pi_pos
  rcases angleDifference_cases a b with ⟨h, h'⟩ | ⟨h, h'⟩ | ⟨h, h'⟩ <;> rcases angleDifference_cases b a with ⟨g, g'⟩ | ⟨g, g'⟩ | ⟨g, g'⟩ <;> rw [h, g] <;>
    first
    | ring1
    | (exfalso; rw [abs_lt] at h'; linarith [h'.1, h'.2])
    | (exfalso; rw [abs_lt] at g'; linarith [g'.1, g'.2])
    | (exfalso; linarith)

/-- **C44** The rotation prior residuals are zero exactly for the prior rotation, and bounded by half a turn times the weight. -/
theorem C44_residuals (weight : ℝ) (hw : weight ≠ 0) :
    (∀ prior r, rotationResidual2 weight prior r = 0 ↔ SameAngle prior r) ∧ (∀ prior r, |rotationResidual2 weight prior r| ≤ |weight| * π) ∧
    (∀ prior r, rotationResidualRPY weight prior r = 0 ↔ ∀ i, SameAngle (prior i) (r i)) ∧
    (∀ prior r i, |rotationResidualRPY weight prior r i| ≤ |weight| * π) := by
  have hz : ∀ a b, weight * angleDifference a b = 0 ↔ SameAngle a b := fun a b => by
    rw [mul_eq_zero, or_iff_right hw]
    exact (C44_angle_difference a b).2.2.2
  have hb : ∀ a b, |weight * angleDifference a b| ≤ |weight| * π := fun a b => by
    rw [abs_mul]
    exact mul_le_mul_of_nonneg_left (C44_angle_difference a b).2.1 (abs_nonneg _)
  refine ⟨hz, hb, fun prior r => ⟨fun h i => (hz _ _).1 (congrFun h i), fun h => funext fun i => (hz _ _).2 (h i)⟩, fun prior r i => hb _ _⟩

example : rotationResidual2 2 (2 * π + 1) 1 = 0 := (C44_residuals 2 (by norm_num)).1 _ _ |>.2 ⟨1, by push_cast; ring⟩

/-! ### Euler updates -/

theorem clamp_mem (v lo hi : ℝ) (h : lo ≤ hi) : lo ≤ clamp v lo hi ∧ clamp v lo hi ≤ hi := by
  unfold clamp
  split_ifs <;> constructor <;> linarith

theorem clamp_of_mem {v lo hi : ℝ} (h1 : lo ≤ v) (h2 : v ≤ hi) : clamp v lo hi = v := by
  unfold clamp
  rw [if_neg (not_lt.2 h2), if_neg (not_lt.2 h1)]

/-- **C45** Euler updates keep the angles in `[-π, π]`, a zero step leaves angles of that range unchanged, and the result is the number of that range which is nearest to the requested angle. -/
theorem C45_euler {n : Nat} (x delta : Fin n → ℝ) :
    (∀ i, -π ≤ eulerPlus x delta i ∧ eulerPlus x delta i ≤ π) ∧
    ((∀ i, -π ≤ x i ∧ x i ≤ π) → eulerPlus x 0 = x) ∧
    (∀ i y, -π ≤ y → y ≤ π → |eulerPlus x delta i - (x i + delta i)| ≤ |y - (x i + delta i)|) := by
  have hp := pi_pos
  refine ⟨fun i => clamp_mem _ _ _ (by linarith), fun h => funext fun i => ?_, fun i y h1 h2 => ?_⟩
  · show clamp (x i + 0) (-π) π = x i
    rw [add_zero]
    exact clamp_of_mem (h i).1 (h i).2
  · show |clamp (x i + delta i) (-π) π - (x i + delta i)| ≤ _
    generalize x i + delta i = v
    unfold clamp
    split_ifs with c1 c2
    · rw [abs_of_nonpos (by linarith), abs_of_nonpos (by linarith)]
      linarith
    · rw [abs_of_nonneg (by linarith), abs_of_nonneg (by linarith)]
      linarith
    · rw [sub_self, abs_zero]
      exact abs_nonneg _

/-- a step that is clamped, and one that is not -/
example : eulerPlus ![1, 1] ![100, 1] = ![π, 2] := by
  have hp := pi_gt_three
  have hp' := pi_lt_d2
  funext i
  fin_cases i
  · show clamp (1 + 100) (-π) π = π
    unfold clamp
    rw [if_pos (by linarith)]
  · show clamp (1 + 1) (-π) π = 2
    rw [clamp_of_mem] <;> linarith

/-- **C45** The yaw-only Euler update is the Euler update of the third angle. -/
theorem C45_yaw_euler (x : Fin 3 → ℝ) (delta : ℝ) :
    yawOnlyEulerPlus x delta 0 = x 0 ∧ yawOnlyEulerPlus x delta 1 = x 1 ∧ (-π ≤ yawOnlyEulerPlus x delta 2 ∧ yawOnlyEulerPlus x delta 2 ≤ π) ∧
    (-π ≤ x 2 → x 2 ≤ π → yawOnlyEulerPlus x 0 = x) ∧ (-π ≤ x 2 + delta → x 2 + delta ≤ π → yawOnlyEulerPlus x delta 2 = x 2 + delta) := by
  have hp := pi_pos
  refine ⟨rfl, rfl, clamp_mem _ _ _ (by linarith), fun h1 h2 => ?_, fun h1 h2 => clamp_of_mem h1 h2⟩
  funext i
  fin_cases i
  · rfl
  · rfl
  · show clamp (x 2 + 0) (-π) π = x 2
    rw [add_zero, clamp_of_mem h1 h2]

/-- **C60** is false of the code: a step beyond `π` does not reach the requested rotation, for all steps up to a full turn. -/
theorem C60_clamped_refuted {n : Nat} (x delta : Fin n → ℝ) (i : Fin n) (h1 : π < x i + delta i) (h2 : x i + delta i < 3 * π) :
    ¬ SameAngle (eulerPlus x delta i) (x i + delta i) := by
  have e : eulerPlus x delta i = π := by
    unfold eulerPlus clamp
    rw [if_pos h1]
  rw [e]
  intro h
  have := eq_of_sameAngle h (by rw [abs_lt]; constructor <;> linarith)
  linarith

/-- a step of 0.2 from the angle 3.1 does not reach the rotation by 3.3 -/
example : ¬ SameAngle (eulerPlus ![31/10] ![2/10] 0) (31/10 + 2/10) := by
  have hp := pi_gt_three
  have hp' := pi_lt_d2
  refine C60_clamped_refuted ![31/10] ![2/10] 0 ?_ ?_
  · show π < 31/10 + 2/10
    norm_num at hp' ⊢; linarith
  · show 31/10 + 2/10 < 3 * π
    norm_num; linarith

/-- **C60** (part) A step that stays in `[-π, π]` reaches exactly the requested angle. -/
theorem C60_inside_partial {n : Nat} (x delta : Fin n → ℝ) (i : Fin n) (h1 : -π ≤ x i + delta i) (h2 : x i + delta i ≤ π) : eulerPlus x delta i = x i + delta i :=
  clamp_of_mem h1 h2

/-- **C60** (part) Exactly when an Euler step reaches the requested rotation: when the requested angle is in `[-π, π]`, or is an odd multiple of `π`. -/
theorem C60_iff_partial {n : Nat} (x delta : Fin n → ℝ) (i : Fin n) :
    SameAngle (eulerPlus x delta i) (x i + delta i) ↔ (-π ≤ x i + delta i ∧ x i + delta i ≤ π) ∨ ∃ k : ℤ, x i + delta i = (2 * k + 1) * π := by
  show SameAngle (clamp (x i + delta i) (-π) π) (x i + delta i) ↔ _
  generalize x i + delta i = v
  have hp := pi_pos
  unfold clamp
  split_ifs with h1 h2
  · constructor
    · rintro ⟨k, hk⟩
      refine Or.inr ⟨-k, ?_⟩
      push_cast
      linear_combination -hk
    · rintro (⟨_, h⟩ | ⟨k, hk⟩)
      · linarith
      · refine ⟨-k, ?_⟩
        push_cast
        linear_combination -hk
  · constructor
    · rintro ⟨k, hk⟩
      refine Or.inr ⟨-k - 1, ?_⟩
      push_cast
      linear_combination -hk
    · rintro (⟨h, _⟩ | ⟨k, hk⟩)
      · linarith
      · refine ⟨-k - 1, ?_⟩
        push_cast
        linear_combination -hk
  · exact ⟨fun _ => Or.inl ⟨not_lt.1 h2, not_lt.1 h1⟩, fun _ => ⟨0, by simp⟩⟩

example : eulerPlus ![1] ![1/2] 0 = 1 + 1/2 := C60_inside_partial ![1] ![1/2] 0 (by
  have := pi_gt_three
  show -π ≤ 1 + 1/2
  linarith) (by
  have := pi_gt_three
  show 1 + 1/2 ≤ π
  linarith)

end Ndt
