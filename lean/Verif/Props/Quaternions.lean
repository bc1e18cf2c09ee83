import Verif.Props.Angles
import Mathlib.Analysis.SpecialFunctions.Trigonometric.Inverse
import Mathlib.Tactic.LinearCombination

/-!
C45, C46, C61, C63: quaternion updates, quaternion priors and the transformations of the scan.
-/

namespace Ndt

open Real Matching Spec

/-- squared norm of a quaternion -/
def Spec.quatNormSq (q : Quat) : ℝ := q.w ^ 2 + q.x ^ 2 + q.y ^ 2 + q.z ^ 2

/-- the quaternion with all components negated, which describes the same rotation -/
def Spec.quatNeg (q : Quat) : Quat := ⟨-q.w, -q.x, -q.y, -q.z⟩

theorem quatNormSq_mul (p q : Quat) : quatNormSq (p.mul q) = quatNormSq p * quatNormSq q := by
  unfold quatNormSq Quat.mul
  ring

theorem rotate_zero (q : Quat) (v : Fin 3 → ℝ) : q.rotate v 0 = v 0 + q.w * (2 * (q.y * v 2 - q.z * v 1)) + (q.y * (2 * (q.x * v 1 - q.y * v 0)) - q.z * (2 * (q.z * v 0 - q.x * v 2))) := rfl
theorem rotate_one (q : Quat) (v : Fin 3 → ℝ) : q.rotate v 1 = v 1 + q.w * (2 * (q.z * v 0 - q.x * v 2)) + (q.z * (2 * (q.y * v 2 - q.z * v 1)) - q.x * (2 * (q.x * v 1 - q.y * v 0))) := rfl
theorem rotate_two (q : Quat) (v : Fin 3 → ℝ) : q.rotate v 2 = v 2 + q.w * (2 * (q.x * v 1 - q.y * v 0)) + (q.x * (2 * (q.z * v 0 - q.x * v 2)) - q.y * (2 * (q.y * v 2 - q.z * v 1))) := rfl

theorem rotate_mul (p q : Quat) (hp : quatNormSq p = 1) (hq : quatNormSq q = 1) (v : Fin 3 → ℝ) : (p.mul q).rotate v = p.rotate (q.rotate v) := by
  have e : ∀ i, (p.mul q).rotate v i - p.rotate (q.rotate v) i =
      (quatNormSq q - 1) * (p.rotate v i - (1 - quatNormSq p) * v i - v i) + (quatNormSq p - 1) * (q.rotate v i - quatNormSq q * v i) := by
    intro i
    fin_cases i
    · show (p.mul q).rotate v 0 - p.rotate (q.rotate v) 0 = (quatNormSq q - 1) * (p.rotate v 0 - (1 - quatNormSq p) * v 0 - v 0) + (quatNormSq p - 1) * (q.rotate v 0 - quatNormSq q * v 0)
      simp only [rotate_zero, rotate_one, rotate_two, Quat.mul, quatNormSq]
      ring
    · show (p.mul q).rotate v 1 - p.rotate (q.rotate v) 1 = (quatNormSq q - 1) * (p.rotate v 1 - (1 - quatNormSq p) * v 1 - v 1) + (quatNormSq p - 1) * (q.rotate v 1 - quatNormSq q * v 1)
      simp only [rotate_zero, rotate_one, rotate_two, Quat.mul, quatNormSq]
      ring
    · show (p.mul q).rotate v 2 - p.rotate (q.rotate v) 2 = (quatNormSq q - 1) * (p.rotate v 2 - (1 - quatNormSq p) * v 2 - v 2) + (quatNormSq p - 1) * (q.rotate v 2 - quatNormSq q * v 2)
      simp only [rotate_zero, rotate_one, rotate_two, Quat.mul, quatNormSq]
      ring
  funext i
  have := e i
  rw [hp, hq] at this
  linarith

theorem ext3 {u v : Fin 3 → ℝ} (h0 : u 0 = v 0) (h1 : u 1 = v 1) (h2 : u 2 = v 2) : u = v := by
  funext i
  fin_cases i
  · exact h0
  · exact h1
  · exact h2

theorem rotate_qz (t : ℝ) (v : Fin 3 → ℝ) : (Quat.mk (cos (t / 2)) 0 0 (sin (t / 2))).rotate v = rotZ t v := by
  have h := sin_sq_add_cos_sq (t / 2)
  have e : t = 2 * (t / 2) := by ring
  have hc : cos t = 2 * cos (t / 2) ^ 2 - 1 := by rw [← cos_two_mul, ← e]
  have hs : sin t = 2 * sin (t / 2) * cos (t / 2) := by rw [← sin_two_mul, ← e]
  refine ext3 ?_ ?_ ?_
  · rw [rotate_zero]
    show _ = cos t * v 0 - sin t * v 1
    rw [hc, hs]
    linear_combination (-2 * v 0) * h
  · rw [rotate_one]
    show _ = sin t * v 0 + cos t * v 1
    rw [hc, hs]
    linear_combination (-2 * v 1) * h
  · rw [rotate_two]
    show _ = v 2
    ring

theorem rotate_qy (t : ℝ) (v : Fin 3 → ℝ) : (Quat.mk (cos (t / 2)) 0 (sin (t / 2)) 0).rotate v = rotY t v := by
  have h := sin_sq_add_cos_sq (t / 2)
  have e : t = 2 * (t / 2) := by ring
  have hc : cos t = 2 * cos (t / 2) ^ 2 - 1 := by rw [← cos_two_mul, ← e]
  have hs : sin t = 2 * sin (t / 2) * cos (t / 2) := by rw [← sin_two_mul, ← e]
  refine ext3 ?_ ?_ ?_
  · rw [rotate_zero]
    show _ = cos t * v 0 + sin t * v 2
    rw [hc, hs]
    linear_combination (-2 * v 0) * h
  · rw [rotate_one]
    show _ = v 1
    ring
  · rw [rotate_two]
    show _ = -sin t * v 0 + cos t * v 2
    rw [hc, hs]
    linear_combination (-2 * v 2) * h

theorem rotate_qx (t : ℝ) (v : Fin 3 → ℝ) : (Quat.mk (cos (t / 2)) (sin (t / 2)) 0 0).rotate v = rotX t v := by
  have h := sin_sq_add_cos_sq (t / 2)
  have e : t = 2 * (t / 2) := by ring
  have hc : cos t = 2 * cos (t / 2) ^ 2 - 1 := by rw [← cos_two_mul, ← e]
  have hs : sin t = 2 * sin (t / 2) * cos (t / 2) := by rw [← sin_two_mul, ← e]
  refine ext3 ?_ ?_ ?_
  · rw [rotate_zero]
    show _ = v 0
    ring
  · rw [rotate_one]
    show _ = cos t * v 1 - sin t * v 2
    rw [hc, hs]
    linear_combination (-2 * v 1) * h
  · rw [rotate_two]
    show _ = sin t * v 1 + cos t * v 2
    rw [hc, hs]
    linear_combination (-2 * v 2) * h

theorem toEigen_eq (rpy : Fin 3 → ℝ) : toEigen rpy = (Quat.mk (cos (rpy 2 / 2)) 0 0 (sin (rpy 2 / 2))).mul
    ((Quat.mk (cos (rpy 1 / 2)) 0 (sin (rpy 1 / 2)) 0).mul (Quat.mk (cos (rpy 0 / 2)) (sin (rpy 0 / 2)) 0 0)) := by
  have e : ∀ t : ℝ, t * (1 / 2) = t / 2 := fun t => by ring
  simp only [toEigen, e, Quat.mul]
  ext <;> simp only <;> ring

theorem unit_z (t : ℝ) : quatNormSq (Quat.mk (cos (t / 2)) 0 0 (sin (t / 2))) = 1 := by
  have h := sin_sq_add_cos_sq (t / 2)
  unfold quatNormSq
  linear_combination h

theorem unit_y (t : ℝ) : quatNormSq (Quat.mk (cos (t / 2)) 0 (sin (t / 2)) 0) = 1 := by
  have h := sin_sq_add_cos_sq (t / 2)
  unfold quatNormSq
  linear_combination h

theorem unit_x (t : ℝ) : quatNormSq (Quat.mk (cos (t / 2)) (sin (t / 2)) 0 0) = 1 := by
  have h := sin_sq_add_cos_sq (t / 2)
  unfold quatNormSq
  linear_combination h

/-- **C63** Roll, pitch and yaw describe the rotation by roll about the x axis, then by pitch about the y axis, then by yaw about the z axis; the quaternion built from them has norm 1. -/
theorem C63_rpy (translation rpy p : Fin 3 → ℝ) :
    quatNormSq (toEigen rpy) = 1 ∧ movedRPY translation rpy p = fun i => rotZ (rpy 2) (rotY (rpy 1) (rotX (rpy 0) p)) i + translation i := by
  constructor
  · rw [toEigen_eq, quatNormSq_mul, quatNormSq_mul, unit_z, unit_y, unit_x]
    norm_num
  · funext i
    show (toEigen rpy).rotate p i + _ = _
    rw [toEigen_eq, rotate_mul _ _ (unit_z _) (by rw [quatNormSq_mul, unit_y, unit_x, one_mul]), rotate_mul _ _ (unit_y _) (unit_x _), rotate_qz, rotate_qy, rotate_qx]

/-- a quarter turn about the z axis takes the x axis to the y axis -/
example : movedRPY ![0, 0, 5] ![0, 0, π / 2] ![1, 0, 0] = ![0, 1, 5] := by
  rw [(C63_rpy _ _ _).2]
  refine ext3 ?_ ?_ ?_ <;> simp [rotX, rotY, rotZ]

theorem rotate_dist (q : Quat) (hq : quatNormSq q = 1) (u v : Fin 3 → ℝ) : distSq (q.rotate u) (q.rotate v) = distSq u v := by
  have e : distSq (q.rotate u) (q.rotate v) - distSq u v = (quatNormSq q - 1) * (4 * ((q.y * (u 2 - v 2) - q.z * (u 1 - v 1)) ^ 2 + (q.z * (u 0 - v 0) - q.x * (u 2 - v 2)) ^ 2 + (q.x * (u 1 - v 1) - q.y * (u 0 - v 0)) ^ 2)) := by
    unfold distSq
    rw [Fin.sum_univ_three, Fin.sum_univ_three]
    simp only [rotate_zero, rotate_one, rotate_two, quatNormSq]
    ring
  rw [hq] at e
  linarith

/-- **C63** Scan points are moved rigidly: distances between points do not change. In 3D with quaternions, this needs a quaternion of norm 1. -/
theorem C63_rigid :
    (∀ (t : Fin 2 → ℝ) (r : ℝ) (p q : Fin 2 → ℝ), distSq (moved2 t r p) (moved2 t r q) = distSq p q) ∧
    (∀ (t rpy p q : Fin 3 → ℝ), distSq (movedRPY t rpy p) (movedRPY t rpy q) = distSq p q) ∧
    (∀ (t : Fin 3 → ℝ) (r : Quat) (p q : Fin 3 → ℝ), quatNormSq r = 1 → distSq (moved3 t r p) (moved3 t r q) = distSq p q) := by
  have h3 : ∀ (t : Fin 3 → ℝ) (r : Quat) (p q : Fin 3 → ℝ), quatNormSq r = 1 → distSq (moved3 t r p) (moved3 t r q) = distSq p q := by
    intro t r p q h
    rw [← rotate_dist r h p q]
    unfold distSq moved3
    refine Finset.sum_congr rfl fun i _ => ?_
    ring
  refine ⟨fun t r p q => ?_, fun t rpy p q => h3 _ _ _ _ (C63_rpy t rpy p).1, h3⟩
  have h := sin_sq_add_cos_sq r
  unfold distSq
  rw [Fin.sum_univ_two, Fin.sum_univ_two]
  show (cos r * p 0 - sin r * p 1 + t 0 - (cos r * q 0 - sin r * q 1 + t 0)) ^ 2 + (sin r * p 0 + cos r * p 1 + t 1 - (sin r * q 0 + cos r * q 1 + t 1)) ^ 2 = _
  linear_combination ((p 0 - q 0) ^ 2 + (p 1 - q 1) ^ 2) * h

/-- without the norm, distances do change -/
example : distSq (moved3 ![0, 0, 0] ⟨1, 1, 0, 0⟩ ![0, 1, 0]) (moved3 ![0, 0, 0] ⟨1, 1, 0, 0⟩ ![0, 0, 0]) ≠ distSq ![0, 1, 0] ![0, 0, 0] := by
  simp [distSq, Fin.sum_univ_three, moved3, rotate_zero, rotate_one, rotate_two]
  norm_num

/-! ### yaw-only quaternion updates -/

theorem half_clamp (delta : ℝ) : 0 ≤ 1 - clamp delta (-(1 / 2)) (1 / 2) * clamp delta (-(1 / 2)) (1 / 2) := by
  obtain ⟨h1, h2⟩ := clamp_mem delta (-(1 / 2)) (1 / 2) (by norm_num)
  nlinarith

theorem yawQuat_unit (delta : ℝ) : quatNormSq ⟨√(1 - clamp delta (-(1 / 2)) (1 / 2) * clamp delta (-(1 / 2)) (1 / 2)), 0, 0, clamp delta (-(1 / 2)) (1 / 2)⟩ = 1 := by
  unfold quatNormSq
  simp only
  rw [sq_sqrt (half_clamp delta)]
  ring

/-- **C45** The yaw-only quaternion update keeps the norm of the quaternion, so unit quaternions stay unit quaternions, and a zero step changes nothing. -/
theorem C45_yaw_quat (q : Quat) (delta : ℝ) : quatNormSq (yawOnlyQuatPlus q delta) = quatNormSq q ∧ yawOnlyQuatPlus q 0 = q := by
  constructor
  · show quatNormSq (Quat.mul _ q) = _
    rw [quatNormSq_mul, yawQuat_unit, one_mul]
  · have : clamp 0 (-(1 / 2)) (1 / 2) = 0 := clamp_of_mem (by norm_num) (by norm_num)
    unfold yawOnlyQuatPlus
    simp only [this, mul_zero, sub_zero, sqrt_one, Quat.mul]
    ext <;> simp

/-- The angle of a yaw-only quaternion step. -/
noncomputable def Spec.stepAngle (delta : ℝ) : ℝ := 2 * arcsin (max (-(1 / 2)) (min (1 / 2) delta))

theorem clamp_eq (delta : ℝ) : clamp delta (-(1 / 2)) (1 / 2) = max (-(1 / 2)) (min (1 / 2) delta) := by
  unfold clamp
  split_ifs with h1 h2
  · rw [min_eq_left h1.le, max_eq_right (by norm_num)]
  · rw [min_eq_right (by linarith), max_eq_left h2.le]
  · rw [min_eq_right (by linarith), max_eq_right (by linarith)]

theorem yawQuat_eq (q : Quat) (delta : ℝ) : yawOnlyQuatPlus q delta = (Quat.mk (cos (stepAngle delta / 2)) 0 0 (sin (stepAngle delta / 2))).mul q := by
  obtain ⟨h1, h2⟩ := clamp_mem delta (-(1 / 2)) (1 / 2) (by norm_num)
  rw [clamp_eq] at h1 h2
  unfold yawOnlyQuatPlus stepAngle
  simp only [clamp_eq]
  rw [mul_div_cancel_left₀ _ (by norm_num : (2 : ℝ) ≠ 0), cos_arcsin, sin_arcsin (by linarith) (by linarith), sq]

/-- **C45**, **C61** The yaw-only quaternion update turns the scan about the vertical axis of the map by the angle `2 arcsin δ`, the step being clamped to `[-1/2, 1/2]`. -/
theorem C45_yaw_quat_rotation (q : Quat) (hq : quatNormSq q = 1) (delta : ℝ) (v : Fin 3 → ℝ) :
    (yawOnlyQuatPlus q delta).rotate v = rotZ (stepAngle delta) (q.rotate v) := by
  rw [yawQuat_eq, rotate_mul _ _ (unit_z _) hq, rotate_qz]

/-- a step of 1/2 is a rotation by 60 degrees -/
example : stepAngle (1 / 2) = π / 3 ∧ stepAngle 7 = π / 3 ∧ stepAngle 0 = 0 := by
  have h : arcsin (1 / 2) = π / 6 := by
    rw [← sin_pi_div_six]
    refine arcsin_sin ?_ ?_ <;> linarith [pi_pos]
  refine ⟨?_, ?_, ?_⟩
  · unfold stepAngle
    rw [min_self, max_eq_right (by norm_num), h]
    ring
  · unfold stepAngle
    rw [min_eq_left (by norm_num), max_eq_right (by norm_num), h]
    ring
  · unfold stepAngle
    rw [min_eq_right (by norm_num), max_eq_right (by norm_num), arcsin_zero, mul_zero]

/-- **C45** (part) Steps of the yaw-only quaternion update compose by adding their angles. -/
theorem C45_compose_partial (q : Quat) (hq : quatNormSq q = 1) (delta delta' : ℝ) (v : Fin 3 → ℝ) :
    (yawOnlyQuatPlus (yawOnlyQuatPlus q delta) delta').rotate v = rotZ (stepAngle delta + stepAngle delta') (q.rotate v) := by
  rw [C45_yaw_quat_rotation _ (by rw [(C45_yaw_quat q delta).1, hq]), C45_yaw_quat_rotation _ hq]
  refine ext3 ?_ ?_ ?_
  · show cos _ * (cos _ * _ - sin _ * _) - sin _ * (sin _ * _ + cos _ * _) = cos _ * _ - sin _ * _
    rw [cos_add, sin_add]
    ring
  · show sin _ * (cos _ * _ - sin _ * _) + cos _ * (sin _ * _ + cos _ * _) = sin _ * _ + cos _ * _
    rw [cos_add, sin_add]
    ring
  · rfl

/-- **C45** is false of the code for the composition of quaternion steps: two steps of 1/4 are not a step of 1/2. -/
theorem C45_compose_refuted : yawOnlyQuatPlus (yawOnlyQuatPlus ⟨1, 0, 0, 0⟩ (1 / 4)) (1 / 4) ≠ yawOnlyQuatPlus ⟨1, 0, 0, 0⟩ (1 / 4 + 1 / 4) := by
  have c1 : clamp (1 / 4) (-(1 / 2)) (1 / 2) = 1 / 4 := clamp_of_mem (by norm_num) (by norm_num)
  have c2 : clamp (1 / 4 + 1 / 4) (-(1 / 2)) (1 / 2) = 1 / 2 := by rw [clamp_of_mem] <;> norm_num
  intro h
  have h := congrArg Quat.z h
  unfold yawOnlyQuatPlus at h
  simp only [c1, c2, Quat.mul] at h
  have e : √(1 - 1 / 4 * (1 / 4) : ℝ) = 1 := by
    linarith
  have := sq_sqrt (show (0 : ℝ) ≤ 1 - 1 / 4 * (1 / 4) by norm_num)
  rw [e] at this
  norm_num at this

/-! ### C61 -/

theorem rotate_yaw_two (c s : ℝ) (h : c ^ 2 + s ^ 2 = 1) (q : Quat) (v : Fin 3 → ℝ) : ((Quat.mk c 0 0 s).mul q).rotate v 2 = q.rotate v 2 := by
  rw [rotate_two, rotate_two]
  simp only [Quat.mul]
  linear_combination (2 * q.w * (q.x * v 1 - q.y * v 0) + 2 * q.x * (q.z * v 0 - q.x * v 2) - 2 * q.y * (q.y * v 2 - q.z * v 1)) * h

/-- **C61** Yaw-only updates leave the height of every transformed point, hence roll and pitch, unchanged: for quaternions (of any norm) and for Euler angles. -/
theorem C61_yaw_only :
    (∀ (t : Fin 3 → ℝ) (q : Quat) (delta : ℝ) (p : Fin 3 → ℝ), moved3 t (yawOnlyQuatPlus q delta) p 2 = moved3 t q p 2) ∧
    (∀ (t x : Fin 3 → ℝ) (delta : ℝ) (p : Fin 3 → ℝ), movedRPY t (yawOnlyEulerPlus x delta) p 2 = movedRPY t x p 2) := by
  constructor
  · intro t q delta p
    show (Quat.mul _ q).rotate p 2 + _ = _
    rw [rotate_yaw_two]
    · rfl
    · rw [sq_sqrt (half_clamp delta)]
      ring
  · intro t x delta p
    rw [(C63_rpy _ _ _).2, (C63_rpy _ _ _).2]
    rfl

/-- the update does change the transformed points -/
example : moved3 ![0, 0, 0] (yawOnlyQuatPlus ⟨1, 0, 0, 0⟩ (1 / 2)) ![1, 0, 3] 2 = 3 ∧ moved3 ![0, 0, 0] (yawOnlyQuatPlus ⟨1, 0, 0, 0⟩ (1 / 2)) ![1, 0, 3] 0 ≠ 1 := by
  constructor
  · rw [C61_yaw_only.1]
    simp [moved3, rotate_two]
  · show (yawOnlyQuatPlus ⟨1, 0, 0, 0⟩ (1 / 2)).rotate ![1, 0, 3] 0 + 0 ≠ 1
    have c2 : clamp (1 / 2) (-(1 / 2)) (1 / 2) = 1 / 2 := by rw [clamp_of_mem] <;> norm_num
    rw [rotate_zero]
    simp only [yawOnlyQuatPlus, c2, Quat.mul]
    simp

/-! ### C46 -/

/-- **C46** is false of the code: for quaternions of norm 1, the sum of the squared residuals is the same for all rotations, so the cost neither vanishes at the prior nor grows with the distance from it. -/
theorem C46_constant_refuted (weight : ℝ) (prior rotation : Quat) (hp : quatNormSq prior = 1) (hq : quatNormSq rotation = 1) :
    ∑ i, rotationResidualQuat weight prior rotation i ^ 2 = weight ^ 2 := by
  have e : ∑ i, rotationResidualQuat weight prior rotation i ^ 2 = weight ^ 2 * (quatNormSq prior * quatNormSq rotation) := by
    rw [Fin.sum_univ_four]
    simp only [rotationResidualQuat, Quat.mul, Quat.inv, quatNormSq, Matrix.cons_val_zero, Matrix.cons_val_one, Matrix.cons_val]
    ring
  rw [e, hp, hq]
  ring

/-- at the prior itself, and half a turn away from it, the cost is 9 for weight 3 -/
example : ∑ i, rotationResidualQuat 3 ⟨1, 0, 0, 0⟩ ⟨1, 0, 0, 0⟩ i ^ 2 = 3 ^ 2 ∧ ∑ i, rotationResidualQuat 3 ⟨1, 0, 0, 0⟩ ⟨0, 0, 0, 1⟩ i ^ 2 = 3 ^ 2 :=
  ⟨C46_constant_refuted 3 _ _ (by norm_num [quatNormSq]) (by norm_num [quatNormSq]), C46_constant_refuted 3 _ _ (by norm_num [quatNormSq]) (by norm_num [quatNormSq])⟩

/-- **C46** (part) The last three residuals alone vanish exactly for the prior rotation (given by either of its two quaternions). -/
theorem C46_vector_part_partial (weight : ℝ) (hw : weight ≠ 0) (prior rotation : Quat) (hp : quatNormSq prior = 1) (hq : quatNormSq rotation = 1) :
    (rotationResidualQuat weight prior rotation 1 = 0 ∧ rotationResidualQuat weight prior rotation 2 = 0 ∧ rotationResidualQuat weight prior rotation 3 = 0) ↔
      (rotation = prior ∨ rotation = quatNeg prior) := by
  show (weight * (prior.inv.mul rotation).x = 0 ∧ weight * (prior.inv.mul rotation).y = 0 ∧ weight * (prior.inv.mul rotation).z = 0) ↔ _
  have hn : quatNormSq (prior.inv.mul rotation) = 1 := by
    rw [quatNormSq_mul, hq, mul_one, ← hp]
    unfold quatNormSq Quat.inv
    ring
  have hback : prior.mul (prior.inv.mul rotation) = rotation := by
    unfold quatNormSq at hp
    unfold Quat.mul Quat.inv
    ext
    · simp only; linear_combination rotation.w * hp
    · simp only; linear_combination rotation.x * hp
    · simp only; linear_combination rotation.y * hp
    · simp only; linear_combination rotation.z * hp
  constructor
  · rintro ⟨h1, h2, h3⟩
    have h1 := (mul_eq_zero.1 h1).resolve_left hw
    have h2 := (mul_eq_zero.1 h2).resolve_left hw
    have h3 := (mul_eq_zero.1 h3).resolve_left hw
    have hw2 : (prior.inv.mul rotation).w ^ 2 = 1 := by
      unfold quatNormSq at hn
      rw [h1, h2, h3] at hn
      linarith
    generalize prior.inv.mul rotation = u at *
    rcases sq_eq_one_iff.1 hw2 with h | h
    · left
      rw [← hback]
      unfold Quat.mul
      rw [h, h1, h2, h3]
      ext <;> simp
    · right
      rw [← hback]
      unfold Quat.mul quatNeg
      rw [h, h1, h2, h3]
      ext <;> simp
  · rintro (h | h)
    · subst h
      unfold Quat.mul Quat.inv
      simp only
      refine ⟨?_, ?_, ?_⟩ <;> ring
    · subst h
      unfold Quat.mul Quat.inv quatNeg
      simp only
      refine ⟨?_, ?_, ?_⟩ <;> ring

end Ndt
