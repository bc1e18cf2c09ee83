import Verif.Props.MatchFrame

/-!
Property theorem C101 for nlopt with quaternions. The function that is minimised compares the roll, pitch and yaw of the pose with the entries 3, 4 and 5 of the initial guess. If the guess is a quaternion like the pose (this is what the size of
the guess, 7, says), then the value depends on the frame (`C101_nlopt_quaternion_refuted`). If the entries hold Euler angles (this is what the comment `rpy` beside the comparison says), then the value does not depend on the frame for motions
that keep the vertical direction (`C101_nlopt_quaternion_partial`).
-/

namespace Ndt

open Real Matching Spec

/-- `r` are the roll, pitch and yaw of the rotation `q`: the rotation about x by the roll, then about y by the pitch, then about z by the yaw, where the pitch is at most a quarter turn. This is what the functions of the external quaternion
class compute. -/
structure Spec.EulerAngles (q : Quat) (r : Fin 3 → ℝ) : Prop where
  rotate : ∀ p, q.rotate p = rotZ (r 2) (rotY (r 1) (rotX (r 0) p))
  pitch : |r 1| ≤ π / 2

/-- the Euler angles of a rotation that is followed by a rotation about the vertical axis, unless the rotation turns the x axis to the vertical -/
theorem euler_turned {c : ℝ} {q q' : Quat} {r r' : Fin 3 → ℝ} (h : EulerAngles q r) (h' : EulerAngles q' r') (hq : ∀ p, q'.rotate p = rotZ c (q.rotate p)) (hp : |r 1| ≠ π / 2) : TurnedBy c r r' := by
  have e : ∀ p i, rotZ (r' 2) (rotY (r' 1) (rotX (r' 0) p)) i = rotZ c (rotZ (r 2) (rotY (r 1) (rotX (r 0) p))) i := by
    intro p i
    rw [← h'.rotate, ← h.rotate, hq]
  simp only [← rotZ_add] at e
  have b : |r 1| < π / 2 := lt_of_le_of_ne h.pitch hp
  have hc : 0 < cos (r 1) := cos_pos_of_mem_Ioo (by rw [abs_lt] at b; exact ⟨b.1, b.2⟩)
  have e02 := e ![1, 0, 0] 2
  have e12 := e ![0, 1, 0] 2
  have e22 := e ![0, 0, 1] 2
  have e00 := e ![1, 0, 0] 0
  have e01 := e ![1, 0, 0] 1
  simp only [rotX, rotY, rotZ, Matrix.cons_val_zero, Matrix.cons_val_one, Matrix.cons_val_two, Matrix.head_cons, Matrix.tail_cons, Matrix.cons_val, mul_one, mul_zero, add_zero, sub_zero, zero_add, zero_sub] at e02 e12 e22 e00 e01
  have e1 : r' 1 = r 1 := by
    have b' := h'.pitch
    rw [abs_le] at b'
    rw [abs_lt] at b
    exact injOn_sin ⟨by linarith [b'.1], b'.2⟩ ⟨by linarith [b.1], b.2.le⟩ (by linarith)
  rw [e1] at e12 e22 e00 e01
  have n := hc.ne'
  refine ⟨sameAngle_of_cos_sin ?_ ?_, by rw [e1]; exact ⟨0, by simp⟩, sameAngle_of_cos_sin ?_ ?_⟩
  · exact mul_left_cancel₀ n (by linarith)
  · exact mul_left_cancel₀ n (by linarith)
  · exact mul_right_cancel₀ n (by linarith)
  · exact mul_right_cancel₀ n (by linarith)

/-- the entries of the guess that are compared with the roll, pitch and yaw -/
def Spec.guessAngles (x : Fin 7 → ℝ) : Fin 3 → ℝ := ![x 3, x 4, x 5]

/-- **C101** (nlopt, 3D with quaternions; partial). For guesses whose entries 3 to 5 are Euler angles, motions of the world that keep the vertical direction, and poses that do not turn the x axis to the vertical. The roll, pitch and yaw are the
external ones, which are required to be those of the two rotations. -/
theorem C101_nlopt_quaternion_partial (c : ℝ) (τ : Fin 3 → ℝ) (roll pitch yaw : Quat → ℝ) (F F' : Functor 7 3) (h : MovedFunctor (fun p i => rotZ c p i + τ i) F F') (hd : ShortestDif F.dif)
    (ha : ∀ x p, F.act x p = moved3 (translationOf x) (quatOf x) p) (ha' : ∀ x p, F'.act x p = moved3 (translationOf x) (quatOf x) p) (x x' : Fin 7 → ℝ)
    (hg : translationOf F'.guess = fun i => rotZ c (translationOf F.guess) i + τ i) (hgr : TurnedBy c (guessAngles F.guess) (guessAngles F'.guess))
    (hx : ∀ p, F'.act x' p = fun i => rotZ c (F.act x p) i + τ i)
    (he : EulerAngles (quatOf x) ![roll (quatOf x), pitch (quatOf x), yaw (quatOf x)]) (he' : EulerAngles (quatOf x') ![roll (quatOf x'), pitch (quatOf x'), yaw (quatOf x')])
    (hv : |pitch (quatOf x)| ≠ π / 2) :
    F'.nloptQuat roll pitch yaw x' = F.nloptQuat roll pitch yaw x ∧ F'.nloptOccQuat roll pitch yaw x' = F.nloptOccQuat roll pitch yaw x := by
  have hx2 := hx
  simp only [ha, ha', moved3_eq] at hx2
  have r0 : ∀ q : Quat, q.rotate 0 = 0 := by
    intro q
    refine ext3 ?_ ?_ ?_ <;> simp [rotate_zero, rotate_one, rotate_two]
  have ht' : translationOf x' = fun i => rotZ c (translationOf x) i + τ i := by
    have := hx2 0
    simpa only [r0, zero_add] using this
  have hrot : ∀ p, (quatOf x').rotate p = rotZ c ((quatOf x).rotate p) := by
    intro p
    funext i
    have := congrFun (hx2 p) i
    rw [ht', show (quatOf x).rotate p + translationOf x = fun i => (quatOf x).rotate p i + translationOf x i from rfl, rotZ_affine] at this
    simp only [Pi.add_apply] at this
    linarith
  have hxr := euler_turned he he' hrot hv
  have ht := translation_terms (n := 4) (x := x) (x' := x') (guess := F.guess) (guess' := F'.guess) (by
    rw [ht', hg, ← rotZ_dist c (translationOf x)]
    unfold distSq
    exact Finset.sum_congr rfl fun i _ => by ring)
  have turned : ∀ {a a' b b' : Fin 3 → ℝ}, TurnedBy c a a' → TurnedBy c b b' → ∀ i, |F.dif (a' i) (b' i)| = |F.dif (a i) (b i)| := by
    intro a a' b b' hx1 h2 i
    refine hd.abs_eq ?_
    obtain ⟨k0, h0⟩ := hx1.roll
    obtain ⟨k1, h1⟩ := hx1.pitch
    obtain ⟨k2, h2'⟩ := hx1.yaw
    obtain ⟨l0, e0⟩ := h2.roll
    obtain ⟨l1, e1⟩ := h2.pitch
    obtain ⟨l2, e2⟩ := h2.yaw
    match i with
    | 0 => exact ⟨k0 - l0, by push_cast; linarith⟩
    | 1 => exact ⟨k1 - l1, by push_cast; linarith⟩
    | 2 => exact ⟨k2 - l2, by push_cast; linarith⟩
  have key := turned hxr hgr
  have k0 : |F.dif (roll (quatOf x')) (F'.guess 3)| = |F.dif (roll (quatOf x)) (F.guess 3)| := key 0
  have k1 : |F.dif (pitch (quatOf x')) (F'.guess 4)| = |F.dif (pitch (quatOf x)) (F.guess 4)| := key 1
  have k2 : |F.dif (yaw (quatOf x')) (F'.guess 5)| = |F.dif (yaw (quatOf x)) (F.guess 5)| := key 2
  have htr : Functor.trans3 (n := 4) F' x' = Functor.trans3 (n := 4) F x := by
    unfold Functor.trans3 hypot3
    simp only [← pow_two]
    rw [ht]
  have hrr : F'.rotQuat roll pitch yaw x' = F.rotQuat roll pitch yaw x := by
    show hypot3 (F'.dif (roll (quatOf x')) _) (F'.dif (pitch (quatOf x')) _) (F'.dif (yaw (quatOf x')) _) = hypot3 (F.dif (roll (quatOf x)) _) (F.dif (pitch (quatOf x)) _) (F.dif (yaw (quatOf x)) _)
    unfold hypot3
    simp only [← pow_two, h.dif]
    rw [← sq_abs (F.dif (roll (quatOf x')) _), ← sq_abs (F.dif (pitch (quatOf x')) _), ← sq_abs (F.dif (yaw (quatOf x')) _), k0, k1, k2, sq_abs, sq_abs, sq_abs]
  constructor
  · unfold Functor.nloptQuat Functor.weighted
    rw [sumCost_moved h hx, hrr, htr, h.mapW, h.points, h.transW, h.rotW, h.tiny]
  · unfold Functor.nloptOccQuat Functor.weighted
    rw [sumCost_moved h hx, hrr, htr, h.mapW, h.points, h.transW, h.rotW, h.tiny]

/-- every pose that is given by Euler angles meets the hypotheses, for the motion by any angle about the vertical axis -/
theorem euler_toEigen (r : Fin 3 → ℝ) (hp : |r 1| ≤ π / 2) : EulerAngles (toEigen r) r where
  pitch := hp
  rotate p := by
    have := (C63_rpy 0 r p).2
    unfold movedRPY moved3 at this
    simpa using this

example (c : ℝ) : EulerAngles (toEigen ![1/2, 1/4, 1]) ![1/2, 1/4, 1] ∧ EulerAngles (toEigen ![1/2, 1/4, 1 + c]) ![1/2, 1/4, 1 + c] ∧
    (∀ p, (toEigen ![1/2, 1/4, 1 + c]).rotate p = rotZ c ((toEigen ![1/2, 1/4, 1]).rotate p)) ∧ |((1 : ℝ)/4)| ≠ π / 2 := by
  have h3 := pi_gt_three
  have e1 := euler_toEigen ![1/2, 1/4, 1] (by norm_num [abs_of_pos]; linarith)
  have e2 := euler_toEigen ![1/2, 1/4, 1 + c] (by norm_num [abs_of_pos]; linarith)
  refine ⟨e1, e2, fun p => ?_, ?_⟩
  · rw [e1.rotate, e2.rotate, ← rotZ_add]
    rfl
  · rw [abs_of_pos (by norm_num)]
    linarith

/-- the pose in the identity, and the pose after a quarter turn of the world about the vertical axis -/
noncomputable def quarterTurned : Fin 7 → ℝ := ![0, 0, 0, 0, 0, √2 / 2, √2 / 2]
def notTurned : Fin 7 → ℝ := ![0, 0, 0, 0, 0, 0, 1]

/-- **C101** (nlopt, 3D with quaternions; refuted). If the guess is a quaternion like the pose, then the value depends on the frame: take the guess itself as the pose, in a map that has the same score everywhere, and turn the world by a quarter
turn about the vertical axis. The hypotheses on the external functions are their values at these two rotations. -/
theorem C101_nlopt_quaternion_refuted (roll pitch yaw : Quat → ℝ) (h0 : roll ⟨1, 0, 0, 0⟩ = 0 ∧ pitch ⟨1, 0, 0, 0⟩ = 0 ∧ yaw ⟨1, 0, 0, 0⟩ = 0) (h1 : yaw ⟨√2 / 2, 0, 0, √2 / 2⟩ = π / 2) :
    ∃ F F' : Functor 7 3, MovedFunctor (rotZ (π / 2)) F F' ∧ ShortestDif F.dif ∧ (∀ x p, F.act x p = moved3 (translationOf x) (quatOf x) p) ∧ (∀ x p, F'.act x p = moved3 (translationOf x) (quatOf x) p) ∧
      (∀ p, F'.act F'.guess p = rotZ (π / 2) (F.act F.guess p)) ∧ F.nloptQuat roll pitch yaw F.guess < F'.nloptQuat roll pitch yaw F'.guess := by
  set F : Functor 7 3 := ⟨[![1, 2, 3]], fun _ => .fin 1, fun x => moved3 (translationOf x) (quatOf x), angleDifference, notTurned, 1, 1, 1, 1⟩ with hF
  set F' : Functor 7 3 := { F with guess := quarterTurned } with hF'
  refine ⟨F, F', ⟨rfl, fun _ => rfl, rfl, rfl, rfl, rfl, rfl⟩, shortestDif_model, fun _ _ => rfl, fun _ _ => rfl, ?_, ?_⟩
  · intro p
    have t : translationOf quarterTurned = 0 ∧ translationOf notTurned = 0 := by
      constructor <;> refine ext3 ?_ ?_ ?_ <;> rfl
    have q : quatOf quarterTurned = Quat.mk (cos (π / 2 / 2)) 0 0 (sin (π / 2 / 2)) := by
      rw [show π / 2 / 2 = π / 4 by ring, cos_pi_div_four, sin_pi_div_four]
      rfl
    show moved3 (translationOf quarterTurned) (quatOf quarterTurned) p = rotZ (π / 2) (moved3 (translationOf notTurned) (quatOf notTurned) p)
    rw [moved3_eq, moved3_eq, t.1, t.2, q, rotate_qz, show quatOf notTurned = Quat.mk 1 0 0 0 from rfl, one_rotate, add_zero, add_zero]
  · have hlt := C65_nlopt_quat_refuted roll pitch yaw h1 F' angleDif_model one_pos rfl
    refine lt_of_eq_of_lt ?_ hlt
    have ht : F.trans3 F.guess = 0 := by
      unfold Functor.trans3
      rw [hypot3_eq_zero]
      exact ⟨sub_self _, sub_self _, sub_self _⟩
    have hr : F.rotQuat roll pitch yaw F.guess = 0 := by
      show hypot3 (angleDifference (roll ⟨1, 0, 0, 0⟩) 0) (angleDifference (pitch ⟨1, 0, 0, 0⟩) 0) (angleDifference (yaw ⟨1, 0, 0, 0⟩) 0) = 0
      rw [h0.1, h0.2.1, h0.2.2, hypot3_eq_zero]
      have : angleDifference 0 0 = 0 := (angleDif_model 0 0).2 ⟨0, by simp⟩
      exact ⟨this, this, this⟩
    unfold Functor.nloptQuat Functor.weighted
    rw [ht, hr]
    simp only [abs_zero, mul_zero, add_zero]
    rfl

/-- values of the Euler angles as the hypotheses require them -/
example : ∃ roll pitch yaw : Quat → ℝ, (roll ⟨1, 0, 0, 0⟩ = 0 ∧ pitch ⟨1, 0, 0, 0⟩ = 0 ∧ yaw ⟨1, 0, 0, 0⟩ = 0) ∧ yaw ⟨√2 / 2, 0, 0, √2 / 2⟩ = π / 2 ∧
    EulerAngles ⟨√2 / 2, 0, 0, √2 / 2⟩ ![0, 0, π / 2] := by
  refine ⟨fun _ => 0, fun _ => 0, fun q => if q.z = 0 then 0 else π / 2, ⟨rfl, rfl, if_pos rfl⟩, if_neg (by positivity), ⟨fun p => ?_, by simpa using by positivity⟩⟩
  have e := rotate_qz (π / 2) p
  rw [show π / 2 / 2 = π / 4 by ring, cos_pi_div_four, sin_pi_div_four] at e
  rw [e]
  simp only [Matrix.cons_val_zero, Matrix.cons_val_one, Matrix.cons_val_two, Matrix.head_cons, Matrix.tail_cons]
  refine ext3 ?_ ?_ ?_ <;> simp [rotX, rotY, rotZ]

end Ndt
