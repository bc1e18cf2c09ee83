import Verif.Props.Frame
import Verif.Props.Problem
import Verif.Props.MatchingMore
import Mathlib.Analysis.SpecialFunctions.Trigonometric.Angle

/-!
Property theorem C101: scan matching judges the pose of the scan relative to the map. If the map, the guess and the pose that is judged are moved by the same motion `T` of the world, then the value that the optimiser minimises does not
change, and the best pose of the moved problem is the moved best pose.

The statements speak about poses as maps on points: `moved2 t' r' p = T (moved2 t r p)` for all `p` says that the pose `(t', r')` is the pose `(t, r)` followed by `T`.
-/

namespace Ndt

open Real Matching Spec

/-! ### angles and poses -/

theorem sameAngle_of_cos_sin {a b : ℝ} (hc : cos a = cos b) (hs : sin a = sin b) : SameAngle a b :=
  Real.Angle.angle_eq_iff_two_pi_dvd_sub.1 (Real.Angle.cos_sin_inj hc hs)

theorem cos_sin_of_sameAngle {a b : ℝ} (h : SameAngle a b) : cos a = cos b ∧ sin a = sin b := by
  have e := Real.Angle.angle_eq_iff_two_pi_dvd_sub.2 h
  rw [← Real.Angle.cos_coe, ← Real.Angle.cos_coe, ← Real.Angle.sin_coe, ← Real.Angle.sin_coe, e]
  exact ⟨rfl, rfl⟩

/-- two numbers of at most half a turn that are the same angle have the same absolute value -/
theorem abs_eq_of_shortest {x y : ℝ} (hx : |x| ≤ π) (hy : |y| ≤ π) (h : SameAngle x y) : |x| = |y| := by
  by_cases hlt : |x - y| < 2 * π
  · rw [eq_of_sameAngle h hlt]
  · push Not at hlt
    have := abs_sub x y
    linarith

/-- `dif` is the difference of two angles of at most half a turn -/
def Spec.ShortestDif (dif : ℝ → ℝ → ℝ) : Prop := ∀ a b, SameAngle (dif a b) (a - b) ∧ |dif a b| ≤ π

theorem shortestDif_model : ShortestDif angleDifference := fun a b => ⟨(C44_angle_difference a b).1, (C44_angle_difference a b).2.1⟩

theorem Spec.ShortestDif.abs_eq {dif : ℝ → ℝ → ℝ} (h : ShortestDif dif) {a b a' b' : ℝ} (hs : SameAngle (a' - b') (a - b)) : |dif a' b'| = |dif a b| :=
  abs_eq_of_shortest (h a' b').2 (h a b).2 (((h a' b').1.trans hs).trans (h a b).1.symm)

theorem ext2 {u v : Fin 2 → ℝ} (h0 : u 0 = v 0) (h1 : u 1 = v 1) : u = v := by
  funext i
  match i with
  | 0 => exact h0
  | 1 => exact h1

theorem moved2_origin (t : Fin 2 → ℝ) (r : ℝ) : moved2 t r (fun _ => 0) = t := by
  refine ext2 ?_ ?_ <;> simp [moved2]

/-- the point that a pose takes to `x` -/
noncomputable def unmoved2 (t : Fin 2 → ℝ) (r : ℝ) (x : Fin 2 → ℝ) : Fin 2 → ℝ := ![cos r * (x 0 - t 0) + sin r * (x 1 - t 1), -sin r * (x 0 - t 0) + cos r * (x 1 - t 1)]

theorem moved2_unmoved2 (t : Fin 2 → ℝ) (r : ℝ) (x : Fin 2 → ℝ) : moved2 t r (unmoved2 t r x) = x := by
  have h := sin_sq_add_cos_sq r
  refine ext2 ?_ ?_
  · show cos r * (cos r * (x 0 - t 0) + sin r * (x 1 - t 1)) - sin r * (-sin r * (x 0 - t 0) + cos r * (x 1 - t 1)) + t 0 = x 0
    linear_combination (x 0 - t 0) * h
  · show sin r * (cos r * (x 0 - t 0) + sin r * (x 1 - t 1)) + cos r * (-sin r * (x 0 - t 0) + cos r * (x 1 - t 1)) + t 1 = x 1
    linear_combination (x 1 - t 1) * h

/-- two poses that are moved by the same `T` keep their distance and their angle -/
theorem poses2 {T : (Fin 2 → ℝ) → Fin 2 → ℝ} {t t' u u' : Fin 2 → ℝ} {r r' s s' : ℝ} (ht : ∀ p, moved2 t' r' p = T (moved2 t r p)) (hu : ∀ p, moved2 u' s' p = T (moved2 u s p)) :
    distSq t' u' = distSq t u ∧ SameAngle (r' - s') (r - s) := by
  have hT : ∀ x, T x = moved2 t' r' (unmoved2 t r x) := by
    intro x
    rw [ht, moved2_unmoved2]
  constructor
  · have e1 : t' = moved2 t' r' (fun _ => 0) := (moved2_origin _ _).symm
    have e2 : u' = moved2 t' r' (unmoved2 t r u) := by
      rw [← hT u]
      conv_rhs => rw [← moved2_origin u s]
      rw [← hu, moved2_origin]
    rw [e1, e2, C63_rigid.1]
    have := C63_rigid.1 t r (fun _ => 0) (unmoved2 t r u)
    rw [moved2_origin, moved2_unmoved2] at this
    exact this.symm
  · have h0 : u' = moved2 t' r' (unmoved2 t r u) := by
      rw [← hT u]
      conv_rhs => rw [← moved2_origin u s]
      rw [← hu, moved2_origin]
    have h1 : moved2 u' s' ![1, 0] = moved2 t' r' (unmoved2 t r (moved2 u s ![1, 0])) := by rw [hu, hT]
    have a0 := congrFun h0 0
    have a1 := congrFun h0 1
    have b0 := congrFun h1 0
    have b1 := congrFun h1 1
    simp only [moved2, unmoved2, Matrix.cons_val_zero, Matrix.cons_val_one, mul_one, mul_zero, sub_zero, add_zero] at a0 a1 b0 b1
    have hc : cos s' = cos (r' + (s - r)) := by
      rw [cos_add, cos_sub, sin_sub]
      linear_combination b0 - a0
    have hs : sin s' = sin (r' + (s - r)) := by
      rw [sin_add, cos_sub, sin_sub]
      linear_combination b1 - a1
    obtain ⟨k, hk⟩ := sameAngle_of_cos_sin hc hs
    exact ⟨-k, by push_cast; linarith⟩

theorem moved3_origin (t : Fin 3 → ℝ) (q : Quat) : moved3 t q (fun _ => 0) = t := by
  refine ext3 ?_ ?_ ?_ <;> simp [moved3, rotate_zero, rotate_one, rotate_two]

theorem inv_unit (q : Quat) (h : quatNormSq q = 1) : quatNormSq q.inv = 1 := by
  rw [← h]
  simp only [quatNormSq, Quat.inv]
  ring

theorem mul_inv_one (q : Quat) (h : quatNormSq q = 1) : q.mul q.inv = ⟨1, 0, 0, 0⟩ := by
  unfold quatNormSq at h
  ext
  · simp only [Quat.mul, Quat.inv]; linear_combination h
  · simp only [Quat.mul, Quat.inv]; ring
  · simp only [Quat.mul, Quat.inv]; ring
  · simp only [Quat.mul, Quat.inv]; ring

theorem one_rotate (v : Fin 3 → ℝ) : (Quat.mk 1 0 0 0).rotate v = v := by
  refine ext3 ?_ ?_ ?_ <;> simp [rotate_zero, rotate_one, rotate_two]

theorem moved3_unmoved (t : Fin 3 → ℝ) (q : Quat) (h : quatNormSq q = 1) (x : Fin 3 → ℝ) : moved3 t q (q.inv.rotate fun i => x i - t i) = x := by
  unfold moved3
  rw [← rotate_mul _ _ h (inv_unit q h), mul_inv_one q h, one_rotate]
  funext i
  ring

theorem poses3 {T : (Fin 3 → ℝ) → Fin 3 → ℝ} {t t' u u' : Fin 3 → ℝ} {q q' s s' : Quat} (hq : quatNormSq q = 1) (hq' : quatNormSq q' = 1)
    (ht : ∀ p, moved3 t' q' p = T (moved3 t q p)) (hu : ∀ p, moved3 u' s' p = T (moved3 u s p)) : distSq t' u' = distSq t u := by
  have hT : ∀ x, T x = moved3 t' q' (q.inv.rotate fun i => x i - t i) := by
    intro x
    rw [ht, moved3_unmoved _ _ hq]
  have e1 : t' = moved3 t' q' (fun _ => 0) := (moved3_origin _ _).symm
  have e2 : u' = moved3 t' q' (q.inv.rotate fun i => u i - t i) := by
    rw [← hT u]
    conv_rhs => rw [← moved3_origin u s]
    rw [← hu, moved3_origin]
  rw [e1, e2, C63_rigid.2.2 _ _ _ _ hq']
  have := C63_rigid.2.2 t q (fun _ => 0) (q.inv.rotate fun i => u i - t i) hq
  rw [moved3_origin, moved3_unmoved _ _ hq] at this
  exact this.symm

/-! ### costs -/

/-- finite residuals count with the sum of their squares, whatever was added before (even NaN) -/
theorem fold_fin_congr {l l' : List ℝ} (h : (l.map (· ^ 2)).sum = (l'.map (· ^ 2)).sum) (s : Fl ℝ) :
    (l.map Fl.fin).foldl (fun s x => s + x * x) s = (l'.map Fl.fin).foldl (fun s x => s + x * x) s := by
  have hn : ∀ l : List ℝ, (l.map Fl.fin).foldl (fun s x => s + x * x) (.nan : Fl ℝ) = .nan := by
    intro l
    induction l with
    | nil => rfl
    | cons x l ih => rw [List.map_cons, List.foldl_cons]; exact ih
  have hi : ∀ (b : Bool) (l : List ℝ), (l.map Fl.fin).foldl (fun s x => s + x * x) (.inf b : Fl ℝ) = .inf b := by
    intro b l
    induction l with
    | nil => rfl
    | cons x l ih => rw [List.map_cons, List.foldl_cons]; exact ih
  cases s with
  | nan => rw [hn, hn]
  | inf b => rw [hi, hi]
  | fin a => rw [cost_fold, cost_fold, h]

/-- two problems with the same scan residuals and with prior residuals of the same size have the same cost -/
theorem cost_alike {X Y : Type} (P P' : Problem X Y) (hP : P.residuals = []) (hP' : P'.residuals = []) (m t r : Prop) [Decidable m] [Decidable t] [Decidable r]
    (fm fm' ft ft' fr fr' : X → Y → List (Fl ℝ)) (x x' : X) (y y' : Y) (lt lt' lr lr' : List ℝ) (hm : m → fm' x' y' = fm x y)
    (ht : ft x y = lt.map .fin) (ht' : ft' x' y' = lt'.map .fin) (hr : fr x y = lr.map .fin) (hr' : fr' x' y' = lr'.map .fin)
    (st : (lt'.map (· ^ 2)).sum = (lt.map (· ^ 2)).sum) (sr : (lr'.map (· ^ 2)).sum = (lr.map (· ^ 2)).sum) :
    (let P := if m then P'.add fm' else P'
     let P := if t then P.add ft' else P
     if r then P.add fr' else P).cost x' y' =
    (let P := if m then P.add fm else P
     let P := if t then P.add ft else P
     if r then P.add fr else P).cost x y := by
  have all_add : ∀ (Q : Problem X Y) f x y, (Q.add f).all x y = Q.all x y ++ f x y := by
    intro Q f x y
    unfold Problem.all Problem.add
    simp
  have all_nil : ∀ Q : Problem X Y, Q.residuals = [] → ∀ x y, Q.all x y = [] := by
    intro Q hQ x y
    unfold Problem.all; rw [hQ]; rfl
  dsimp only
  unfold Problem.cost
  by_cases hm' : m <;> by_cases h2 : t <;> by_cases h3 : r <;>
    simp only [hm', h2, h3, if_true, if_false, all_add, all_nil P hP, all_nil P' hP', List.foldl_append, ht, ht', hr, hr'] <;>
    simp only [hm', forall_true_left] at hm <;>
    first
    | rfl
    | (simp only [hm, fold_fin_congr st, fold_fin_congr sr])

theorem scanBlock_moved {d : Nat} (numeric : Bool) (w : ℝ) (S S' : ScanTerm d) (T f f' : (Fin d → ℝ) → Fin d → ℝ) (hp : S'.points = S.points)
    (hd : ∀ q, S'.evaluateDouble (T q) = S.evaluateDouble q) (hj : ∀ q, S'.evaluateJet (T q) = S.evaluateJet q) (hf : ∀ p, f' p = T (f p)) :
    scanBlock numeric w S' f' = scanBlock numeric w S f := by
  unfold scanBlock createdResiduals scanResiduals
  simp only [hp, hf, hd, hj]

/-- the scan term of the map that was moved by `T`: the same points of the scan, and the moved map has at `T q` the value that the map has at `q` -/
structure Spec.MovedTerm {d : Nat} (T : (Fin d → ℝ) → Fin d → ℝ) (S S' : ScanTerm d) : Prop where
  points : S'.points = S.points
  evaluateDouble : ∀ q, S'.evaluateDouble (T q) = S.evaluateDouble q
  evaluateJet : ∀ q, S'.evaluateJet (T q) = S.evaluateJet q

theorem translation_moved {d : Nat} (w : ℝ) {prior prior' t t' : Fin d → ℝ} (h : distSq t' prior' = distSq t prior) :
    ((List.ofFn (translationResidual w prior' t')).map (· ^ 2)).sum = ((List.ofFn (translationResidual w prior t)).map (· ^ 2)).sum := by
  rw [sum_sq_translation, sum_sq_translation, h]

/-- **C101** (ceres, 2D). If the map, the guess and the pose are moved by the same `T`, the cost does not change — for all weights and both kinds of derivatives, even if the map has values that are not finite. -/
theorem C101_ceres_2d (tw rw' mw : ℝ) (numeric : Bool) (T : (Fin 2 → ℝ) → Fin 2 → ℝ) (S S' : ScanTerm 2) (hS : MovedTerm T S S') (guess guess' t t' : Fin 2 → ℝ) (guessR guessR' : ℝ) (r r' : Fin 1 → ℝ)
    (hg : ∀ p, moved2 guess' guessR' p = T (moved2 guess guessR p)) (ht : ∀ p, moved2 t' (r' 0) p = T (moved2 t (r 0) p)) :
    (problem2d tw rw' mw guess' guessR' numeric S').cost t' r' = (problem2d tw rw' mw guess guessR numeric S).cost t r := by
  obtain ⟨h1, h2⟩ := poses2 ht hg
  refine cost_alike _ _ rfl rfl (mw ≠ 0) (tw ≠ 0) (rw' ≠ 0) _ _ _ _ _ _ t t' r r' (List.ofFn (translationResidual tw guess t)) (List.ofFn (translationResidual tw guess' t'))
    [rotationResidual2 rw' guessR (r 0)] [rotationResidual2 rw' guessR' (r' 0)] ?_ rfl rfl rfl rfl (translation_moved tw h1) ?_
  · intro _
    exact scanBlock_moved numeric mw S S' T _ _ hS.points hS.evaluateDouble hS.evaluateJet ht
  · have h3 : SameAngle (guessR' - r' 0) (guessR - r 0) := by
      obtain ⟨k, hk⟩ := h2
      exact ⟨-k, by push_cast; linarith⟩
    have := shortestDif_model.abs_eq h3
    simp only [rotationResidual2, List.map_cons, List.map_nil, List.sum_cons, List.sum_nil, mul_pow]
    rw [← sq_abs (angleDifference _ _), this, sq_abs]

theorem sum_sq_quat (w : ℝ) (prior q : Quat) : ((List.ofFn (rotationResidualQuat w prior q)).map (· ^ 2)).sum = w ^ 2 * (quatNormSq prior * quatNormSq q) := by
  rw [← show quatNormSq prior.inv = quatNormSq prior by simp only [quatNormSq, Quat.inv]; ring, ← quatNormSq_mul]
  simp only [rotationResidualQuat, quatNormSq, List.ofFn_succ, List.ofFn_zero, List.map_cons, List.map_nil, List.sum_cons, List.sum_nil, Matrix.cons_val_zero, Matrix.cons_val_succ, Fin.succ_zero_eq_one]
  simp
  ring

/-- **C101** (ceres, 3D with quaternions). -/
theorem C101_ceres_quaternion (tw rw' mw : ℝ) (onlyYaw numeric : Bool) (T : (Fin 3 → ℝ) → Fin 3 → ℝ) (S S' : ScanTerm 3) (hS : MovedTerm T S S') (guess guess' t t' : Fin 3 → ℝ) (guessR guessR' q q' : Quat)
    (hgn : quatNormSq guessR = 1) (hgn' : quatNormSq guessR' = 1) (hq : quatNormSq q = 1) (hq' : quatNormSq q' = 1)
    (hg : ∀ p, moved3 guess' guessR' p = T (moved3 guess guessR p)) (ht : ∀ p, moved3 t' q' p = T (moved3 t q p)) :
    (problem3dQuaternion tw rw' mw guess' guessR' onlyYaw numeric S').cost t' q' = (problem3dQuaternion tw rw' mw guess guessR onlyYaw numeric S).cost t q := by
  refine cost_alike _ _ rfl rfl (mw ≠ 0) (tw ≠ 0) (rw' ≠ 0) _ _ _ _ _ _ t t' q q' (List.ofFn (translationResidual tw guess t)) (List.ofFn (translationResidual tw guess' t'))
    (List.ofFn (rotationResidualQuat rw' guessR q)) (List.ofFn (rotationResidualQuat rw' guessR' q')) ?_ rfl rfl rfl rfl (translation_moved tw (poses3 hq hq' ht hg)) ?_
  · intro _
    exact scanBlock_moved numeric mw S S' T _ _ hS.points hS.evaluateDouble hS.evaluateJet ht
  · rw [sum_sq_quat, sum_sq_quat, hgn, hgn', hq, hq']

/-- The Euler angles `r'` describe the rotation `r` followed by a rotation by `c` about the vertical axis (each angle up to full turns). -/
structure Spec.TurnedBy (c : ℝ) (r r' : Fin 3 → ℝ) : Prop where
  roll : SameAngle (r' 0) (r 0)
  pitch : SameAngle (r' 1) (r 1)
  yaw : SameAngle (r' 2) (r 2 + c)

theorem rotZ_add (a b : ℝ) (v : Fin 3 → ℝ) : rotZ (a + b) v = rotZ b (rotZ a v) := by
  refine ext3 ?_ ?_ ?_ <;> simp only [rotZ, cos_add, sin_add, Matrix.cons_val_zero, Matrix.cons_val_one, Matrix.cons_val_two, Matrix.head_cons, Matrix.tail_cons]
  · ring
  · ring

theorem rot_congr {a b : ℝ} (h : SameAngle a b) : rotX a = rotX b ∧ rotY a = rotY b ∧ rotZ a = rotZ b := by
  obtain ⟨h1, h2⟩ := cos_sin_of_sameAngle h
  refine ⟨?_, ?_, ?_⟩ <;> funext v <;> simp only [rotX, rotY, rotZ, h1, h2]

theorem rotZ_affine (c : ℝ) (u v : Fin 3 → ℝ) : rotZ c (fun i => u i + v i) = fun i => rotZ c u i + rotZ c v i := by
  refine ext3 ?_ ?_ ?_ <;> simp only [rotZ, Matrix.cons_val_zero, Matrix.cons_val_one, Matrix.cons_val_two, Matrix.head_cons, Matrix.tail_cons]
  · ring
  · ring

theorem rotZ_dist (c : ℝ) (u v : Fin 3 → ℝ) : distSq (rotZ c u) (rotZ c v) = distSq u v := by
  rw [← rotate_qz, ← rotate_qz, rotate_dist _ (unit_z c)]

/-- with Euler angles, the pose moved by a motion about the vertical axis -/
theorem movedRPY_turned (c : ℝ) (τ t r r' : Fin 3 → ℝ) (h : TurnedBy c r r') (p : Fin 3 → ℝ) :
    movedRPY (fun i => rotZ c t i + τ i) r' p = fun i => rotZ c (movedRPY t r p) i + τ i := by
  rw [(C63_rpy _ _ _).2, (C63_rpy _ _ _).2, rotZ_affine, (rot_congr h.yaw).2.2, (rot_congr h.pitch).2.1, (rot_congr h.roll).1]
  funext i
  dsimp only
  rw [rotZ_add, add_assoc]

/-- **C101** (ceres, 3D with Euler angles; partial). The same for motions `T` of the world that keep the vertical direction. What is missing is false: see `C101_rpy_refuted`. -/
theorem C101_ceres_rpy_partial (tw rw' mw : ℝ) (onlyYaw numeric : Bool) (c : ℝ) (τ : Fin 3 → ℝ) (S S' : ScanTerm 3) (hS : MovedTerm (fun p i => rotZ c p i + τ i) S S')
    (guess guessR guessR' t r r' : Fin 3 → ℝ) (hg : TurnedBy c guessR guessR') (hr : TurnedBy c r r') :
    (problem3dRPY tw rw' mw (fun i => rotZ c guess i + τ i) guessR' onlyYaw numeric S').cost (fun i => rotZ c t i + τ i) r' = (problem3dRPY tw rw' mw guess guessR onlyYaw numeric S).cost t r := by
  refine cost_alike _ _ rfl rfl (mw ≠ 0) (tw ≠ 0) (rw' ≠ 0) _ _ _ _ _ _ t _ r r' (List.ofFn (translationResidual tw guess t)) (List.ofFn (translationResidual tw _ _))
    (List.ofFn (rotationResidualRPY rw' guessR r)) (List.ofFn (rotationResidualRPY rw' guessR' r')) ?_ rfl rfl rfl rfl (translation_moved tw ?_) ?_
  · intro _
    exact scanBlock_moved numeric mw S S' _ _ _ hS.points hS.evaluateDouble hS.evaluateJet (movedRPY_turned c τ t r r' hr)
  · rw [← rotZ_dist c t guess]
    unfold distSq
    exact Finset.sum_congr rfl fun i _ => by ring
  · have key : ∀ i, |angleDifference (guessR' i) (r' i)| = |angleDifference (guessR i) (r i)| := by
      intro i
      refine shortestDif_model.abs_eq ?_
      obtain ⟨k0, h0⟩ := hg.roll
      obtain ⟨k1, h1⟩ := hg.pitch
      obtain ⟨k2, h2⟩ := hg.yaw
      obtain ⟨l0, e0⟩ := hr.roll
      obtain ⟨l1, e1⟩ := hr.pitch
      obtain ⟨l2, e2⟩ := hr.yaw
      match i with
      | 0 => exact ⟨k0 - l0, by push_cast; linarith⟩
      | 1 => exact ⟨k1 - l1, by push_cast; linarith⟩
      | 2 => exact ⟨k2 - l2, by push_cast; linarith⟩
    rw [List.map_ofFn, List.map_ofFn, List.sum_ofFn, List.sum_ofFn]
    refine Finset.sum_congr rfl fun i _ => ?_
    show (rw' * angleDifference _ _) ^ 2 = (rw' * angleDifference _ _) ^ 2
    rw [mul_pow, mul_pow, ← sq_abs (angleDifference _ _), key i, sq_abs]

/-- **C101** (3D with Euler angles; refuted). The cost is not a function of the poses: with a weight on the rotation, two parameter vectors of the same pose (`T` is the identity) have different costs. -/
theorem C101_rpy_refuted :
    ∃ (guess guessR t r r' : Fin 3 → ℝ) (S : ScanTerm 3), (∀ p, movedRPY t r' p = id (movedRPY t r p)) ∧ MovedTerm id S S ∧
      (problem3dRPY 1 1 1 guess guessR false false S).cost t r' ≠ (problem3dRPY 1 1 1 guess guessR false false S).cost t r := by
  refine ⟨![0, 0, 0], ![0, 0, 0], ![0, 0, 0], ![0, 0, 0], ![π, π, π], ⟨[], fun _ => 0, fun _ => 0⟩, ?_, ⟨rfl, fun _ => rfl, fun _ => rfl⟩, ?_⟩
  · intro p
    rw [id, (C63_rpy _ _ _).2, (C63_rpy _ _ _).2]
    refine ext3 ?_ ?_ ?_ <;> simp [rotX, rotY, rotZ]
  · obtain ⟨e, h1, h2⟩ := C75_cost_rpy 1 1 1 ![0, 0, 0] ![0, 0, 0] false false ⟨[], fun _ => 0, fun _ => 0⟩ ![0, 0, 0] ![π, π, π] (fun _ => 0) (fun _ p hp => absurd hp List.not_mem_nil)
    obtain ⟨e', h1', h2'⟩ := C75_cost_rpy 1 1 1 ![0, 0, 0] ![0, 0, 0] false false ⟨[], fun _ => 0, fun _ => 0⟩ ![0, 0, 0] ![0, 0, 0] (fun _ => 0) (fun _ p hp => absurd hp List.not_mem_nil)
    have hp := pi_pos
    have k : ∀ i, |e i| = π := by
      intro i
      have h : SameAngle (e i) (-π) := by
        have := (h1 i).2
        fin_cases i <;> simpa using this
      rw [abs_eq_of_shortest (h1 i).1 (by rw [abs_neg, abs_of_pos hp]) h, abs_neg, abs_of_pos hp]
    have k' : ∀ i, |e' i| = 0 := by
      intro i
      have h : SameAngle (e' i) 0 := by
        have := (h1' i).2
        fin_cases i <;> simpa using this
      rw [abs_eq_of_shortest (h1' i).1 (by rw [abs_zero]; exact hp.le) h, abs_zero]
    rw [h2, h2']
    intro h
    have h := Fl.fin.inj h
    have s1 : ∑ i, e i ^ 2 = 3 * π ^ 2 := by
      rw [Fin.sum_univ_three, ← sq_abs (e 0), ← sq_abs (e 1), ← sq_abs (e 2), k, k, k]; ring
    have s2 : ∑ i, e' i ^ 2 = 0 := by
      rw [Fin.sum_univ_three, ← sq_abs (e' 0), ← sq_abs (e' 1), ← sq_abs (e' 2), k', k', k']; ring
    rw [s1, s2] at h
    nlinarith [mul_pos hp hp]

/-! ### nlopt and alglib -/

/-- the function of the map that was moved by `T`: the same points and weights, and the moved map has at `T q` the score that the map has at `q` -/
structure Spec.MovedFunctor {n d : Nat} (T : (Fin d → ℝ) → Fin d → ℝ) (F F' : Functor n d) : Prop where
  points : F'.points = F.points
  sample : ∀ q, F'.sample (T q) = F.sample q
  dif : F'.dif = F.dif
  transW : F'.transW = F.transW
  rotW : F'.rotW = F.rotW
  mapW : F'.mapW = F.mapW
  tiny : F'.tiny = F.tiny

theorem sumCost_moved {n d : Nat} {T : (Fin d → ℝ) → Fin d → ℝ} {F F' : Functor n d} (h : MovedFunctor T F F') {x x' : Fin n → ℝ} (hx : ∀ p, F'.act x' p = T (F.act x p)) (cost : Fl ℝ → ℝ) :
    F'.sumCost cost x' = F.sumCost cost x := by
  unfold Functor.sumCost
  simp only [h.points, hx, h.sample]

theorem alglibPoints_moved {n d : Nat} {T : (Fin d → ℝ) → Fin d → ℝ} {F F' : Functor n d} (h : MovedFunctor T F F') {x x' : Fin n → ℝ} (hx : ∀ p, F'.act x' p = T (F.act x p)) :
    F'.alglibPoints x' = F.alglibPoints x := by
  unfold Functor.alglibPoints
  simp only [h.points, hx, h.sample, h.mapW, h.tiny]

/-- **C101** (nlopt and alglib, 2D). The values that nlopt minimises, for NDT maps and for occupancy maps, and the sum of squares that alglib minimises do not change either, if the parameters are a translation and an angle and the external
angle difference is the shortest one. -/
theorem C101_functions_2d (T : (Fin 2 → ℝ) → Fin 2 → ℝ) (F F' : Functor 3 2) (h : MovedFunctor T F F') (hd : ShortestDif F.dif)
    (ha : ∀ x p, F.act x p = moved2 ![x 0, x 1] (x 2) p) (ha' : ∀ x p, F'.act x p = moved2 ![x 0, x 1] (x 2) p) (x x' : Fin 3 → ℝ)
    (hg : ∀ p, F'.act F'.guess p = T (F.act F.guess p)) (hx : ∀ p, F'.act x' p = T (F.act x p)) :
    F'.nlopt2 x' = F.nlopt2 x ∧ F'.nloptOcc2 x' = F.nloptOcc2 x ∧ sumSq (F'.alglib2 x') = sumSq (F.alglib2 x) := by
  have hg2 := hg
  have hx2 := hx
  simp only [ha, ha'] at hg2 hx2
  obtain ⟨h1, h2⟩ := poses2 hx2 hg2
  have hr : |F'.rot2 x'| = |F.rot2 x| := by
    unfold Functor.rot2
    rw [h.dif]
    exact hd.abs_eq h2
  have ht : (x' 0 - F'.guess 0) ^ 2 + (x' 1 - F'.guess 1) ^ 2 = (x 0 - F.guess 0) ^ 2 + (x 1 - F.guess 1) ^ 2 := by
    unfold distSq at h1
    rw [Fin.sum_univ_two, Fin.sum_univ_two] at h1
    exact h1
  refine ⟨?_, ?_, ?_⟩
  · unfold Functor.nlopt2 Functor.weighted
    rw [sumCost_moved h hx, hr, h.mapW, h.points, h.transW, h.rotW, h.tiny]
    have : F'.trans2 x' = F.trans2 x := by
      unfold Functor.trans2 hypot2
      rw [← pow_two, ← pow_two, ht, pow_two, pow_two]
    rw [this]
  · unfold Functor.nloptOcc2
    simp only [h.points, hx, h.sample, h.mapW, h.tiny, h.transW, h.rotW, ← pow_two, ht]
    rw [← sq_abs (F'.rot2 x'), hr, sq_abs]
  · unfold Functor.alglib2
    rw [alglibPoints_moved h hx]
    unfold sumSq
    rw [List.map_append, List.map_append, List.sum_append, List.sum_append]
    congr 1
    have hr2 : |F'.dif (x' 2) (F'.guess 2)| = |F.dif (x 2) (F.guess 2)| := hr
    simp only [List.map_cons, List.map_nil, List.sum_cons, List.sum_nil, hr2, h.transW, h.rotW]
    linear_combination F.transW ^ 2 * ht

/-- translation and angles of the parameters of a 3D matcher -/
def Spec.translationOf {n : Nat} (x : Fin (n + 3) → ℝ) : Fin 3 → ℝ := ![x 0, x 1, x 2]
def Spec.anglesOf (x : Fin 6 → ℝ) : Fin 3 → ℝ := ![x 3, x 4, x 5]
def Spec.quatOf (x : Fin 7 → ℝ) : Quat := { w := x 6, x := x 3, y := x 4, z := x 5 }

theorem translation_terms {n : Nat} {x x' guess guess' : Fin (n + 3) → ℝ} (h : distSq (translationOf x') (translationOf guess') = distSq (translationOf x) (translationOf guess)) :
    (x' 0 - guess' 0) ^ 2 + (x' 1 - guess' 1) ^ 2 + (x' 2 - guess' 2) ^ 2 = (x 0 - guess 0) ^ 2 + (x 1 - guess 1) ^ 2 + (x 2 - guess 2) ^ 2 := by
  unfold distSq at h
  rw [Fin.sum_univ_three, Fin.sum_univ_three] at h
  exact h

/-- **C101** (alglib, 3D with quaternions). -/
theorem C101_alglib_quaternion (T : (Fin 3 → ℝ) → Fin 3 → ℝ) (F F' : Functor 7 3) (h : MovedFunctor T F F')
    (ha : ∀ x p, F.act x p = moved3 (translationOf x) (quatOf x) p) (ha' : ∀ x p, F'.act x p = moved3 (translationOf x) (quatOf x) p) (x x' : Fin 7 → ℝ)
    (hgn : quatNormSq (quatOf F.guess) = 1) (hgn' : quatNormSq (quatOf F'.guess) = 1) (hq : quatNormSq (quatOf x) = 1) (hq' : quatNormSq (quatOf x') = 1)
    (hg : ∀ p, F'.act F'.guess p = T (F.act F.guess p)) (hx : ∀ p, F'.act x' p = T (F.act x p)) :
    sumSq (F'.alglibQuat x') = sumSq (F.alglibQuat x) := by
  have hg2 := hg
  have hx2 := hx
  simp only [ha, ha'] at hg2 hx2
  have ht := translation_terms (n := 4) (poses3 hq hq' hx2 hg2)
  unfold Functor.alglibQuat
  rw [alglibPoints_moved h hx]
  unfold sumSq
  rw [List.map_append, List.map_append, List.sum_append, List.sum_append]
  congr 1
  have key : ∀ (G : Functor 7 3) (y : Fin 7 → ℝ), (G.alglibRotDiff y).w ^ 2 + (G.alglibRotDiff y).x ^ 2 + (G.alglibRotDiff y).y ^ 2 + (G.alglibRotDiff y).z ^ 2 = quatNormSq (quatOf G.guess) * quatNormSq (quatOf y) := by
    intro G y
    have e := quatNormSq_mul { x := -G.guess 3, y := -G.guess 4, z := -G.guess 5, w := G.guess 6 } (quatOf y)
    rw [show quatNormSq (quatOf G.guess) = quatNormSq { x := -G.guess 3, y := -G.guess 4, z := -G.guess 5, w := G.guess 6 } by simp only [quatNormSq, quatOf]; ring, ← e]
    rfl
  have k1 := key F x
  have k2 := key F' x'
  rw [hgn, hq] at k1
  rw [hgn', hq'] at k2
  simp only [List.map_cons, List.map_nil, List.sum_cons, List.sum_nil, mul_pow, sq_abs, h.transW, h.rotW]
  linear_combination F.transW ^ 2 * ht + F.rotW ^ 2 * (k2 - k1)

/-- **C101** (nlopt and alglib, 3D with Euler angles; partial). For motions of the world that keep the vertical direction. -/
theorem C101_functions_rpy_partial (c : ℝ) (τ : Fin 3 → ℝ) (F F' : Functor 6 3) (h : MovedFunctor (fun p i => rotZ c p i + τ i) F F') (hd : ShortestDif F.dif)
    (ha : ∀ x p, F.act x p = movedRPY (translationOf x) (anglesOf x) p) (ha' : ∀ x p, F'.act x p = movedRPY (translationOf x) (anglesOf x) p) (x x' : Fin 6 → ℝ)
    (hg : translationOf F'.guess = fun i => rotZ c (translationOf F.guess) i + τ i) (hgr : TurnedBy c (anglesOf F.guess) (anglesOf F'.guess))
    (hx : translationOf x' = fun i => rotZ c (translationOf x) i + τ i) (hxr : TurnedBy c (anglesOf x) (anglesOf x')) :
    F'.nloptRPY x' = F.nloptRPY x ∧ F'.nloptOccRPY x' = F.nloptOccRPY x ∧ sumSq (F'.alglibRPY x') = sumSq (F.alglibRPY x) := by
  have hact : ∀ p, F'.act x' p = fun i => rotZ c (F.act x p) i + τ i := by
    intro p
    rw [ha, ha', hx, movedRPY_turned c τ _ _ _ hxr]
  have ht := translation_terms (n := 3) (x := x) (x' := x') (guess := F.guess) (guess' := F'.guess) (by
    rw [hx, hg, ← rotZ_dist c (translationOf x)]
    unfold distSq
    exact Finset.sum_congr rfl fun i _ => by ring)
  have key : ∀ i, |F.dif (anglesOf x' i) (anglesOf F'.guess i)| = |F.dif (anglesOf x i) (anglesOf F.guess i)| := by
    intro i
    refine hd.abs_eq ?_
    obtain ⟨k0, h0⟩ := hxr.roll
    obtain ⟨k1, h1⟩ := hxr.pitch
    obtain ⟨k2, h2⟩ := hxr.yaw
    obtain ⟨l0, e0⟩ := hgr.roll
    obtain ⟨l1, e1⟩ := hgr.pitch
    obtain ⟨l2, e2⟩ := hgr.yaw
    match i with
    | 0 => exact ⟨k0 - l0, by push_cast; linarith⟩
    | 1 => exact ⟨k1 - l1, by push_cast; linarith⟩
    | 2 => exact ⟨k2 - l2, by push_cast; linarith⟩
  have k0 : |F.dif (x' 3) (F'.guess 3)| = |F.dif (x 3) (F.guess 3)| := key 0
  have k1 : |F.dif (x' 4) (F'.guess 4)| = |F.dif (x 4) (F.guess 4)| := key 1
  have k2 : |F.dif (x' 5) (F'.guess 5)| = |F.dif (x 5) (F.guess 5)| := key 2
  have htr : Functor.trans3 (n := 3) F' x' = Functor.trans3 (n := 3) F x := by
    unfold Functor.trans3 hypot3
    simp only [← pow_two]
    rw [ht]
  have hrr : F'.rotRPY x' = F.rotRPY x := by
    unfold Functor.rotRPY hypot3
    simp only [← pow_two, h.dif]
    rw [← sq_abs (F.dif (x' 3) _), ← sq_abs (F.dif (x' 4) _), ← sq_abs (F.dif (x' 5) _), k0, k1, k2, sq_abs, sq_abs, sq_abs]
  refine ⟨?_, ?_, ?_⟩
  · unfold Functor.nloptRPY Functor.weighted
    rw [sumCost_moved h hact, hrr, htr, h.mapW, h.points, h.transW, h.rotW, h.tiny]
  · unfold Functor.nloptOccRPY Functor.weighted
    rw [sumCost_moved h hact, hrr, htr, h.mapW, h.points, h.transW, h.rotW, h.tiny]
  · unfold Functor.alglibRPY
    rw [alglibPoints_moved h hact]
    unfold sumSq
    rw [List.map_append, List.map_append, List.sum_append, List.sum_append]
    congr 1
    simp only [List.map_cons, List.map_nil, List.sum_cons, List.sum_nil, h.transW, h.rotW, h.dif, k0, k1, k2]
    linear_combination F.transW ^ 2 * ht

/-! ### the best pose -/

/-- the rotation part of a pose -/
noncomputable def turn2 (r : ℝ) (v : Fin 2 → ℝ) : Fin 2 → ℝ := ![cos r * v 0 - sin r * v 1, sin r * v 0 + cos r * v 1]

theorem turn2_turn2 (a b : ℝ) (v : Fin 2 → ℝ) : turn2 a (turn2 b v) = turn2 (a + b) v := by
  refine ext2 ?_ ?_ <;> simp only [turn2, cos_add, sin_add, Matrix.cons_val_zero, Matrix.cons_val_one] <;> ring

theorem turn2_add (a : ℝ) (u v : Fin 2 → ℝ) : turn2 a (u + v) = turn2 a u + turn2 a v := by
  refine ext2 ?_ ?_ <;> simp only [turn2, Pi.add_apply, Matrix.cons_val_zero, Matrix.cons_val_one] <;> ring

theorem turn2_zero (v : Fin 2 → ℝ) : turn2 0 v = v := by
  refine ext2 ?_ ?_ <;> simp [turn2]

theorem moved2_eq (t : Fin 2 → ℝ) (r : ℝ) (p : Fin 2 → ℝ) : moved2 t r p = turn2 r p + t := by
  refine ext2 ?_ ?_ <;> simp [turn2, moved2]

theorem unmoved2_eq (t : Fin 2 → ℝ) (r : ℝ) (x : Fin 2 → ℝ) : unmoved2 t r x = turn2 (-r) (x - t) := by
  refine ext2 ?_ ?_ <;> simp [turn2, unmoved2]

/-- a pose in the moved world is a moved pose -/
theorem pose2_back {T : (Fin 2 → ℝ) → Fin 2 → ℝ} {g g' : Fin 2 → ℝ} {s s' : ℝ} (hg : ∀ p, moved2 g' s' p = T (moved2 g s p)) (t' : Fin 2 → ℝ) (r' : ℝ) :
    ∃ t r, ∀ p, moved2 t' r' p = T (moved2 t r p) := by
  have hT : ∀ x, T x = moved2 g' s' (unmoved2 g s x) := by
    intro x
    rw [hg, moved2_unmoved2]
  refine ⟨moved2 g s (unmoved2 g' s' t'), r' + (s - s'), fun p => ?_⟩
  rw [hT, unmoved2_eq, unmoved2_eq, moved2_eq, moved2_eq, moved2_eq, moved2_eq, ← add_assoc, add_sub_cancel_right, turn2_add, turn2_add]
  simp only [turn2_turn2]
  rw [show s' + (-s + (r' + (s - s'))) = r' by ring, show s' + (-s + (s + -s')) = 0 by ring, turn2_zero]
  abel

theorem rotate_add (q : Quat) (u v : Fin 3 → ℝ) : q.rotate (u + v) = q.rotate u + q.rotate v := by
  refine ext3 ?_ ?_ ?_ <;> simp only [rotate_zero, rotate_one, rotate_two, Pi.add_apply] <;> ring

theorem moved3_eq (t : Fin 3 → ℝ) (q : Quat) (p : Fin 3 → ℝ) : moved3 t q p = q.rotate p + t := rfl

theorem rotate_inv_rotate (q : Quat) (h : quatNormSq q = 1) (v : Fin 3 → ℝ) : q.rotate (q.inv.rotate v) = v := by
  rw [← rotate_mul _ _ h (inv_unit q h), mul_inv_one q h, one_rotate]

theorem inv_inv_quat (q : Quat) : q.inv.inv = q := by
  ext <;> simp [Quat.inv]

theorem inv_rotate_rotate (q : Quat) (h : quatNormSq q = 1) (v : Fin 3 → ℝ) : q.inv.rotate (q.rotate v) = v := by
  have := rotate_inv_rotate q.inv (inv_unit q h) v
  rwa [inv_inv_quat] at this

theorem pose3_back {T : (Fin 3 → ℝ) → Fin 3 → ℝ} {g g' : Fin 3 → ℝ} {s s' : Quat} (hs : quatNormSq s = 1) (hs' : quatNormSq s' = 1) (hg : ∀ p, moved3 g' s' p = T (moved3 g s p))
    (t' : Fin 3 → ℝ) (q' : Quat) (hq' : quatNormSq q' = 1) : ∃ t q, quatNormSq q = 1 ∧ ∀ p, moved3 t' q' p = T (moved3 t q p) := by
  have hT : ∀ x, T x = moved3 g' s' (s.inv.rotate (x - g)) := by
    intro x
    rw [hg]
    exact congrArg T (moved3_unmoved g s hs x).symm
  have h1 : quatNormSq (s'.inv.mul q') = 1 := by rw [quatNormSq_mul, inv_unit _ hs', hq', one_mul]
  refine ⟨moved3 g s (s'.inv.rotate (t' - g')), s.mul (s'.inv.mul q'), by rw [quatNormSq_mul, hs, h1, one_mul], fun p => ?_⟩
  rw [hT, moved3_eq, moved3_eq, moved3_eq, moved3_eq, ← add_assoc, add_sub_cancel_right, rotate_add, rotate_add, rotate_mul _ _ hs h1, inv_rotate_rotate _ hs, rotate_mul _ _ (inv_unit _ hs') hq',
    rotate_inv_rotate _ hs', inv_rotate_rotate _ hs, rotate_inv_rotate _ hs']
  abel

/-- **C101** (the result). If a pose is a best one, then the moved pose is a best one for the moved map and the moved guess: ceres with 2D poses, and with unit quaternions. -/
theorem C101_best_pose (tw rw' mw : ℝ) (onlyYaw numeric : Bool) :
    (∀ (T : (Fin 2 → ℝ) → Fin 2 → ℝ) (S S' : ScanTerm 2), MovedTerm T S S' → ∀ (guess guess' t t' : Fin 2 → ℝ) (guessR guessR' : ℝ) (r r' : Fin 1 → ℝ),
      (∀ p, moved2 guess' guessR' p = T (moved2 guess guessR p)) → (∀ p, moved2 t' (r' 0) p = T (moved2 t (r 0) p)) →
      (∀ u s, Fl.le ((problem2d tw rw' mw guess guessR numeric S).cost t r) ((problem2d tw rw' mw guess guessR numeric S).cost u s)) →
      ∀ u s, Fl.le ((problem2d tw rw' mw guess' guessR' numeric S').cost t' r') ((problem2d tw rw' mw guess' guessR' numeric S').cost u s)) ∧
    (∀ (T : (Fin 3 → ℝ) → Fin 3 → ℝ) (S S' : ScanTerm 3), MovedTerm T S S' → ∀ (guess guess' t t' : Fin 3 → ℝ) (guessR guessR' q q' : Quat),
      quatNormSq guessR = 1 → quatNormSq guessR' = 1 → quatNormSq q = 1 → quatNormSq q' = 1 →
      (∀ p, moved3 guess' guessR' p = T (moved3 guess guessR p)) → (∀ p, moved3 t' q' p = T (moved3 t q p)) →
      (∀ u s, quatNormSq s = 1 → Fl.le ((problem3dQuaternion tw rw' mw guess guessR onlyYaw numeric S).cost t q) ((problem3dQuaternion tw rw' mw guess guessR onlyYaw numeric S).cost u s)) →
      ∀ u s, quatNormSq s = 1 → Fl.le ((problem3dQuaternion tw rw' mw guess' guessR' onlyYaw numeric S').cost t' q') ((problem3dQuaternion tw rw' mw guess' guessR' onlyYaw numeric S').cost u s)) := by
  constructor
  · intro T S S' hS guess guess' t t' guessR guessR' r r' hg ht hb u s
    obtain ⟨u0, s0, h0⟩ := pose2_back hg u (s 0)
    rw [C101_ceres_2d tw rw' mw numeric T S S' hS guess guess' t t' guessR guessR' r r' hg ht,
      C101_ceres_2d tw rw' mw numeric T S S' hS guess guess' u0 u guessR guessR' (fun _ => s0) s hg h0]
    exact hb _ _
  · intro T S S' hS guess guess' t t' guessR guessR' q q' n1 n2 n3 n4 hg ht hb u s hs
    obtain ⟨u0, s0, hn, h0⟩ := pose3_back n1 n2 hg u s hs
    rw [C101_ceres_quaternion tw rw' mw onlyYaw numeric T S S' hS guess guess' t t' guessR guessR' q q' n1 n2 n3 n4 hg ht,
      C101_ceres_quaternion tw rw' mw onlyYaw numeric T S S' hS guess guess' u0 u guessR guessR' s0 s n1 n2 hn hs hg h0]
    exact hb _ _ hn

/-! ### maps -/
section map
variable {d : Nat} {B : Backend d}

/-- the scan term of a map: its points and `Evaluate` of the map; `read` gives the value for an access outside of the storage of the map -/
noncomputable def mapTerm {D : Type} (read : Option ℝ → Fl ℝ) (points : List (Pt ℝ d)) (g : Geo ℝ d) (dyn : Bool) (valid : D → Bool) (bell dens : D → Pt ℝ d → ℝ) (st : St B D) : ScanTerm d :=
  ⟨points, fun q => read (evaluateDouble g dyn dens st q), fun q => read (evaluateJet g dyn valid bell st q)⟩

/-- the same for occupancy maps -/
noncomputable def occMapTerm {W E M : Type} (read : Except String (Option ℝ) → Fl ℝ) (points : List (Pt ℝ d)) (g : Geo ℝ d) (dyn : Bool) (valid : Multiset E → Bool) (bell dens : Multiset E → Pt ℝ d → ℝ)
    (occ : M → Occ W E → ℝ) (ivm : Option M) (st : St B (Occ W E)) : ScanTerm d :=
  ⟨points, fun q => read (occEvaluateDouble g dyn dens occ ivm st q), fun q => read (occEvaluateJet g dyn valid bell occ ivm st q)⟩

/-- **C101** (maps). The map that is built in the moved world, from the moved sensor poses, has the moved scan term: so the theorems above apply to it. NDT maps and occupancy maps. -/
theorem C101_maps (T O : Pt ℝ d → Pt ℝ d) (g g' : Geo ℝ d) (h : Spec.Moved T O g g') (dyn : Bool) (points : List (Pt ℝ d)) :
    (∀ (read : Option ℝ → Fl ℝ) (exp : Multiset (Pt ℝ d) → Bool) (valid : Multiset (Pt ℝ d) → Bool) (bell dens : Multiset (Pt ℝ d) → Pt ℝ d → ℝ) (ops : List (GridOp ℝ d)) (st0 st : St B (Multiset (Pt ℝ d))),
      gridRun g dyn exp ops st0 = some st →
      ∃ st', gridRun g' dyn exp (ops.map (GridOp.moved T)) st0 = some st' ∧ MovedTerm T (mapTerm read points g dyn valid bell dens st) (mapTerm read points g' dyn valid bell dens st')) ∧
    (∀ {W E M : Type} [AddCommMonoid W] (fl : Flavour ℝ d W E) (read : Except String (Option ℝ) → Fl ℝ) (defRay : Pt ℝ d → Pt ℝ d → List (Idx d)) (exp : Occ W E → Bool) (valid : Multiset E → Bool)
      (bell dens : Multiset E → Pt ℝ d → ℝ) (occ : M → Occ W E → ℝ) (ivm : Option M) (ops : List (OccMapOp ℝ d W E)) (st0 st : St B (Occ W E)),
      occRun fl g dyn defRay exp ops st0 = some st →
      ∃ st', occRun fl g' dyn defRay exp (ops.map (OccMapOp.moved T)) st0 = some st' ∧
        MovedTerm T (occMapTerm read points g dyn valid bell dens occ ivm st) (occMapTerm read points g' dyn valid bell dens occ ivm st')) := by
  constructor
  · intro read exp valid bell dens ops st0 st hr
    refine ⟨st, ((C91_world_frame T O g g' h dyn exp ops).1 st0).trans hr, rfl, fun q => ?_, fun q => ?_⟩
    · show read (evaluateDouble g' dyn dens st (T q)) = read (evaluateDouble g dyn dens st q)
      unfold evaluateDouble
      rw [((C91_world_frame T O g g' h dyn exp ops).2 st dens q).1]
    · show read (evaluateJet g' dyn valid bell st (T q)) = read (evaluateJet g dyn valid bell st q)
      unfold evaluateJet
      rw [h.toMap, h.r]
  · intro W E M _ fl read defRay exp valid bell dens occ ivm ops st0 st hr
    refine ⟨st, ((C91_occupancy_world_frame (M := M) fl T O g g' h dyn defRay exp ops).1 st0).trans hr, rfl, fun q => ?_, fun q => ?_⟩
    · show read (occEvaluateDouble g' dyn dens occ ivm st (T q)) = read (occEvaluateDouble g dyn dens occ ivm st q)
      unfold occEvaluateDouble
      rw [((C91_occupancy_world_frame fl T O g g' h dyn defRay exp ops).2 st dens occ ivm q).1]
    · show read (occEvaluateJet g' dyn valid bell occ ivm st (T q)) = read (occEvaluateJet g dyn valid bell occ ivm st q)
      unfold occEvaluateJet
      rw [h.toMap, h.r]

end map

/-! ### non-vacuity -/

/-- a quarter turn of the plane with a translation -/
noncomputable def quarterTurn : (Fin 2 → ℝ) → Fin 2 → ℝ := fun p => ![-p 1 + 5, p 0 + 7]

theorem quarterTurn_moves (t : Fin 2 → ℝ) (r : ℝ) (p : Fin 2 → ℝ) : moved2 (quarterTurn t) (r + π / 2) p = quarterTurn (moved2 t r p) := by
  refine ext2 ?_ ?_ <;> simp [moved2, quarterTurn, cos_add, sin_add] <;> ring

/-- Non-vacuity: a map with the score of a bell around (1, 2), a guess and a pose that differ in position and angle, the quarter turn of the world, and a cost that is not zero. -/
theorem sample_moved_match :
    ∃ (S S' : ScanTerm 2) (guess guess' t t' : Fin 2 → ℝ) (guessR guessR' : ℝ) (r r' : Fin 1 → ℝ), MovedTerm quarterTurn S S' ∧
      (∀ p, moved2 guess' guessR' p = quarterTurn (moved2 guess guessR p)) ∧ (∀ p, moved2 t' (r' 0) p = quarterTurn (moved2 t (r 0) p)) ∧ t ≠ t' ∧ guessR ≠ r 0 ∧
      ∃ c, 0 < c ∧ (problem2d 1 1 1 guess guessR false S).cost t r = .fin c ∧ (problem2d 1 1 1 guess' guessR' false S').cost t' r' = .fin c := by
  let f : (Fin 2 → ℝ) → ℝ := fun q => rexp (-((q 0 - 1) ^ 2 + (q 1 - 2) ^ 2))
  let f' : (Fin 2 → ℝ) → ℝ := fun q => f ![q 1 - 7, 5 - q 0]
  let S : ScanTerm 2 := ⟨[![1, 0], ![2, 3]], fun q => .fin (1 - f q), fun q => .fin (1 - f q)⟩
  let S' : ScanTerm 2 := ⟨[![1, 0], ![2, 3]], fun q => .fin (1 - f' q), fun q => .fin (1 - f' q)⟩
  have hf : ∀ q, f' (quarterTurn q) = f q := by
    intro q
    show f _ = f q
    congr 1
    refine ext2 ?_ ?_ <;> simp [quarterTurn]
  have hS : MovedTerm quarterTurn S S' := ⟨rfl, fun q => by show Fl.fin (1 - f' _) = .fin (1 - f q); rw [hf], fun q => by show Fl.fin (1 - f' _) = .fin (1 - f q); rw [hf]⟩
  refine ⟨S, S', ![0, 0], quarterTurn ![0, 0], ![1, 1], quarterTurn ![1, 1], 0, 0 + π / 2, fun _ => 1, fun _ => 1 + π / 2, hS, quarterTurn_moves _ _, quarterTurn_moves _ _, ?_, by norm_num, ?_⟩
  · intro h
    have := congrFun h 0
    simp [quarterTurn] at this
    norm_num at this
  · obtain ⟨e, h1, h2, h3⟩ := C75_cost_2d 1 1 1 ![0, 0] 0 false S ![1, 1] (fun _ => 1) (fun p => 1 - f (moved2 ![1, 1] 1 p)) (fun _ p _ => ⟨rfl, rfl⟩)
    refine ⟨_, ?_, h3, ?_⟩
    · have hd : distSq (![1, 1] : Fin 2 → ℝ) ![0, 0] = 2 := by
        unfold distSq; rw [Fin.sum_univ_two]; norm_num
      have hm : 0 ≤ mean (S.points.map fun p => (1 - f (moved2 ![1, 1] 1 p)) ^ 2) := by
        unfold mean
        refine div_nonneg (List.sum_nonneg ?_) (Nat.cast_nonneg _)
        intro x hx
        obtain ⟨p, _, rfl⟩ := List.mem_map.1 hx
        exact sq_nonneg _
      rw [hd]
      have := sq_nonneg e
      linarith
    · rw [← h3]
      exact C101_ceres_2d 1 1 1 false quarterTurn S S' hS _ _ _ _ _ _ _ _ (quarterTurn_moves _ _) (quarterTurn_moves _ _)

/-- Non-vacuity in 3D: for every unit quaternion `u` and translation `τ`, the pose `(t, q)` moved by `p ↦ u p + τ` is the pose `(u t + τ, u q)`. -/
theorem sample_moved_quaternion (u q : Quat) (hu : quatNormSq u = 1) (hq : quatNormSq q = 1) (τ t : Fin 3 → ℝ) :
    quatNormSq (u.mul q) = 1 ∧ ∀ p, moved3 (moved3 τ u t) (u.mul q) p = moved3 τ u (moved3 t q p) := by
  refine ⟨by rw [quatNormSq_mul, hu, hq, one_mul], fun p => ?_⟩
  rw [moved3_eq, moved3_eq, moved3_eq, moved3_eq, rotate_mul _ _ hu hq, rotate_add]
  abel

/-- Non-vacuity with Euler angles: a quarter turn to the left of a yaw of 3 is represented by a yaw of `3 + π / 2 - 2 π`. -/
example : TurnedBy (π / 2) ![1 / 10, 2 / 10, 3] ![1 / 10, 2 / 10, 3 + π / 2 - 2 * π] :=
  ⟨⟨0, by simp⟩, ⟨0, by simp⟩, ⟨-1, by simp⟩⟩

end Ndt
