import Verif.Model.Problem
import Verif.Props.Matching
import Verif.Props.Quaternions
import Verif.Props.Angles

/-! Property theorems C74 and C75: ceres problems. -/

namespace Ndt

open Real Matching Spec

/-- `after` is `before`, followed by a motion in the horizontal plane: a rotation about the vertical axis and a horizontal displacement -/
def Spec.PlanarMotion (before after : (Fin 3 → ℝ) → Fin 3 → ℝ) : Prop :=
  ∃ θ a b, ∀ p, after p = fun i => rotZ θ (before p) i + ![a, b, 0] i

theorem planar_refl (f : (Fin 3 → ℝ) → Fin 3 → ℝ) : PlanarMotion f f :=
  ⟨0, 0, 0, fun p => by refine ext3 ?_ ?_ ?_ <;> simp [rotZ]⟩

theorem planar_trans {f g h : (Fin 3 → ℝ) → Fin 3 → ℝ} (h1 : PlanarMotion f g) (h2 : PlanarMotion g h) : PlanarMotion f h := by
  obtain ⟨θ, a, b, h1⟩ := h1
  obtain ⟨θ', a', b', h2⟩ := h2
  refine ⟨θ + θ', cos θ' * a - sin θ' * b + a', sin θ' * a + cos θ' * b + b', fun p => ?_⟩
  rw [h2, h1]
  refine ext3 ?_ ?_ ?_
  · show cos θ' * (cos θ * f p 0 - sin θ * f p 1 + a) - sin θ' * (sin θ * f p 0 + cos θ * f p 1 + b) + a' = cos (θ + θ') * f p 0 - sin (θ + θ') * f p 1 + _
    rw [cos_add, sin_add]
    show _ = _ + (cos θ' * a - sin θ' * b + a')
    ring
  · show sin θ' * (cos θ * f p 0 - sin θ * f p 1 + a) + cos θ' * (sin θ * f p 0 + cos θ * f p 1 + b) + b' = sin (θ + θ') * f p 0 + cos (θ + θ') * f p 1 + _
    rw [cos_add, sin_add]
    show _ = _ + (sin θ' * a + cos θ' * b + b')
    ring
  · show f p 2 + 0 + 0 = f p 2 + 0
    ring

/-- an invariant of the updates is an invariant of all solver runs -/
theorem run_invariant {X Y : Type} (P : Problem X Y) (I : X × Y → Prop)
    (hs : ∀ x d e, I x → I (P.translation.plus x.1 d, P.rotation.plus x.2 e)) : ∀ steps x, I x → I (P.run x steps)
  | [], _, h => h
  | s :: l, x, h => run_invariant P I hs l _ (hs x s.1 s.2 h)

theorem add_translation {X Y : Type} (m : Prop) [Decidable m] (P : Problem X Y) (f : X → Y → List (Fl ℝ)) : (if m then P.add f else P).translation = P.translation := by split_ifs <;> rfl
theorem add_rotation {X Y : Type} (m : Prop) [Decidable m] (P : Problem X Y) (f : X → Y → List (Fl ℝ)) : (if m then P.add f else P).rotation = P.rotation := by split_ifs <;> rfl

theorem problemQuat_blocks (tw rw' mw : ℝ) (t : Fin 3 → ℝ) (r : Quat) (y n : Bool) (S : ScanTerm 3) :
    (problem3dQuaternion tw rw' mw t r y n S).translation = (if y then subset2 else euclidean 3) ∧
    (problem3dQuaternion tw rw' mw t r y n S).rotation = (if y then ⟨1, fun x delta => yawOnlyQuatPlus x (delta 0)⟩ else ⟨3, quatPlus⟩) := by
  unfold problem3dQuaternion
  dsimp only
  rw [add_translation, add_translation, add_translation, add_rotation, add_rotation, add_rotation]
  exact ⟨rfl, rfl⟩

theorem problemRPY_blocks (tw rw' mw : ℝ) (t r : Fin 3 → ℝ) (y n : Bool) (S : ScanTerm 3) :
    (problem3dRPY tw rw' mw t r y n S).translation = (if y then subset2 else euclidean 3) ∧
    (problem3dRPY tw rw' mw t r y n S).rotation = (if y then ⟨1, fun x delta => yawOnlyEulerPlus x (delta 0)⟩ else ⟨3, eulerPlus⟩) := by
  unfold problem3dRPY
  dsimp only
  rw [add_translation, add_translation, add_translation, add_rotation, add_rotation, add_rotation]
  exact ⟨rfl, rfl⟩

theorem quatPlus_norm (x : Quat) (delta : Fin 3 → ℝ) : quatNormSq (quatPlus x delta) = quatNormSq x := by
  unfold quatPlus
  dsimp only
  split_ifs with h
  · rw [quatNormSq_mul]
    set n := √(delta 0 * delta 0 + delta 1 * delta 1 + delta 2 * delta 2) with hn
    have e : n ^ 2 = delta 0 * delta 0 + delta 1 * delta 1 + delta 2 * delta 2 :=
      sq_sqrt (by nlinarith [mul_self_nonneg (delta 0), mul_self_nonneg (delta 1), mul_self_nonneg (delta 2)])
    have : quatNormSq ⟨cos n, sin n / n * delta 0, sin n / n * delta 1, sin n / n * delta 2⟩ = 1 := by
      unfold quatNormSq
      have h0 : n ≠ 0 := h.ne'
      have e' : (sin n / n * delta 0) ^ 2 + (sin n / n * delta 1) ^ 2 + (sin n / n * delta 2) ^ 2 = sin n ^ 2 := by
        have : (sin n / n * delta 0) ^ 2 + (sin n / n * delta 1) ^ 2 + (sin n / n * delta 2) ^ 2 = sin n ^ 2 / n ^ 2 * (delta 0 * delta 0 + delta 1 * delta 1 + delta 2 * delta 2) := by ring
        rw [this, ← e]
        field_simp
      linarith [sin_sq_add_cos_sq n]
    rw [this, one_mul]
  · rfl

/-- **C74** (quaternions, yaw only). Whatever steps the solver takes, in whatever order and number, and whatever the weights, the scan and the map are: with `only_yaw`, the final pose differs from the initial one by a motion in the horizontal plane. -/
theorem C74_yaw_only_quaternion (tw rw' mw : ℝ) (prior : Fin 3 → ℝ) (priorR : Quat) (numeric : Bool) (S : ScanTerm 3) (t : Fin 3 → ℝ) (q : Quat) (hq : quatNormSq q = 1) (steps) :
    let x := (problem3dQuaternion tw rw' mw prior priorR true numeric S).run (t, q) steps
    quatNormSq x.2 = 1 ∧ PlanarMotion (moved3 t q) (moved3 x.1 x.2) := by
  dsimp only
  refine run_invariant _ (fun x => quatNormSq x.2 = 1 ∧ PlanarMotion (moved3 t q) (moved3 x.1 x.2)) ?_ steps (t, q) ⟨hq, planar_refl _⟩
  obtain ⟨hT, hR⟩ := problemQuat_blocks tw rw' mw prior priorR true numeric S
  rw [hT, hR]
  rintro ⟨t', q'⟩ (d : Fin 2 → ℝ) (e : Fin 1 → ℝ) ⟨hn, hp⟩
  refine ⟨(C45_yaw_quat q' (e 0)).1.trans hn, planar_trans hp ?_⟩
  refine ⟨stepAngle (e 0), t' 0 + d 0 - (cos (stepAngle (e 0)) * t' 0 - sin (stepAngle (e 0)) * t' 1),
    t' 1 + d 1 - (sin (stepAngle (e 0)) * t' 0 + cos (stepAngle (e 0)) * t' 1), fun p => ?_⟩
  have h := C45_yaw_quat_rotation q' hn (e 0) p
  refine ext3 ?_ ?_ ?_
  · show (yawOnlyQuatPlus q' (e 0)).rotate p 0 + (t' 0 + d 0) = _
    rw [h]
    show cos _ * _ - sin _ * _ + _ = cos _ * (q'.rotate p 0 + t' 0) - sin _ * (q'.rotate p 1 + t' 1) + (t' 0 + d 0 - _)
    ring
  · show (yawOnlyQuatPlus q' (e 0)).rotate p 1 + (t' 1 + d 1) = _
    rw [h]
    show sin _ * _ + cos _ * _ + _ = sin _ * (q'.rotate p 0 + t' 0) + cos _ * (q'.rotate p 1 + t' 1) + (t' 1 + d 1 - _)
    ring
  · show (yawOnlyQuatPlus q' (e 0)).rotate p 2 + t' 2 = _
    rw [h]
    show q'.rotate p 2 + t' 2 = q'.rotate p 2 + t' 2 + 0
    ring

/-- **C74** (Euler angles, yaw only). The same for Euler angles; roll, pitch and height do not change. -/
theorem C74_yaw_only_rpy (tw rw' mw : ℝ) (prior priorR : Fin 3 → ℝ) (numeric : Bool) (S : ScanTerm 3) (t r : Fin 3 → ℝ) (steps) :
    let x := (problem3dRPY tw rw' mw prior priorR true numeric S).run (t, r) steps
    x.1 2 = t 2 ∧ x.2 0 = r 0 ∧ x.2 1 = r 1 ∧ PlanarMotion (movedRPY t r) (movedRPY x.1 x.2) := by
  dsimp only
  have h0 : ((problem3dRPY tw rw' mw prior priorR true numeric S).run (t, r) steps).1 2 = t 2 ∧ ((problem3dRPY tw rw' mw prior priorR true numeric S).run (t, r) steps).2 0 = r 0 ∧
      ((problem3dRPY tw rw' mw prior priorR true numeric S).run (t, r) steps).2 1 = r 1 := by
    refine run_invariant _ (fun x : (Fin 3 → ℝ) × (Fin 3 → ℝ) => x.1 2 = t 2 ∧ x.2 0 = r 0 ∧ x.2 1 = r 1) ?_ steps (t, r) ⟨rfl, rfl, rfl⟩
    obtain ⟨hT, hR⟩ := problemRPY_blocks tw rw' mw prior priorR true numeric S
    rw [hT, hR]
    rintro ⟨t', r'⟩ d e ⟨h1, h2, h3⟩
    exact ⟨h1, h2, h3⟩
  refine ⟨h0.1, h0.2.1, h0.2.2, ?_⟩
  generalize (problem3dRPY tw rw' mw prior priorR true numeric S).run (t, r) steps = x at h0
  obtain ⟨t', r'⟩ := x
  obtain ⟨h1, h2, h3⟩ := h0
  dsimp only at h1 h2 h3 ⊢
  refine ⟨r' 2 - r 2, t' 0 - (cos (r' 2 - r 2) * t 0 - sin (r' 2 - r 2) * t 1), t' 1 - (sin (r' 2 - r 2) * t 0 + cos (r' 2 - r 2) * t 1), fun p => ?_⟩
  rw [(C63_rpy _ _ _).2, (C63_rpy _ _ _).2, h2, h3]
  have e : r' 2 = (r' 2 - r 2) + r 2 := by ring
  generalize rotY (r 1) (rotX (r 0) p) = v
  refine ext3 ?_ ?_ ?_
  · show cos (r' 2) * v 0 - sin (r' 2) * v 1 + t' 0 = cos (r' 2 - r 2) * (cos (r 2) * v 0 - sin (r 2) * v 1 + t 0) - sin (r' 2 - r 2) * (sin (r 2) * v 0 + cos (r 2) * v 1 + t 1) + (t' 0 - _)
    conv_lhs => rw [e, cos_add, sin_add]
    ring
  · show sin (r' 2) * v 0 + cos (r' 2) * v 1 + t' 1 = sin (r' 2 - r 2) * (cos (r 2) * v 0 - sin (r 2) * v 1 + t 0) + cos (r' 2 - r 2) * (sin (r 2) * v 0 + cos (r 2) * v 1 + t 1) + (t' 1 - _)
    conv_lhs => rw [e, cos_add, sin_add]
    ring
  · show v 2 + t' 2 = v 2 + t 2 + 0
    rw [h1]; ring

/-- **C74** (rigid). In all three problems, with or without `only_yaw`, the solver moves the scan as a rigid body: after any sequence of steps the distances between the scan points are unchanged. -/
theorem C74_rigid (tw rw' mw : ℝ) (numeric onlyYaw : Bool) :
    (∀ prior priorR S t r steps p p', let x := (problem2d tw rw' mw prior priorR numeric S).run (t, r) steps
      distSq (moved2 x.1 (x.2 0) p) (moved2 x.1 (x.2 0) p') = distSq p p') ∧
    (∀ prior priorR S t r steps p p', let x := (problem3dRPY tw rw' mw prior priorR onlyYaw numeric S).run (t, r) steps
      distSq (movedRPY x.1 x.2 p) (movedRPY x.1 x.2 p') = distSq p p') ∧
    (∀ prior priorR S t q steps p p', quatNormSq q = 1 → let x := (problem3dQuaternion tw rw' mw prior priorR onlyYaw numeric S).run (t, q) steps
      distSq (moved3 x.1 x.2 p) (moved3 x.1 x.2 p') = distSq p p') := by
  refine ⟨fun _ _ _ _ _ _ _ _ => C63_rigid.1 _ _ _ _, fun _ _ _ _ _ _ _ _ => C63_rigid.2.1 _ _ _ _, fun prior priorR S t q steps p p' hq => C63_rigid.2.2 _ _ _ _ ?_⟩
  refine run_invariant _ (fun x => quatNormSq x.2 = 1) ?_ steps (t, q) hq
  obtain ⟨hT, hR⟩ := problemQuat_blocks tw rw' mw prior priorR onlyYaw numeric S
  rw [hR]
  cases onlyYaw
  · intro x d e h
    exact (quatPlus_norm _ _).trans h
  · intro x d e h
    exact (C45_yaw_quat _ _).1.trans h

/-- non-vacuity: a step of the yaw-only quaternion problem that moves the scan by 2 in x direction and turns it by 60 degrees -/
example : ∃ d e, let x := (problem3dQuaternion 1 1 0 ![0, 0, 0] ⟨1, 0, 0, 0⟩ true false ⟨[], fun _ => .nan, fun _ => .nan⟩).run (![0, 0, 7], ⟨1, 0, 0, 0⟩) [(d, e)]
    quatNormSq ⟨1, 0, 0, 0⟩ = 1 ∧ x.1 = ![2, 0, 7] ∧ x.2 = yawOnlyQuatPlus ⟨1, 0, 0, 0⟩ (1 / 2) := by
  obtain ⟨hT, hR⟩ := problemQuat_blocks 1 1 0 ![0, 0, 0] ⟨1, 0, 0, 0⟩ true false ⟨[], fun _ => .nan, fun _ => .nan⟩
  unfold Problem.run
  dsimp only [List.foldl]
  rw [hT, hR]
  refine ⟨(![2, 0] : Fin 2 → ℝ), (![1 / 2] : Fin 1 → ℝ), ?_, ?_, rfl⟩
  · norm_num [quatNormSq]
  · show ![0 + 2, 0 + 0, 7] = ![2, 0, 7]
    norm_num

/-! ### C75 -/

theorem cost_fold (l : List ℝ) : ∀ a : ℝ, (l.map Fl.fin).foldl (fun s x => s + x * x) (.fin a) = .fin (a + (l.map (· ^ 2)).sum) := by
  induction l with
  | nil => intro a; simp
  | cons x l ih =>
    intro a
    rw [List.map_cons, List.foldl_cons]
    have : (Fl.fin a + Fl.fin x * Fl.fin x : Fl ℝ) = .fin (a + x * x) := rfl
    rw [this, ih, List.map_cons, List.sum_cons]
    congr 1; ring

theorem sum_sq_translation {d : Nat} (w : ℝ) (prior t : Fin d → ℝ) : ((List.ofFn (translationResidual w prior t)).map (· ^ 2)).sum = w ^ 2 * distSq t prior := by
  rw [List.map_ofFn, List.sum_ofFn]
  unfold distSq
  rw [Finset.mul_sum]
  exact Finset.sum_congr rfl fun i _ => by show (w * (t i - prior i)) ^ 2 = _; ring

/-- the residuals of the scan are finite with the given squared sum -/
theorem scanBlock_fin {d : Nat} (numeric : Bool) (w : ℝ) (S : ScanTerm d) (moved : (Fin d → ℝ) → Fin d → ℝ) (v : (Fin d → ℝ) → ℝ)
    (hv : ∀ p ∈ S.points, S.evaluateDouble (moved p) = .fin (v p) ∧ S.evaluateJet (moved p) = .fin (v p)) :
    ∃ rs : List ℝ, scanBlock numeric w S moved = rs.map .fin ∧ (rs.map (· ^ 2)).sum = w ^ 2 * mean (S.points.map fun p => v p ^ 2) := by
  unfold scanBlock
  cases numeric
  · obtain ⟨rs, h1, _, h2⟩ := C64_mean_square w S.points moved S.evaluateJet v fun p hp => (hv p hp).2
    exact ⟨rs, h1, h2⟩
  · obtain ⟨rs, h1, _, h2⟩ := C64_mean_square w S.points moved S.evaluateDouble v fun p hp => (hv p hp).1
    exact ⟨rs, h1, h2⟩

theorem scanBlock_opt {d : Nat} (numeric : Bool) (w : ℝ) (S : ScanTerm d) (moved : (Fin d → ℝ) → Fin d → ℝ) (v : (Fin d → ℝ) → ℝ)
    (hv : w ≠ 0 → ∀ p ∈ S.points, S.evaluateDouble (moved p) = .fin (v p) ∧ S.evaluateJet (moved p) = .fin (v p)) :
    ∃ rs : List ℝ, (w ≠ 0 → scanBlock numeric w S moved = rs.map .fin) ∧ (if w ≠ 0 then (rs.map (· ^ 2)).sum else 0) = w ^ 2 * mean (S.points.map fun p => v p ^ 2) := by
  by_cases h : w = 0
  · exact ⟨[], fun h' => absurd h h', by simp [h]⟩
  · obtain ⟨rs, h1, h2⟩ := scanBlock_fin numeric w S moved v (hv h)
    exact ⟨rs, fun _ => h1, by rw [if_pos h, h2]⟩

/-- the cost of a problem with up to three residual blocks with finite residuals -/
theorem cost_three {X Y : Type} (P : Problem X Y) (hP : P.residuals = []) (m t r : Prop) [Decidable m] [Decidable t] [Decidable r] (fm ft fr : X → Y → List (Fl ℝ)) (x : X) (y : Y)
    (lm lt lr : List ℝ) (hm : m → fm x y = lm.map .fin) (ht : t → ft x y = lt.map .fin) (hr : r → fr x y = lr.map .fin) :
    (let P := if m then P.add fm else P
     let P := if t then P.add ft else P
     if r then P.add fr else P).cost x y =
      .fin (1 / 2 * ((if m then (lm.map (· ^ 2)).sum else 0) + (if t then (lt.map (· ^ 2)).sum else 0) + (if r then (lr.map (· ^ 2)).sum else 0))) := by
  have key : ∀ (Q : Problem X Y) (l : List ℝ), Q.all x y = l.map .fin → Q.cost x y = .fin (1 / 2 * (l.map (· ^ 2)).sum) := by
    intro Q l h
    unfold Problem.cost
    rw [h]
    have := cost_fold l 0
    have e : (0 : Fl ℝ) = .fin 0 := rfl
    rw [e, this, zero_add]
    rfl
  have all_add : ∀ (Q : Problem X Y) f, (Q.add f).all x y = Q.all x y ++ f x y := by
    intro Q f
    unfold Problem.all Problem.add
    simp
  have all_nil : P.all x y = [] := by unfold Problem.all; rw [hP]; rfl
  dsimp only
  by_cases hm' : m <;> by_cases ht' : t <;> by_cases hr' : r <;> simp only [hm', ht', hr', if_true, if_false] <;>
    simp only [hm', ht', hr', forall_true_left] at hm ht hr
  · rw [key _ (lm ++ lt ++ lr) (by simp [all_add, all_nil, hm, ht, hr])]; simp [add_assoc]
  · rw [key _ (lm ++ lt) (by simp [all_add, all_nil, hm, ht])]; simp
  · rw [key _ (lm ++ lr) (by simp [all_add, all_nil, hm, hr])]; simp
  · rw [key _ lm (by simp [all_add, all_nil, hm])]; simp
  · rw [key _ (lt ++ lr) (by simp [all_add, all_nil, ht, hr])]; simp
  · rw [key _ lt (by simp [all_add, all_nil, ht])]; simp
  · rw [key _ lr (by simp [all_add, all_nil, hr])]; simp
  · rw [key _ [] (by simp [all_nil])]; simp

theorem ite_sq_mul (w s : ℝ) : (if w ≠ 0 then w ^ 2 * s else 0) = w ^ 2 * s := by
  by_cases h : w = 0
  · simp [h]
  · rw [if_pos h]

/-- **C75** (2D). If the map values `v` at the transformed points are finite, or the map weight is 0, then the cost is half of: squared map weight times the mean squared map value, plus squared translation weight times the squared distance from the prior translation,
plus squared rotation weight times the square of the angle `e` (of at most half a turn) between the rotation and the prior. A term with weight 0 does not contribute, even if its map values are NaN. -/
theorem C75_cost_2d (tw rw' mw : ℝ) (prior : Fin 2 → ℝ) (priorR : ℝ) (numeric : Bool) (S : ScanTerm 2) (t : Fin 2 → ℝ) (r : Fin 1 → ℝ) (v : (Fin 2 → ℝ) → ℝ)
    (hv : mw ≠ 0 → ∀ p ∈ S.points, S.evaluateDouble (moved2 t (r 0) p) = .fin (v p) ∧ S.evaluateJet (moved2 t (r 0) p) = .fin (v p)) :
    ∃ e, |e| ≤ π ∧ SameAngle e (priorR - r 0) ∧ (problem2d tw rw' mw prior priorR numeric S).cost t r =
      .fin (1 / 2 * (mw ^ 2 * mean (S.points.map fun p => v p ^ 2) + tw ^ 2 * distSq t prior + rw' ^ 2 * e ^ 2)) := by
  obtain ⟨h1, h2, _⟩ := C44_angle_difference priorR (r 0)
  refine ⟨angleDifference priorR (r 0), h2, h1, ?_⟩
  obtain ⟨lm, hm, hs⟩ := scanBlock_opt numeric mw S (moved2 t (r 0)) v hv
  refine (cost_three ⟨euclidean 2, ⟨1, eulerPlus⟩, []⟩ rfl (mw ≠ 0) (tw ≠ 0) (rw' ≠ 0) _ _ _ t r lm (List.ofFn (translationResidual tw prior t)) [rotationResidual2 rw' priorR (r 0)]
    hm (fun _ => rfl) (fun _ => rfl)).trans ?_
  rw [hs, sum_sq_translation, ite_sq_mul]
  have e : (([rotationResidual2 rw' priorR (r 0)] : List ℝ).map (· ^ 2)).sum = rw' ^ 2 * angleDifference priorR (r 0) ^ 2 := by
    simp [rotationResidual2, mul_pow]
  rw [e, ite_sq_mul]

/-- **C75** (3D, Euler angles). The same with one angle per component. -/
theorem C75_cost_rpy (tw rw' mw : ℝ) (prior priorR : Fin 3 → ℝ) (onlyYaw numeric : Bool) (S : ScanTerm 3) (t r : Fin 3 → ℝ) (v : (Fin 3 → ℝ) → ℝ)
    (hv : mw ≠ 0 → ∀ p ∈ S.points, S.evaluateDouble (movedRPY t r p) = .fin (v p) ∧ S.evaluateJet (movedRPY t r p) = .fin (v p)) :
    ∃ e : Fin 3 → ℝ, (∀ i, |e i| ≤ π ∧ SameAngle (e i) (priorR i - r i)) ∧ (problem3dRPY tw rw' mw prior priorR onlyYaw numeric S).cost t r =
      .fin (1 / 2 * (mw ^ 2 * mean (S.points.map fun p => v p ^ 2) + tw ^ 2 * distSq t prior + rw' ^ 2 * ∑ i, e i ^ 2)) := by
  refine ⟨fun i => angleDifference (priorR i) (r i), fun i => ⟨(C44_angle_difference _ _).2.1, (C44_angle_difference _ _).1⟩, ?_⟩
  obtain ⟨lm, hm, hs⟩ := scanBlock_opt numeric mw S (movedRPY t r) v hv
  refine (cost_three ⟨if onlyYaw then subset2 else euclidean 3, if onlyYaw then ⟨1, fun x delta => yawOnlyEulerPlus x (delta 0)⟩ else ⟨3, eulerPlus⟩, []⟩ rfl (mw ≠ 0) (tw ≠ 0) (rw' ≠ 0) _ _ _ t r lm
    (List.ofFn (translationResidual tw prior t)) (List.ofFn (rotationResidualRPY rw' priorR r)) hm (fun _ => rfl) (fun _ => rfl)).trans ?_
  rw [hs, sum_sq_translation, ite_sq_mul]
  have e : ((List.ofFn (rotationResidualRPY rw' priorR r)).map (· ^ 2)).sum = rw' ^ 2 * ∑ i, angleDifference (priorR i) (r i) ^ 2 := by
    rw [List.map_ofFn, List.sum_ofFn, Finset.mul_sum]
    exact Finset.sum_congr rfl fun i _ => by show (rw' * _) ^ 2 = _; ring
  rw [e, ite_sq_mul]

/-- **C75** (3D, quaternions, partial). For unit quaternions the translation and the map term are as above, but the rotation term is the constant squared weight (missing: it measures the rotation, see `C75_quaternion_refuted`). -/
theorem C75_cost_quaternion_partial (tw rw' mw : ℝ) (prior : Fin 3 → ℝ) (priorR : Quat) (onlyYaw numeric : Bool) (S : ScanTerm 3) (t : Fin 3 → ℝ) (q : Quat) (v : (Fin 3 → ℝ) → ℝ)
    (hp : quatNormSq priorR = 1) (hq : quatNormSq q = 1)
    (hv : mw ≠ 0 → ∀ p ∈ S.points, S.evaluateDouble (moved3 t q p) = .fin (v p) ∧ S.evaluateJet (moved3 t q p) = .fin (v p)) :
    (problem3dQuaternion tw rw' mw prior priorR onlyYaw numeric S).cost t q =
      .fin (1 / 2 * (mw ^ 2 * mean (S.points.map fun p => v p ^ 2) + tw ^ 2 * distSq t prior + rw' ^ 2)) := by
  obtain ⟨lm, hm, hs⟩ := scanBlock_opt numeric mw S (moved3 t q) v hv
  refine (cost_three ⟨if onlyYaw then subset2 else euclidean 3, if onlyYaw then ⟨1, fun x delta => yawOnlyQuatPlus x (delta 0)⟩ else ⟨3, quatPlus⟩, []⟩ rfl (mw ≠ 0) (tw ≠ 0) (rw' ≠ 0) _ _ _ t q lm
    (List.ofFn (translationResidual tw prior t)) (List.ofFn (rotationResidualQuat rw' priorR q)) hm (fun _ => rfl) (fun _ => rfl)).trans ?_
  rw [hs, sum_sq_translation, ite_sq_mul]
  have e : ((List.ofFn (rotationResidualQuat rw' priorR q)).map (· ^ 2)).sum = rw' ^ 2 * 1 := by
    rw [mul_one, ← C46_constant_refuted rw' priorR q hp hq, List.map_ofFn, List.sum_ofFn]
    rfl
  rw [e, ite_sq_mul, mul_one]

/-- **C75** (minimum). If only the priors have weights, the cost is a finite number that is never negative and 0 exactly for the prior translation and rotation, whatever the map values are (NaN included): in 2D and with Euler angles. -/
theorem C75_priors_only (tw rw' : ℝ) (htw : tw ≠ 0) (hrw : rw' ≠ 0) (numeric onlyYaw : Bool) :
    (∀ prior priorR S t r, ∃ c, (problem2d tw rw' 0 prior priorR numeric S).cost t r = .fin c ∧ 0 ≤ c ∧ (c = 0 ↔ t = prior ∧ SameAngle priorR (r 0))) ∧
    (∀ prior priorR S t r, ∃ c, (problem3dRPY tw rw' 0 prior priorR onlyYaw numeric S).cost t r = .fin c ∧ 0 ≤ c ∧ (c = 0 ↔ t = prior ∧ ∀ i, SameAngle (priorR i) (r i))) := by
  have hd : ∀ {d : Nat} (t prior : Fin d → ℝ), 0 ≤ distSq t prior ∧ (distSq t prior = 0 ↔ t = prior) := by
    intro d t prior
    unfold distSq
    refine ⟨Finset.sum_nonneg fun i _ => sq_nonneg _, ?_⟩
    rw [Finset.sum_eq_zero_iff_of_nonneg fun i _ => sq_nonneg _]
    constructor
    · intro h; funext i; have := h i (Finset.mem_univ i); nlinarith [pow_eq_zero_iff (two_ne_zero) |>.1 this]
    · rintro rfl i _; ring
  have hz : ∀ e a b : ℝ, |e| ≤ π → SameAngle e (a - b) → (e = 0 ↔ SameAngle a b) := by
    intro e a b h1 ⟨k, hk⟩
    constructor
    · rintro rfl; exact ⟨-k, by push_cast; linarith⟩
    · rintro ⟨j, hj⟩
      have : SameAngle e 0 := ⟨k + j, by push_cast; linarith⟩
      exact eq_of_sameAngle this (by rw [sub_zero]; linarith [pi_pos])
  constructor
  · intro prior priorR S t r
    obtain ⟨e, h1, h2, h⟩ := C75_cost_2d tw rw' 0 prior priorR numeric S t r (fun _ => 0) (fun h => absurd rfl h)
    refine ⟨_, h, ?_, ?_⟩
    · have a1 := mul_nonneg (sq_nonneg tw) (hd t prior).1
      have a2 := mul_nonneg (sq_nonneg rw') (sq_nonneg e)
      linarith
    · rw [← (hd t prior).2, ← hz e _ _ h1 h2]
      have := (hd t prior).1
      constructor
      · intro hc
        have a1 : 0 ≤ tw ^ 2 * distSq t prior := by positivity
        have a2 : 0 ≤ rw' ^ 2 * e ^ 2 := by positivity
        have b1 : tw ^ 2 * distSq t prior = 0 := by nlinarith
        have b2 : rw' ^ 2 * e ^ 2 = 0 := by nlinarith
        simp only [mul_eq_zero, pow_eq_zero_iff (two_ne_zero), htw, hrw, false_or] at b1 b2
        exact ⟨b1, b2⟩
      · rintro ⟨b1, rfl⟩; rw [b1]; ring
  · intro prior priorR S t r
    obtain ⟨e, h1, h⟩ := C75_cost_rpy tw rw' 0 prior priorR onlyYaw numeric S t r (fun _ => 0) (fun h => absurd rfl h)
    have hs : 0 ≤ ∑ i, e i ^ 2 := Finset.sum_nonneg fun i _ => sq_nonneg _
    refine ⟨_, h, ?_, ?_⟩
    · have a1 := mul_nonneg (sq_nonneg tw) (hd t prior).1
      have a2 := mul_nonneg (sq_nonneg rw') hs
      linarith
    · have he : (∑ i, e i ^ 2 = 0) ↔ ∀ i, SameAngle (priorR i) (r i) := by
        rw [Finset.sum_eq_zero_iff_of_nonneg fun i _ => sq_nonneg _]
        constructor
        · intro h i
          exact (hz (e i) _ _ (h1 i).1 (h1 i).2).1 (pow_eq_zero_iff (two_ne_zero) |>.1 (h i (Finset.mem_univ i)))
        · intro h i _
          rw [(hz (e i) _ _ (h1 i).1 (h1 i).2).2 (h i)]; ring
      rw [← (hd t prior).2, ← he]
      have := (hd t prior).1
      constructor
      · intro hc
        have a1 : 0 ≤ tw ^ 2 * distSq t prior := by positivity
        have a2 : 0 ≤ rw' ^ 2 * ∑ i, e i ^ 2 := by positivity
        have b1 : tw ^ 2 * distSq t prior = 0 := by nlinarith
        have b2 : rw' ^ 2 * ∑ i, e i ^ 2 = 0 := by nlinarith
        rw [mul_eq_zero, or_iff_right (pow_ne_zero 2 htw)] at b1
        rw [mul_eq_zero, or_iff_right (pow_ne_zero 2 hrw)] at b2
        exact ⟨b1, b2⟩
      · rintro ⟨b1, b2⟩; rw [b1, b2]; ring

/-- **C75** is false of the quaternion problem: with only the rotation prior, all rotations have the same cost, so the prior has no effect at all. -/
theorem C75_quaternion_refuted (rw' : ℝ) (prior : Fin 3 → ℝ) (priorR : Quat) (hp : quatNormSq priorR = 1) (onlyYaw numeric : Bool) (S : ScanTerm 3) (t t' : Fin 3 → ℝ) (q q' : Quat) (hq : quatNormSq q = 1) (hq' : quatNormSq q' = 1) :
    (problem3dQuaternion 0 rw' 0 prior priorR onlyYaw numeric S).cost t q = (problem3dQuaternion 0 rw' 0 prior priorR onlyYaw numeric S).cost t' q' := by
  rw [C75_cost_quaternion_partial 0 rw' 0 prior priorR onlyYaw numeric S t q (fun _ => 0) hp hq (fun h => absurd rfl h),
    C75_cost_quaternion_partial 0 rw' 0 prior priorR onlyYaw numeric S t' q' (fun _ => 0) hp hq' (fun h => absurd rfl h)]
  congr 1; ring

/-- one point with map value 3, prior translation at distance 1, prior rotation a quarter turn away -/
example : ∃ e, |e| ≤ π ∧ SameAngle e (0 - π / 2) ∧ (problem2d 2 1 1 ![0, 0] 0 true ⟨[![5, 5]], fun _ => .fin 3, fun _ => .fin 3⟩).cost ![1, 0] ![π / 2] = .fin (1 / 2 * (9 + 4 + e ^ 2)) := by
  obtain ⟨e, h1, h2, h⟩ := C75_cost_2d 2 1 1 ![0, 0] 0 true ⟨[![5, 5]], fun _ => .fin 3, fun _ => .fin 3⟩ ![1, 0] ![π / 2] (fun _ => 3) (fun _ _ _ => ⟨rfl, rfl⟩)
  refine ⟨e, h1, h2, h.trans ?_⟩
  congr 1
  simp [mean, distSq, Fin.sum_univ_two]
  norm_num

end Ndt
