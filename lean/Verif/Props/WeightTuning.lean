import Verif.Props.MapError

/-! Property theorem C133: what the weights of a matching problem mean: only their ratios matter, and a higher weight of a term makes that term smaller. -/

namespace Ndt

open Real Matching Spec

/-- the same problem with other weights -/
def Spec.withWeights {n d : Nat} (F : Functor n d) (m t r : ℝ) : Functor n d := { F with mapW := m, transW := t, rotW := r }

/-- the costs order all poses in the same way -/
def Spec.SameOrder {X : Type} (f f' : X → ℝ) : Prop := ∀ x y, f x ≤ f y ↔ f' x ≤ f' y

/-- a pose that is not worse than any other -/
def Spec.Minimal {X : Type} (f : X → ℝ) (x : X) : Prop := ∀ y, f x ≤ f y

theorem sameOrder_of {X : Type} {f f' : X → ℝ} {c : ℝ} (hc : 0 < c) (h : ∀ x, f' x = c * f x) : SameOrder f f' := fun x y => by
  rw [h, h]
  exact (mul_le_mul_iff_right₀ hc).symm

theorem weighted_scale {n d : Nat} (F : Functor n d) (c fi t r : ℝ) : (withWeights F (c * F.mapW) (c * F.transW) (c * F.rotW)).weighted fi t r = c * F.weighted fi t r := by
  unfold Functor.weighted withWeights
  ring

theorem unweighted_scale {n d : Nat} (F : Functor n d) {c : ℝ} (hc : c ≠ 0) (fi t r : ℝ) : (withWeights F (c * F.mapW) (c * F.transW) (c * F.rotW)).unweighted (c * fi) t r = F.unweighted fi t r := by
  unfold Functor.unweighted withWeights
  simp only
  rw [show c * fi - c * F.transW * t - c * F.rotW * |r| = c * (fi - F.transW * t - F.rotW * |r|) by ring, mul_div_mul_left _ _ hc]

/-- **C133** (nlopt, ratios). If all weights are multiplied by the same positive number, the costs order all poses as before, and the reported scores are the same, on NDT maps and on occupancy maps. -/
theorem C133_nlopt_ratios (c : ℝ) (hc : 0 < c) :
    (∀ F : Functor 3 2, let F' := withWeights F (c * F.mapW) (c * F.transW) (c * F.rotW);
      SameOrder F.nlopt2 F'.nlopt2 ∧ SameOrder F.nloptOcc2 F'.nloptOcc2 ∧ ∀ x, F'.nloptScore2 x (F'.nlopt2 x) = F.nloptScore2 x (F.nlopt2 x) ∧ F'.nloptOccScore2 x (F'.nloptOcc2 x) = F.nloptOccScore2 x (F.nloptOcc2 x)) ∧
    (∀ F : Functor 6 3, let F' := withWeights F (c * F.mapW) (c * F.transW) (c * F.rotW);
      SameOrder F.nloptRPY F'.nloptRPY ∧ SameOrder F.nloptOccRPY F'.nloptOccRPY ∧
      ∀ x, F'.nloptScoreRPY x (F'.nloptRPY x) = F.nloptScoreRPY x (F.nloptRPY x) ∧ F'.nloptOccScoreRPY x (F'.nloptOccRPY x) = F.nloptOccScoreRPY x (F.nloptOccRPY x)) ∧
    (∀ (roll pitch yaw : Quat → ℝ) (F : Functor 7 3), let F' := withWeights F (c * F.mapW) (c * F.transW) (c * F.rotW);
      SameOrder (F.nloptQuat roll pitch yaw) (F'.nloptQuat roll pitch yaw) ∧ SameOrder (F.nloptOccQuat roll pitch yaw) (F'.nloptOccQuat roll pitch yaw) ∧
      ∀ x, F'.nloptScoreQuat roll pitch yaw x (F'.nloptQuat roll pitch yaw x) = F.nloptScoreQuat roll pitch yaw x (F.nloptQuat roll pitch yaw x) ∧
        F'.nloptOccScoreQuat roll pitch yaw x (F'.nloptOccQuat roll pitch yaw x) = F.nloptOccScoreQuat roll pitch yaw x (F.nloptOccQuat roll pitch yaw x)) := by
  have key : ∀ {n d : Nat} (F : Functor n d) (fi t r : ℝ), (withWeights F (c * F.mapW) (c * F.transW) (c * F.rotW)).unweighted ((withWeights F (c * F.mapW) (c * F.transW) (c * F.rotW)).weighted fi t r) t r =
      F.unweighted (F.weighted fi t r) t r := fun F fi t r => by rw [weighted_scale, unweighted_scale F hc.ne']
  have hocc : ∀ (F : Functor 3 2) x, (withWeights F (c * F.mapW) (c * F.transW) (c * F.rotW)).nloptOcc2 x = c * F.nloptOcc2 x := fun F x => by
    unfold Functor.nloptOcc2
    simp only
    rw [foldl_add_eq, foldl_add_eq, zero_add, zero_add]
    rw [show ((withWeights F (c * F.mapW) (c * F.transW) (c * F.rotW)).points.map _).sum = c * (F.points.map fun p => 1 / 2 * F.mapW * (pointCost F.tiny (F.sample (F.act x p)) / (F.points.length : ℝ) *
        (pointCost F.tiny (F.sample (F.act x p)) / (F.points.length : ℝ)))).sum by
      rw [← List.sum_map_mul_left]
      refine congrArg List.sum (List.map_congr_left fun p _ => ?_)
      show 1 / 2 * (c * F.mapW) * _ = _
      rw [show 1 / 2 * (c * F.mapW) = c * (1 / 2 * F.mapW) by ring, mul_assoc]
      rfl]
    show 1 / 2 * (c * _ + c * F.transW * _ + c * F.rotW * _) = _
    rw [mul_assoc c F.transW, mul_assoc c F.rotW, ← mul_add, ← mul_add, mul_left_comm]
    rfl
  refine ⟨fun F => ⟨sameOrder_of hc fun x => weighted_scale F c _ _ _, sameOrder_of hc (hocc F), fun x => ⟨key F _ _ _, ?_⟩⟩,
    fun F => ⟨sameOrder_of hc fun x => weighted_scale F c _ _ _, sameOrder_of hc fun x => weighted_scale F c _ _ _, fun x => ⟨key F _ _ _, key F _ _ _⟩⟩,
    fun _ _ _ F => ⟨sameOrder_of hc fun x => weighted_scale F c _ _ _, sameOrder_of hc fun x => weighted_scale F c _ _ _, fun x => ⟨key F _ _ _, key F _ _ _⟩⟩⟩
  rw [hocc]
  exact unweighted_scale F hc.ne' _ _ _

theorem sumSq_scale (c : ℝ) (l : List ℝ) : sumSq (l.map (c * ·)) = c ^ 2 * sumSq l := by
  unfold sumSq
  rw [List.map_map, ← List.sum_map_mul_left]
  exact congrArg List.sum (List.map_congr_left fun p _ => by simp only [Function.comp]; ring)

theorem alglibPoints_scale {n d : Nat} (F : Functor n d) (c m t r : ℝ) (x : Fin n → ℝ) (h : m = c * F.mapW) : (withWeights F m t r).alglibPoints x = (F.alglibPoints x).map (c * ·) := by
  unfold Functor.alglibPoints
  rw [List.map_map, h]
  refine List.map_congr_left fun p _ => ?_
  show c * F.mapW * _ / _ = c * (F.mapW * _ / _)
  rw [mul_assoc, mul_div_assoc]
  rfl

/-- **C133** (alglib, ratios) -/
theorem C133_alglib_ratios (c : ℝ) (hc : 0 < c) :
    (∀ F : Functor 3 2, let F' := withWeights F (c * F.mapW) (c * F.transW) (c * F.rotW); SameOrder (fun x => sumSq (F.alglib2 x)) (fun x => sumSq (F'.alglib2 x)) ∧
      (F.mapW ≠ 0 → F.points ≠ [] → ∀ x, F'.alglibScore (F'.alglib2 x) = F.alglibScore (F.alglib2 x))) ∧
    (∀ F : Functor 6 3, let F' := withWeights F (c * F.mapW) (c * F.transW) (c * F.rotW); SameOrder (fun x => sumSq (F.alglibRPY x)) (fun x => sumSq (F'.alglibRPY x)) ∧
      (F.mapW ≠ 0 → F.points ≠ [] → ∀ x, F'.alglibScore (F'.alglibRPY x) = F.alglibScore (F.alglibRPY x))) ∧
    (∀ F : Functor 7 3, let F' := withWeights F (c * F.mapW) (c * F.transW) (c * F.rotW); SameOrder (fun x => sumSq (F.alglibQuat x)) (fun x => sumSq (F'.alglibQuat x)) ∧
      (F.mapW ≠ 0 → F.points ≠ [] → ∀ x, F'.alglibScore (F'.alglibQuat x) = F.alglibScore (F.alglibQuat x))) := by
  obtain ⟨a1, a2, a3⟩ := C48_alglib
  have hc2 : 0 < c ^ 2 := by positivity
  refine ⟨fun F => ⟨sameOrder_of hc2 fun x => ?_, fun hw hp x => ?_⟩, fun F => ⟨sameOrder_of hc2 fun x => ?_, fun hw hp x => ?_⟩, fun F => ⟨sameOrder_of hc2 fun x => ?_, fun hw hp x => ?_⟩⟩
  · rw [← sumSq_scale]
    unfold Functor.alglib2
    rw [alglibPoints_scale F c _ _ _ x rfl, List.map_append]
    simp [withWeights, mul_assoc]
  · rw [a1 F x hw hp]
    exact a1 (withWeights F _ _ _) x (mul_ne_zero hc.ne' hw) hp
  · rw [← sumSq_scale]
    unfold Functor.alglibRPY
    rw [alglibPoints_scale F c _ _ _ x rfl, List.map_append]
    simp [withWeights, mul_assoc]
  · rw [a2 F x hw hp]
    exact a2 (withWeights F _ _ _) x (mul_ne_zero hc.ne' hw) hp
  · rw [← sumSq_scale]
    unfold Functor.alglibQuat
    rw [alglibPoints_scale F c _ _ _ x rfl, List.map_append]
    simp [withWeights, mul_assoc, Functor.alglibRotDiff]
  · rw [a3 F x hw hp]
    exact a3 (withWeights F _ _ _) x (mul_ne_zero hc.ne' hw) hp

/-! ### Tuning -/

/-- the exchange argument: if the weight of `A` is raised, `A` gets smaller at the best pose, and the rest does not -/
theorem trade {X : Type} (A B : X → ℝ) {m m' : ℝ} (h0 : 0 ≤ m) (h : m < m') {x y : X} (hx : ∀ z, m * A x + B x ≤ m * A z + B z) (hy : ∀ z, m' * A y + B y ≤ m' * A z + B z) : A y ≤ A x ∧ B x ≤ B y := by
  have h1 := hx y
  have h2 := hy x
  have h3 : A y ≤ A x := by
    by_contra hn
    nlinarith [mul_pos (sub_pos.2 h) (sub_pos.2 (not_le.1 hn))]
  exact ⟨h3, by nlinarith [mul_le_mul_of_nonneg_left h3 h0]⟩

theorem weighted_trade {n d : Nat} (F : Functor n d) (fi trans rot : (Fin n → ℝ) → ℝ) {m m' : ℝ} (t r : ℝ) (h0 : 0 < m) (h : m < m') {x y : Fin n → ℝ} (hx : Minimal (fun z => (withWeights F m t r).weighted (fi z) (trans z) (rot z)) x)
    (hy : Minimal (fun z => (withWeights F m' t r).weighted (fi z) (trans z) (rot z)) y) :
    (withWeights F m t r).unweighted ((withWeights F m t r).weighted (fi x) (trans x) (rot x)) (trans x) (rot x) ≤ (withWeights F m' t r).unweighted ((withWeights F m' t r).weighted (fi y) (trans y) (rot y)) (trans y) (rot y) ∧
    t * trans x + r * |rot x| ≤ t * trans y + r * |rot y| := by
  have e : ∀ m z, (withWeights F m t r).weighted (fi z) (trans z) (rot z) = m * (fi z / (F.points.length : ℝ)) + (t * trans z + r * |rot z|) := fun m z => by
    unfold Functor.weighted withWeights
    ring
  obtain ⟨h1, h2⟩ := trade (fun z => fi z / (F.points.length : ℝ)) (fun z => t * trans z + r * |rot z|) h0.le h (fun z => by rw [← e, ← e]; exact hx z) fun z => by rw [← e, ← e]; exact hy z
  rw [unweighted_weighted _ h0.ne', unweighted_weighted _ (h0.trans h).ne']
  exact ⟨sub_le_sub_left h1 1, h2⟩

/-- **C133** (nlopt, map weight). A higher map weight cannot make the reported score of the best pose worse, nor the best pose closer to the initial guess (distances and angles weighted), on NDT maps and on 3D occupancy maps. -/
theorem C133_nlopt_map_weight (m m' t r : ℝ) (h0 : 0 < m) (h : m < m') :
    (∀ (F : Functor 3 2) (x y : Fin 3 → ℝ), let F1 := withWeights F m t r; let F2 := withWeights F m' t r; Minimal F1.nlopt2 x → Minimal F2.nlopt2 y →
      F1.nloptScore2 x (F1.nlopt2 x) ≤ F2.nloptScore2 y (F2.nlopt2 y) ∧ t * F.trans2 x + r * |F.rot2 x| ≤ t * F.trans2 y + r * |F.rot2 y|) ∧
    (∀ (F : Functor 6 3) (x y : Fin 6 → ℝ), let F1 := withWeights F m t r; let F2 := withWeights F m' t r;
      (Minimal F1.nloptRPY x → Minimal F2.nloptRPY y → F1.nloptScoreRPY x (F1.nloptRPY x) ≤ F2.nloptScoreRPY y (F2.nloptRPY y) ∧ t * F.trans3 x + r * |F.rotRPY x| ≤ t * F.trans3 y + r * |F.rotRPY y|) ∧
      (Minimal F1.nloptOccRPY x → Minimal F2.nloptOccRPY y → F1.nloptOccScoreRPY x (F1.nloptOccRPY x) ≤ F2.nloptOccScoreRPY y (F2.nloptOccRPY y) ∧ t * F.trans3 x + r * |F.rotRPY x| ≤ t * F.trans3 y + r * |F.rotRPY y|)) ∧
    (∀ (roll pitch yaw : Quat → ℝ) (F : Functor 7 3) (x y : Fin 7 → ℝ), let F1 := withWeights F m t r; let F2 := withWeights F m' t r;
      (Minimal (F1.nloptQuat roll pitch yaw) x → Minimal (F2.nloptQuat roll pitch yaw) y →
        F1.nloptScoreQuat roll pitch yaw x (F1.nloptQuat roll pitch yaw x) ≤ F2.nloptScoreQuat roll pitch yaw y (F2.nloptQuat roll pitch yaw y) ∧
        t * F.trans3 x + r * |F.rotQuat roll pitch yaw x| ≤ t * F.trans3 y + r * |F.rotQuat roll pitch yaw y|) ∧
      (Minimal (F1.nloptOccQuat roll pitch yaw) x → Minimal (F2.nloptOccQuat roll pitch yaw) y →
        F1.nloptOccScoreQuat roll pitch yaw x (F1.nloptOccQuat roll pitch yaw x) ≤ F2.nloptOccScoreQuat roll pitch yaw y (F2.nloptOccQuat roll pitch yaw y) ∧
        t * F.trans3 x + r * |F.rotQuat roll pitch yaw x| ≤ t * F.trans3 y + r * |F.rotQuat roll pitch yaw y|)) :=
  ⟨fun F _ _ hx hy => weighted_trade F (F.sumCost (pointCost F.tiny)) F.trans2 F.rot2 t r h0 h hx hy,
    fun F _ _ => ⟨fun hx hy => weighted_trade F (F.sumCost (pointCost F.tiny)) F.trans3 F.rotRPY t r h0 h hx hy, fun hx hy => weighted_trade F (F.sumCost (pointCostSkip F.tiny)) F.trans3 F.rotRPY t r h0 h hx hy⟩,
    fun roll pitch yaw F _ _ => ⟨fun hx hy => weighted_trade F (F.sumCost (pointCost F.tiny)) F.trans3 (F.rotQuat roll pitch yaw) t r h0 h hx hy,
      fun hx hy => weighted_trade F (F.sumCost (pointCostSkip F.tiny)) F.trans3 (F.rotQuat roll pitch yaw) t r h0 h hx hy⟩⟩

theorem weighted_prior {n d : Nat} (F : Functor n d) (fi trans rot : (Fin n → ℝ) → ℝ) (m w w' v : ℝ) (h0 : 0 ≤ w) (h : w < w') {x y : Fin n → ℝ} :
    (Minimal (fun z => (withWeights F m w v).weighted (fi z) (trans z) (rot z)) x → Minimal (fun z => (withWeights F m w' v).weighted (fi z) (trans z) (rot z)) y → trans y ≤ trans x) ∧
    (Minimal (fun z => (withWeights F m v w).weighted (fi z) (trans z) (rot z)) x → Minimal (fun z => (withWeights F m v w').weighted (fi z) (trans z) (rot z)) y → |rot y| ≤ |rot x|) := by
  have e : ∀ t r z, (withWeights F m t r).weighted (fi z) (trans z) (rot z) = m * fi z / (F.points.length : ℝ) + t * trans z + r * |rot z| := fun t r z => rfl
  refine ⟨fun hx hy => (trade trans (fun z => m * fi z / (F.points.length : ℝ) + v * |rot z|) h0 h (fun z => ?_) fun z => ?_).1, fun hx hy => (trade (fun z => |rot z|) (fun z => m * fi z / (F.points.length : ℝ) + v * trans z) h0 h
    (fun z => ?_) fun z => ?_).1⟩
  · have := hx z; simp only [e] at this; linarith
  · have := hy z; simp only [e] at this; linarith
  · have := hx z; simp only [e] at this; linarith
  · have := hy z; simp only [e] at this; linarith

/-- **C133** (nlopt, weights of the priors). A higher translation weight cannot make the best pose farther from the initial guess, a higher rotation weight cannot turn it farther away, on NDT maps and on 3D occupancy maps. -/
theorem C133_nlopt_prior_weights (m w w' v : ℝ) (h0 : 0 ≤ w) (h : w < w') :
    (∀ (F : Functor 3 2) (x y : Fin 3 → ℝ), (Minimal (withWeights F m w v).nlopt2 x → Minimal (withWeights F m w' v).nlopt2 y → F.trans2 y ≤ F.trans2 x) ∧
      (Minimal (withWeights F m v w).nlopt2 x → Minimal (withWeights F m v w').nlopt2 y → |F.rot2 y| ≤ |F.rot2 x|)) ∧
    (∀ (F : Functor 6 3) (x y : Fin 6 → ℝ), (Minimal (withWeights F m w v).nloptRPY x → Minimal (withWeights F m w' v).nloptRPY y → F.trans3 y ≤ F.trans3 x) ∧
      (Minimal (withWeights F m v w).nloptRPY x → Minimal (withWeights F m v w').nloptRPY y → |F.rotRPY y| ≤ |F.rotRPY x|) ∧
      (Minimal (withWeights F m w v).nloptOccRPY x → Minimal (withWeights F m w' v).nloptOccRPY y → F.trans3 y ≤ F.trans3 x) ∧
      (Minimal (withWeights F m v w).nloptOccRPY x → Minimal (withWeights F m v w').nloptOccRPY y → |F.rotRPY y| ≤ |F.rotRPY x|)) ∧
    (∀ (roll pitch yaw : Quat → ℝ) (F : Functor 7 3) (x y : Fin 7 → ℝ),
      (Minimal ((withWeights F m w v).nloptQuat roll pitch yaw) x → Minimal ((withWeights F m w' v).nloptQuat roll pitch yaw) y → F.trans3 y ≤ F.trans3 x) ∧
      (Minimal ((withWeights F m v w).nloptQuat roll pitch yaw) x → Minimal ((withWeights F m v w').nloptQuat roll pitch yaw) y → |F.rotQuat roll pitch yaw y| ≤ |F.rotQuat roll pitch yaw x|) ∧
      (Minimal ((withWeights F m w v).nloptOccQuat roll pitch yaw) x → Minimal ((withWeights F m w' v).nloptOccQuat roll pitch yaw) y → F.trans3 y ≤ F.trans3 x) ∧
      (Minimal ((withWeights F m v w).nloptOccQuat roll pitch yaw) x → Minimal ((withWeights F m v w').nloptOccQuat roll pitch yaw) y → |F.rotQuat roll pitch yaw y| ≤ |F.rotQuat roll pitch yaw x|)) := by
  refine ⟨fun F x y => weighted_prior F (F.sumCost (pointCost F.tiny)) F.trans2 F.rot2 m w w' v h0 h, fun F x y => ?_, fun roll pitch yaw F x y => ?_⟩
  · have a := weighted_prior F (F.sumCost (pointCost F.tiny)) F.trans3 F.rotRPY m w w' v h0 h (x := x) (y := y)
    have b := weighted_prior F (F.sumCost (pointCostSkip F.tiny)) F.trans3 F.rotRPY m w w' v h0 h (x := x) (y := y)
    exact ⟨a.1, a.2, b.1, b.2⟩
  · have a := weighted_prior F (F.sumCost (pointCost F.tiny)) F.trans3 (F.rotQuat roll pitch yaw) m w w' v h0 h (x := x) (y := y)
    have b := weighted_prior F (F.sumCost (pointCostSkip F.tiny)) F.trans3 (F.rotQuat roll pitch yaw) m w w' v h0 h (x := x) (y := y)
    exact ⟨a.1, a.2, b.1, b.2⟩

/-- the mean squared loss of a scan at a pose: 0 if every point gets the score 1, and 1 if none gets a score -/
noncomputable def Spec.meanSquaredLoss {n d : Nat} (F : Functor n d) (x : Fin n → ℝ) : ℝ := mean (F.points.map fun p => (1 - properScore F.tiny (F.sample (F.act x p))) ^ 2)

theorem squares_eq {n d : Nat} (F : Functor n d) (x : Fin n → ℝ) (w : ℝ) : (F.points.map fun p => w * (pointCost F.tiny (F.sample (F.act x p)) / (F.points.length : ℝ)) ^ 2).sum = w * (meanSquaredLoss F x / (F.points.length : ℝ)) := by
  unfold meanSquaredLoss mean
  rw [List.length_map, List.sum_map_mul_left, div_div, ← sq]
  simp only [pointCost_eq, div_pow]
  rw [show (fun p => (1 - properScore F.tiny (F.sample (F.act x p))) ^ 2 / (F.points.length : ℝ) ^ 2) = fun p => (1 - properScore F.tiny (F.sample (F.act x p))) ^ 2 * ((F.points.length : ℝ) ^ 2)⁻¹ from
    funext fun p => div_eq_mul_inv _ _, List.sum_map_mul_right, div_eq_mul_inv]

/-- **C133** (nlopt on 2D occupancy maps, map weight). A higher map weight cannot make the mean squared loss of the best pose larger, nor the best pose closer to the initial guess. -/
theorem C133_occupancy2_map_weight (F : Functor 3 2) (hp : F.points ≠ []) (m m' t r : ℝ) (h0 : 0 ≤ m) (h : m < m') (x y : Fin 3 → ℝ) (hx : Minimal (withWeights F m t r).nloptOcc2 x) (hy : Minimal (withWeights F m' t r).nloptOcc2 y) :
    meanSquaredLoss F y ≤ meanSquaredLoss F x ∧
    t * ((x 0 - F.guess 0) ^ 2 + (x 1 - F.guess 1) ^ 2) + r * F.dif (x 2) (F.guess 2) ^ 2 ≤ t * ((y 0 - F.guess 0) ^ 2 + (y 1 - F.guess 1) ^ 2) + r * F.dif (y 2) (F.guess 2) ^ 2 := by
  have hn : (0 : ℝ) < (F.points.length : ℝ) := Nat.cast_pos.2 (List.length_pos_iff.2 hp)
  have e : ∀ m z, (withWeights F m t r).nloptOcc2 z = m * (1 / 4 * (meanSquaredLoss F z / (F.points.length : ℝ))) +
      1 / 2 * (t * ((z 0 - F.guess 0) ^ 2 + (z 1 - F.guess 1) ^ 2) + r * F.dif (z 2) (F.guess 2) ^ 2) := fun m z => by
    have := squares_eq F z (1 / 2 * m)
    unfold Functor.nloptOcc2
    simp only [← sq]
    rw [foldl_add_eq, zero_add]
    show 1 / 2 * ((F.points.map fun p => 1 / 2 * m * (pointCost F.tiny (F.sample (F.act z p)) / (F.points.length : ℝ)) ^ 2).sum + t * _ + r * F.dif (z 2) (F.guess 2) ^ 2) = _
    rw [this]
    show 1 / 2 * (1 / 2 * m * _ + t * ((z 0 - F.guess 0) ^ 2 + (z 1 - F.guess 1) ^ 2) + _) = _
    ring
  obtain ⟨h1, h2⟩ := trade (fun z => 1 / 4 * (meanSquaredLoss F z / (F.points.length : ℝ))) (fun z => 1 / 2 * (t * ((z 0 - F.guess 0) ^ 2 + (z 1 - F.guess 1) ^ 2) + r * F.dif (z 2) (F.guess 2) ^ 2)) h0 h (fun z => by rw [← e, ← e]; exact hx z) fun z => by rw [← e, ← e]; exact hy z
  refine ⟨?_, by linarith⟩
  have h3 : meanSquaredLoss F y / (F.points.length : ℝ) ≤ meanSquaredLoss F x / (F.points.length : ℝ) := by linarith
  exact (div_le_div_iff_of_pos_right hn).1 h3

theorem alglib_trade {n d : Nat} (F : Functor n d) (hp : F.points ≠ []) (m m' t r : ℝ) (h0 : 0 ≤ m) (h : m < m') (rest : (Fin n → ℝ) → List ℝ) {x y : Fin n → ℝ}
    (hx : Minimal (fun z => sumSq ((withWeights F m t r).alglibPoints z ++ rest z)) x) (hy : Minimal (fun z => sumSq ((withWeights F m' t r).alglibPoints z ++ rest z)) y) :
    meanSquaredLoss F y ≤ meanSquaredLoss F x ∧ sumSq (rest x) ≤ sumSq (rest y) := by
  have hn : (0 : ℝ) < (F.points.length : ℝ) := Nat.cast_pos.2 (List.length_pos_iff.2 hp)
  have e : ∀ m z, sumSq ((withWeights F m t r).alglibPoints z ++ rest z) = m ^ 2 * (meanSquaredLoss F z / (F.points.length : ℝ)) + sumSq (rest z) := fun m z => by
    rw [sumSq_append, ← squares_eq]
    unfold sumSq Functor.alglibPoints
    rw [List.map_map]
    congr 2
    refine List.map_congr_left fun p _ => ?_
    show (m * pointCost F.tiny (F.sample (F.act z p)) / (F.points.length : ℝ)) ^ 2 = _
    ring
  obtain ⟨h1, h2⟩ := trade (fun z => meanSquaredLoss F z / (F.points.length : ℝ)) (fun z => sumSq (rest z)) (sq_nonneg m) (pow_lt_pow_left₀ h h0 two_ne_zero) (fun z => by rw [← e, ← e]; exact hx z) fun z => by rw [← e, ← e]; exact hy z
  exact ⟨(div_le_div_iff_of_pos_right hn).1 h1, h2⟩

/-- **C133** (alglib, map weight). The same with the squared weights, on all maps. -/
theorem C133_alglib_map_weight (m m' t r : ℝ) (h0 : 0 ≤ m) (h : m < m') :
    (∀ (F : Functor 3 2) (x y : Fin 3 → ℝ), F.points ≠ [] → Minimal (fun z => sumSq ((withWeights F m t r).alglib2 z)) x → Minimal (fun z => sumSq ((withWeights F m' t r).alglib2 z)) y →
      meanSquaredLoss F y ≤ meanSquaredLoss F x ∧
      t ^ 2 * ((x 0 - F.guess 0) ^ 2 + (x 1 - F.guess 1) ^ 2) + r ^ 2 * F.dif (x 2) (F.guess 2) ^ 2 ≤ t ^ 2 * ((y 0 - F.guess 0) ^ 2 + (y 1 - F.guess 1) ^ 2) + r ^ 2 * F.dif (y 2) (F.guess 2) ^ 2) ∧
    (∀ (F : Functor 6 3) (x y : Fin 6 → ℝ), F.points ≠ [] → Minimal (fun z => sumSq ((withWeights F m t r).alglibRPY z)) x → Minimal (fun z => sumSq ((withWeights F m' t r).alglibRPY z)) y →
      meanSquaredLoss F y ≤ meanSquaredLoss F x ∧
      t ^ 2 * ((x 0 - F.guess 0) ^ 2 + (x 1 - F.guess 1) ^ 2 + (x 2 - F.guess 2) ^ 2) + r ^ 2 * (F.dif (x 3) (F.guess 3) ^ 2 + F.dif (x 4) (F.guess 4) ^ 2 + F.dif (x 5) (F.guess 5) ^ 2) ≤
        t ^ 2 * ((y 0 - F.guess 0) ^ 2 + (y 1 - F.guess 1) ^ 2 + (y 2 - F.guess 2) ^ 2) + r ^ 2 * (F.dif (y 3) (F.guess 3) ^ 2 + F.dif (y 4) (F.guess 4) ^ 2 + F.dif (y 5) (F.guess 5) ^ 2)) ∧
    (∀ (F : Functor 7 3) (x y : Fin 7 → ℝ), F.points ≠ [] → Minimal (fun z => sumSq ((withWeights F m t r).alglibQuat z)) x → Minimal (fun z => sumSq ((withWeights F m' t r).alglibQuat z)) y →
      meanSquaredLoss F y ≤ meanSquaredLoss F x) := by
  refine ⟨fun F x y hp hx hy => ?_, fun F x y hp hx hy => ?_, fun F x y hp hx hy => ?_⟩
  · obtain ⟨h1, h2⟩ := alglib_trade F hp m m' t r h0 h (fun z => [t * (z 0 - F.guess 0), t * (z 1 - F.guess 1), r * |F.dif (z 2) (F.guess 2)|]) hx hy
    refine ⟨h1, ?_⟩
    simp only [sumSq, List.map_cons, List.map_nil, List.sum_cons, List.sum_nil, mul_pow, sq_abs] at h2
    linarith
  · obtain ⟨h1, h2⟩ := alglib_trade F hp m m' t r h0 h (fun z => [t * (z 0 - F.guess 0), t * (z 1 - F.guess 1), t * (z 2 - F.guess 2), r * |F.dif (z 3) (F.guess 3)|, r * |F.dif (z 4) (F.guess 4)|, r * |F.dif (z 5) (F.guess 5)|]) hx hy
    refine ⟨h1, ?_⟩
    simp only [sumSq, List.map_cons, List.map_nil, List.sum_cons, List.sum_nil, mul_pow, sq_abs] at h2
    linarith
  · exact (alglib_trade F hp m m' t r h0 h (fun z => [t * (z 0 - F.guess 0), t * (z 1 - F.guess 1), t * (z 2 - F.guess 2), r * |(F.alglibRotDiff z).w|, r * |(F.alglibRotDiff z).x|, r * |(F.alglibRotDiff z).y|,
      r * |(F.alglibRotDiff z).z|]) hx hy).1

/-- **C133** (ceres). If all weights are multiplied by the same positive number, the costs order all poses as before. A higher map weight cannot make the mean squared map value of the best pose larger, nor the best pose closer to the prior pose. -/
theorem C133_ceres :
    (∀ (c m m' t r : ℝ) (prior : Fin 2 → ℝ) (priorR : ℝ) (numeric : Bool) (S : ScanTerm 2) (v : (Fin 2 → ℝ) → ℝ), 0 < c → 0 ≤ m → m < m' → (∀ q, S.evaluateDouble q = .fin (v q) ∧ S.evaluateJet q = .fin (v q)) →
      ∃ (f : ℝ → ℝ → ℝ → (Fin 2 → ℝ) × (Fin 1 → ℝ) → ℝ) (e : (Fin 1 → ℝ) → ℝ), (∀ m t r x, (problem2d t r m prior priorR numeric S).cost x.1 x.2 = .fin (f m t r x)) ∧ (∀ y, |e y| ≤ π ∧ SameAngle (e y) (priorR - y 0)) ∧
        SameOrder (f m t r) (f (c * m) (c * t) (c * r)) ∧
        ∀ x y, Minimal (f m t r) x → Minimal (f m' t r) y →
          mean (S.points.map fun p => v (moved2 y.1 (y.2 0) p) ^ 2) ≤ mean (S.points.map fun p => v (moved2 x.1 (x.2 0) p) ^ 2) ∧
          t ^ 2 * distSq x.1 prior + r ^ 2 * e x.2 ^ 2 ≤ t ^ 2 * distSq y.1 prior + r ^ 2 * e y.2 ^ 2) ∧
    (∀ (c m m' t r : ℝ) (prior priorR : Fin 3 → ℝ) (onlyYaw numeric : Bool) (S : ScanTerm 3) (v : (Fin 3 → ℝ) → ℝ), 0 < c → 0 ≤ m → m < m' → (∀ q, S.evaluateDouble q = .fin (v q) ∧ S.evaluateJet q = .fin (v q)) →
      ∃ (f : ℝ → ℝ → ℝ → (Fin 3 → ℝ) × (Fin 3 → ℝ) → ℝ) (e : (Fin 3 → ℝ) → Fin 3 → ℝ), (∀ m t r x, (problem3dRPY t r m prior priorR onlyYaw numeric S).cost x.1 x.2 = .fin (f m t r x)) ∧
        (∀ y i, |e y i| ≤ π ∧ SameAngle (e y i) (priorR i - y i)) ∧ SameOrder (f m t r) (f (c * m) (c * t) (c * r)) ∧
        ∀ x y, Minimal (f m t r) x → Minimal (f m' t r) y →
          mean (S.points.map fun p => v (movedRPY y.1 y.2 p) ^ 2) ≤ mean (S.points.map fun p => v (movedRPY x.1 x.2 p) ^ 2) ∧
          t ^ 2 * distSq x.1 prior + r ^ 2 * ∑ i, e x.2 i ^ 2 ≤ t ^ 2 * distSq y.1 prior + r ^ 2 * ∑ i, e y.2 i ^ 2) := by
  have key : ∀ {X : Type} (A D E : X → ℝ) {c m m' : ℝ} (t r : ℝ), 0 < c → 0 ≤ m → m < m' → SameOrder (fun x => 1 / 2 * (m ^ 2 * A x + t ^ 2 * D x + r ^ 2 * E x)) (fun x => 1 / 2 * ((c * m) ^ 2 * A x + (c * t) ^ 2 * D x + (c * r) ^ 2 * E x)) ∧
      ∀ x y, Minimal (fun x => 1 / 2 * (m ^ 2 * A x + t ^ 2 * D x + r ^ 2 * E x)) x → Minimal (fun x => 1 / 2 * (m' ^ 2 * A x + t ^ 2 * D x + r ^ 2 * E x)) y → A y ≤ A x ∧ t ^ 2 * D x + r ^ 2 * E x ≤ t ^ 2 * D y + r ^ 2 * E y := by
    intro X A D E c m m' t r hc h0 h
    refine ⟨sameOrder_of (show 0 < c ^ 2 by positivity) fun x => by ring, fun x y hx hy => ?_⟩
    exact trade A (fun x => t ^ 2 * D x + r ^ 2 * E x) (sq_nonneg m) (pow_lt_pow_left₀ h h0 two_ne_zero) (fun z => by have := hx z; linarith) fun z => by have := hy z; linarith
  refine ⟨?_, ?_⟩
  · intro c m m' t r prior priorR numeric S v hc h0 h hv
    have hcost : ∀ m t r (x : (Fin 2 → ℝ) × (Fin 1 → ℝ)), (problem2d t r m prior priorR numeric S).cost x.1 x.2 =
        .fin (1 / 2 * (m ^ 2 * mean (S.points.map fun p => v (moved2 x.1 (x.2 0) p) ^ 2) + t ^ 2 * distSq x.1 prior + r ^ 2 * angleDifference priorR (x.2 0) ^ 2)) := fun m t r x => by
      obtain ⟨e, a, b, f⟩ := C75_cost_2d t r m prior priorR numeric S x.1 x.2 (fun p => v (moved2 x.1 (x.2 0) p)) fun _ p _ => hv _
      rw [f, sq_eq_of_sameAngle a (C44_angle_difference priorR (x.2 0)).2.1 (b.trans (C44_angle_difference priorR (x.2 0)).1.symm)]
    obtain ⟨k1, k2⟩ := key (fun x : (Fin 2 → ℝ) × (Fin 1 → ℝ) => mean (S.points.map fun p => v (moved2 x.1 (x.2 0) p) ^ 2)) (fun x => distSq x.1 prior) (fun x => angleDifference priorR (x.2 0) ^ 2) t r hc h0 h
    exact ⟨_, fun y => angleDifference priorR (y 0), hcost, fun y => ⟨(C44_angle_difference _ _).2.1, (C44_angle_difference _ _).1⟩, k1, k2⟩
  · intro c m m' t r prior priorR onlyYaw numeric S v hc h0 h hv
    have hcost : ∀ m t r (x : (Fin 3 → ℝ) × (Fin 3 → ℝ)), (problem3dRPY t r m prior priorR onlyYaw numeric S).cost x.1 x.2 =
        .fin (1 / 2 * (m ^ 2 * mean (S.points.map fun p => v (movedRPY x.1 x.2 p) ^ 2) + t ^ 2 * distSq x.1 prior + r ^ 2 * ∑ i, angleDifference (priorR i) (x.2 i) ^ 2)) := fun m t r x => by
      obtain ⟨e, a, f⟩ := C75_cost_rpy t r m prior priorR onlyYaw numeric S x.1 x.2 (fun p => v (movedRPY x.1 x.2 p)) fun _ p _ => hv _
      rw [f, Finset.sum_congr rfl fun i _ => sq_eq_of_sameAngle (a i).1 (C44_angle_difference (priorR i) (x.2 i)).2.1 ((a i).2.trans (C44_angle_difference (priorR i) (x.2 i)).1.symm)]
    obtain ⟨k1, k2⟩ := key (fun x : (Fin 3 → ℝ) × (Fin 3 → ℝ) => mean (S.points.map fun p => v (movedRPY x.1 x.2 p) ^ 2)) (fun x => distSq x.1 prior) (fun x => ∑ i, angleDifference (priorR i) (x.2 i) ^ 2) t r hc h0 h
    exact ⟨_, fun y i => angleDifference (priorR i) (y i), hcost, fun y i => ⟨(C44_angle_difference _ _).2.1, (C44_angle_difference _ _).1⟩, k1, k2⟩

theorem alglibPoints_weights {n d : Nat} (F : Functor n d) (m t r t' r' : ℝ) : (withWeights F m t r).alglibPoints = (withWeights F m t' r').alglibPoints := rfl

/-- **C133** (alglib and nlopt on 2D occupancy maps, weights of the priors). A higher translation weight cannot make the best pose farther from the initial guess, a higher rotation weight cannot turn it farther away. -/
theorem C133_squares_prior_weights (m w w' v : ℝ) (h0 : 0 ≤ w) (h : w < w') :
    (∀ (F : Functor 3 2) (x y : Fin 3 → ℝ), let D := fun z : Fin 3 → ℝ => (z 0 - F.guess 0) ^ 2 + (z 1 - F.guess 1) ^ 2; let E := fun z : Fin 3 → ℝ => F.dif (z 2) (F.guess 2) ^ 2;
      (Minimal (fun z => sumSq ((withWeights F m w v).alglib2 z)) x → Minimal (fun z => sumSq ((withWeights F m w' v).alglib2 z)) y → D y ≤ D x) ∧
      (Minimal (fun z => sumSq ((withWeights F m v w).alglib2 z)) x → Minimal (fun z => sumSq ((withWeights F m v w').alglib2 z)) y → E y ≤ E x) ∧
      (Minimal (withWeights F m w v).nloptOcc2 x → Minimal (withWeights F m w' v).nloptOcc2 y → D y ≤ D x) ∧
      (Minimal (withWeights F m v w).nloptOcc2 x → Minimal (withWeights F m v w').nloptOcc2 y → E y ≤ E x)) ∧
    (∀ (F : Functor 6 3) (x y : Fin 6 → ℝ), let D := fun z : Fin 6 → ℝ => (z 0 - F.guess 0) ^ 2 + (z 1 - F.guess 1) ^ 2 + (z 2 - F.guess 2) ^ 2;
      let E := fun z : Fin 6 → ℝ => F.dif (z 3) (F.guess 3) ^ 2 + F.dif (z 4) (F.guess 4) ^ 2 + F.dif (z 5) (F.guess 5) ^ 2;
      (Minimal (fun z => sumSq ((withWeights F m w v).alglibRPY z)) x → Minimal (fun z => sumSq ((withWeights F m w' v).alglibRPY z)) y → D y ≤ D x) ∧
      (Minimal (fun z => sumSq ((withWeights F m v w).alglibRPY z)) x → Minimal (fun z => sumSq ((withWeights F m v w').alglibRPY z)) y → E y ≤ E x)) := by
  have key : ∀ {X : Type} (A D E : X → ℝ) (f : ℝ → ℝ → X → ℝ) (s : ℝ → ℝ) (c : ℝ), 0 < c → s w < s w' → 0 ≤ s w → (∀ t r z, f t r z = A z + c * (s t * D z + s r * E z)) → ∀ x y,
      (Minimal (f w v) x → Minimal (f w' v) y → D y ≤ D x) ∧ (Minimal (f v w) x → Minimal (f v w') y → E y ≤ E x) := by
    intro X A D E f s c hc hs hs0 hf x y
    have hcs : 0 ≤ c * s w := mul_nonneg hc.le hs0
    have hcs' : c * s w < c * s w' := mul_lt_mul_of_pos_left hs hc
    refine ⟨fun hx hy => (trade D (fun z => A z + c * (s v * E z)) hcs hcs' (fun z => ?_) fun z => ?_).1, fun hx hy => (trade E (fun z => A z + c * (s v * D z)) hcs hcs' (fun z => ?_) fun z => ?_).1⟩
    · have := hx z; rw [hf, hf] at this; linarith
    · have := hy z; rw [hf, hf] at this; linarith
    · have := hx z; rw [hf, hf] at this; linarith
    · have := hy z; rw [hf, hf] at this; linarith
  have hsq := pow_lt_pow_left₀ h h0 two_ne_zero
  refine ⟨fun F x y => ?_, fun F x y => ?_⟩
  · have a := key (fun z => sumSq ((withWeights F m 0 0).alglibPoints z)) (fun z : Fin 3 → ℝ => (z 0 - F.guess 0) ^ 2 + (z 1 - F.guess 1) ^ 2) (fun z => F.dif (z 2) (F.guess 2) ^ 2)
      (fun t r z => sumSq ((withWeights F m t r).alglib2 z)) (· ^ 2) 1 one_pos hsq (sq_nonneg w) (fun t r z => by
        unfold Functor.alglib2
        rw [sumSq_append, alglibPoints_weights F m t r 0 0]
        simp only [sumSq, withWeights, List.map_cons, List.map_nil, List.sum_cons, List.sum_nil, mul_pow, sq_abs]
        ring) x y
    have b := key (fun z => 1 / 2 * (F.points.foldl (fun fi p => fi + 1 / 2 * m * (pointCost F.tiny (F.sample (F.act z p)) / (F.points.length : ℝ) * (pointCost F.tiny (F.sample (F.act z p)) / (F.points.length : ℝ)))) 0))
      (fun z : Fin 3 → ℝ => (z 0 - F.guess 0) ^ 2 + (z 1 - F.guess 1) ^ 2) (fun z => F.dif (z 2) (F.guess 2) ^ 2) (fun t r z => (withWeights F m t r).nloptOcc2 z) id (1 / 2) (by norm_num) h h0 (fun t r z => by
        unfold Functor.nloptOcc2 Functor.rot2
        simp only [withWeights, id]
        ring) x y
    exact ⟨a.1, a.2, b.1, b.2⟩
  · exact key (fun z => sumSq ((withWeights F m 0 0).alglibPoints z)) (fun z : Fin 6 → ℝ => (z 0 - F.guess 0) ^ 2 + (z 1 - F.guess 1) ^ 2 + (z 2 - F.guess 2) ^ 2)
      (fun z => F.dif (z 3) (F.guess 3) ^ 2 + F.dif (z 4) (F.guess 4) ^ 2 + F.dif (z 5) (F.guess 5) ^ 2)
      (fun t r z => sumSq ((withWeights F m t r).alglibRPY z)) (· ^ 2) 1 one_pos hsq (sq_nonneg w) (fun t r z => by
        unfold Functor.alglibRPY
        rw [sumSq_append, alglibPoints_weights F m t r 0 0]
        simp only [sumSq, withWeights, List.map_cons, List.map_nil, List.sum_cons, List.sum_nil, mul_pow, sq_abs]
        ring) x y

/-- **C133** (ceres with quaternions, between unit quaternions). The same; the rotation weight has no effect at all (C46). -/
theorem C133_ceres_quaternion (c m m' t r : ℝ) (prior : Fin 3 → ℝ) (priorR : Quat) (onlyYaw numeric : Bool) (S : ScanTerm 3) (v : (Fin 3 → ℝ) → ℝ) (hc : 0 < c) (h0 : 0 ≤ m) (h : m < m') (hn : quatNormSq priorR = 1)
    (hv : ∀ q, S.evaluateDouble q = .fin (v q) ∧ S.evaluateJet q = .fin (v q)) :
    ∃ f : ℝ → ℝ → ℝ → (Fin 3 → ℝ) × {q : Quat // quatNormSq q = 1} → ℝ, (∀ m t r x, (problem3dQuaternion t r m prior priorR onlyYaw numeric S).cost x.1 x.2 = .fin (f m t r x)) ∧
      SameOrder (f m t r) (f (c * m) (c * t) (c * r)) ∧ (∀ r', SameOrder (f m t r) (f m t r')) ∧
      ∀ x y, Minimal (f m t r) x → Minimal (f m' t r) y →
        mean (S.points.map fun p => v (moved3 y.1 y.2 p) ^ 2) ≤ mean (S.points.map fun p => v (moved3 x.1 x.2 p) ^ 2) ∧ t ^ 2 * distSq x.1 prior ≤ t ^ 2 * distSq y.1 prior := by
  refine ⟨_, fun m t r x => C75_cost_quaternion_partial t r m prior priorR onlyYaw numeric S x.1 x.2 (fun p => v (moved3 x.1 x.2 p)) hn x.2.2 fun _ p _ => hv _,
    sameOrder_of (show 0 < c ^ 2 by positivity) fun x => by ring, fun r' x y => ⟨fun hh => by linarith, fun hh => by linarith⟩, fun x y hx hy => ?_⟩
  exact trade (fun x : (Fin 3 → ℝ) × {q : Quat // quatNormSq q = 1} => mean (S.points.map fun p => v (moved3 x.1 x.2 p) ^ 2)) (fun x => t ^ 2 * distSq x.1 prior) (sq_nonneg m) (pow_lt_pow_left₀ h h0 two_ne_zero)
    (fun z => by have := hx z; linarith) fun z => by have := hy z; linarith

/-! ### The score that alglib reports -/

/-- scores of a map: 1 at the origin, 1/10 around it, and 1/2 from x = 5 on -/
noncomputable def unevenMap (q : Fin 2 → ℝ) : ℝ := if q 0 < 5 then (if q 0 = 0 ∧ q 1 = 0 then 1 else 1 / 10) else 1 / 2

/-- a scan of two points in that map -/
noncomputable def unevenScan : Functor 3 2 where
  points := [![0, 0], ![0, 1]]
  sample := fun q => .fin (unevenMap q)
  act := fun x p => moved2 ![x 0, x 1] (x 2) p
  dif := angleDifference
  guess := 0
  transW := 1
  rotW := 1
  mapW := 1
  tiny := 1 / 1024

theorem unevenMap_pair (a b : ℝ) : unevenMap ![a, b] = if a < 5 then (if a = 0 ∧ b = 0 then 1 else 1 / 10) else 1 / 2 := rfl

theorem unevenMap_mem (q : Fin 2 → ℝ) : 1 / 10 ≤ unevenMap q ∧ unevenMap q ≤ 1 := by
  unfold unevenMap
  split
  · split <;> norm_num
  · norm_num

theorem uneven_score (q : Fin 2 → ℝ) : properScore 1024⁻¹ (.fin (unevenMap q)) = unevenMap q := by
  have h := unevenMap_mem q
  unfold properScore
  simp only
  rw [abs_of_nonneg (by linarith), if_pos (by norm_num at h ⊢; linarith)]

theorem uneven_cost (m : ℝ) (x : Fin 3 → ℝ) : sumSq ((withWeights unevenScan m 1 1).alglib2 x) =
    m ^ 2 / 4 * ((1 - unevenMap ![x 0, x 1]) ^ 2 + (1 - unevenMap ![-sin (x 2) + x 0, cos (x 2) + x 1]) ^ 2) + x 0 ^ 2 + x 1 ^ 2 + angleDifference (x 2) 0 ^ 2 := by
  simp [sumSq, Functor.alglib2, Functor.alglibPoints, withWeights, unevenScan, moved2, pointCost_eq, uneven_score]
  ring

theorem uneven_mean (x : Fin 3 → ℝ) : mean (unevenScan.points.map fun p => properScore unevenScan.tiny (unevenScan.sample (unevenScan.act x p))) =
    (unevenMap ![x 0, x 1] + unevenMap ![-sin (x 2) + x 0, cos (x 2) + x 1]) / 2 := by
  simp [mean, unevenScan, moved2, uneven_score]

/-- left of x = 5, one of the points gets the score 1/10, and the other one at most 1 -/
theorem uneven_left (x : Fin 3 → ℝ) (h : x 0 < 5) : 81 / 100 ≤ (1 - unevenMap ![x 0, x 1]) ^ 2 + (1 - unevenMap ![-sin (x 2) + x 0, cos (x 2) + x 1]) ^ 2 := by
  by_cases h0 : x 0 = 0 ∧ x 1 = 0
  · have e : unevenMap ![-sin (x 2) + x 0, cos (x 2) + x 1] = 1 / 10 := by
      rw [unevenMap_pair, h0.1, h0.2, add_zero, add_zero]
      rw [if_pos (by linarith [neg_one_le_sin (x 2)]), if_neg fun hh => ?_]
      have := sin_sq_add_cos_sq (x 2)
      rw [neg_eq_zero.1 hh.1, hh.2] at this
      norm_num at this
    rw [e]
    nlinarith [sq_nonneg (1 - unevenMap ![x 0, x 1])]
  · have e : unevenMap ![x 0, x 1] = 1 / 10 := by
      rw [unevenMap_pair, if_pos h, if_neg h0]
    rw [e]
    nlinarith [sq_nonneg (1 - unevenMap ![-sin (x 2) + x 0, cos (x 2) + x 1])]

/-- **C133** is false of the score that alglib reports, since alglib minimises the squared losses but reports the mean score: there is a map and a scan such that the only change from the map weight 1 to the map weight 20 makes the score of the best
pose fall from 0.55 to 0.5. -/
theorem C133_alglib_score_refuted :
    ∃ (F : Functor 3 2) (x y : Fin 3 → ℝ), (∀ x p, F.act x p = moved2 ![x 0, x 1] (x 2) p) ∧ (∀ q, ∃ s, F.sample q = .fin s ∧ 0 ≤ s ∧ s ≤ 1) ∧
      Minimal (fun z => sumSq ((withWeights F 1 1 1).alglib2 z)) x ∧ Minimal (fun z => sumSq ((withWeights F 20 1 1).alglib2 z)) y ∧
      (withWeights F 1 1 1).alglibScore ((withWeights F 1 1 1).alglib2 x) = 11 / 20 ∧ (withWeights F 20 1 1).alglibScore ((withWeights F 20 1 1).alglib2 y) = 1 / 2 := by
  have hz : angleDifference 0 0 = 0 := (angleDif_model 0 0).2 (sameAngle_refl 0)
  have a : unevenMap ![0, 0] = 1 := by norm_num [unevenMap]
  have b : unevenMap ![0, 1] = 1 / 10 := by norm_num [unevenMap]
  have c : unevenMap ![5, 0] = 1 / 2 := by norm_num [unevenMap]
  have d : unevenMap ![5, 1] = 1 / 2 := by norm_num [unevenMap]
  obtain ⟨s1, _⟩ := C48_alglib
  refine ⟨unevenScan, 0, ![5, 0, 0], fun _ _ => rfl, fun q => ⟨_, rfl, by linarith [(unevenMap_mem q).1], (unevenMap_mem q).2⟩, fun z => ?_, fun z => ?_, ?_, ?_⟩
  · simp only [uneven_cost]
    have e : (1 : ℝ) ^ 2 / 4 * ((1 - unevenMap ![(0 : Fin 3 → ℝ) 0, (0 : Fin 3 → ℝ) 1]) ^ 2 + (1 - unevenMap ![-sin ((0 : Fin 3 → ℝ) 2) + (0 : Fin 3 → ℝ) 0, cos ((0 : Fin 3 → ℝ) 2) + (0 : Fin 3 → ℝ) 1]) ^ 2) +
        (0 : Fin 3 → ℝ) 0 ^ 2 + (0 : Fin 3 → ℝ) 1 ^ 2 + angleDifference ((0 : Fin 3 → ℝ) 2) 0 ^ 2 = 81 / 400 := by
      simp [a, b, hz]; norm_num
    rw [e]
    have h1 := sq_nonneg (z 1)
    have h2 := sq_nonneg (angleDifference (z 2) 0)
    by_cases h : z 0 < 5
    · have := uneven_left z h
      nlinarith [sq_nonneg (z 0)]
    · nlinarith [not_lt.1 h, sq_nonneg (1 - unevenMap ![z 0, z 1]), sq_nonneg (1 - unevenMap ![-sin (z 2) + z 0, cos (z 2) + z 1])]
  · simp only [uneven_cost]
    have e : (20 : ℝ) ^ 2 / 4 * ((1 - unevenMap ![(![5, 0, 0] : Fin 3 → ℝ) 0, (![5, 0, 0] : Fin 3 → ℝ) 1]) ^ 2 +
        (1 - unevenMap ![-sin ((![5, 0, 0] : Fin 3 → ℝ) 2) + (![5, 0, 0] : Fin 3 → ℝ) 0, cos ((![5, 0, 0] : Fin 3 → ℝ) 2) + (![5, 0, 0] : Fin 3 → ℝ) 1]) ^ 2) +
        (![5, 0, 0] : Fin 3 → ℝ) 0 ^ 2 + (![5, 0, 0] : Fin 3 → ℝ) 1 ^ 2 + angleDifference ((![5, 0, 0] : Fin 3 → ℝ) 2) 0 ^ 2 = 75 := by
      simp [c, d, hz]; norm_num
    rw [e]
    have h1 := sq_nonneg (z 1)
    have h2 := sq_nonneg (angleDifference (z 2) 0)
    by_cases h : z 0 < 5
    · have := uneven_left z h
      nlinarith [sq_nonneg (z 0)]
    · have e1 : unevenMap ![z 0, z 1] = 1 / 2 := by
        rw [unevenMap_pair, if_neg h]
      rw [e1]
      by_cases h' : -sin (z 2) + z 0 < 5
      · have e2 : (81 : ℝ) / 100 ≤ (1 - unevenMap ![-sin (z 2) + z 0, cos (z 2) + z 1]) ^ 2 := by
          rw [unevenMap_pair, if_pos h', if_neg fun hh => by linarith [hh.1, sin_le_one (z 2), not_lt.1 h]]
          norm_num
        nlinarith [not_lt.1 h]
      · have e2 : unevenMap ![-sin (z 2) + z 0, cos (z 2) + z 1] = 1 / 2 := by
          rw [unevenMap_pair, if_neg h']
        rw [e2]
        nlinarith [not_lt.1 h]
  · rw [s1 (withWeights unevenScan 1 1 1) 0 one_ne_zero (by simp [withWeights, unevenScan])]
    refine (uneven_mean 0).trans ?_
    simp [a, b]; norm_num
  · rw [s1 (withWeights unevenScan 20 1 1) _ (by norm_num [withWeights]) (by simp [withWeights, unevenScan])]
    refine (uneven_mean _).trans ?_
    simp [c, d]

/-- The hypotheses of the theorems on the map weight can be met, and the best pose can change: a map with evidence from x = 1 on, and a scan of one point. With the map weight 1/2 the initial guess is best, with the map weight 2 a pose at distance 1. -/
example : ∃ (F : Functor 3 2) (x y : Fin 3 → ℝ), F.points ≠ [] ∧ (∀ x p, F.act x p = moved2 ![x 0, x 1] (x 2) p) ∧ Minimal (withWeights F (1 / 2) 1 1).nlopt2 x ∧ Minimal (withWeights F 2 1 1).nlopt2 y ∧ F.trans2 x < F.trans2 y := by
  have hz : angleDifference 0 0 = 0 := (angleDif_model 0 0).2 (sameAngle_refl 0)
  let F : Functor 3 2 := { unevenScan with points := [0], sample := fun q => if q 0 < 1 then .fin 0 else .fin 1 }
  have hc : ∀ m x, (withWeights F m 1 1).nlopt2 x = m * (if x 0 < 1 then 1 else 0) + √(x 0 ^ 2 + x 1 ^ 2) + |angleDifference (x 2) 0| := fun m x => by
    have e : pointCost (1 / 1024) (if x 0 < 1 then .fin 0 else .fin 1) = if x 0 < 1 then 1 else 0 := by
      split <;> norm_num [pointCost, Fl.isNormal, value]
    simp [Functor.nlopt2, Functor.weighted, Functor.sumCost, Functor.trans2, Functor.rot2, hypot2, withWeights, F, unevenScan, moved2, ← sq] at e ⊢
    rw [e]
    split <;> simp
  have hdist : ∀ x : Fin 3 → ℝ, x 0 ≤ √(x 0 ^ 2 + x 1 ^ 2) := fun x => Real.le_sqrt_of_sq_le (by linarith [sq_nonneg (x 1)])
  refine ⟨F, 0, ![1, 0, 0], by simp [F], fun _ _ => rfl, fun z => ?_, fun z => ?_, ?_⟩
  · rw [hc, hc]
    have h1 := Real.sqrt_nonneg (z 0 ^ 2 + z 1 ^ 2)
    have h2 := abs_nonneg (angleDifference (z 2) 0)
    have h3 := hdist z
    have e : (1 : ℝ) / 2 * (if (0 : Fin 3 → ℝ) 0 < 1 then 1 else 0) + √((0 : Fin 3 → ℝ) 0 ^ 2 + (0 : Fin 3 → ℝ) 1 ^ 2) + |angleDifference ((0 : Fin 3 → ℝ) 2) 0| = 1 / 2 := by simp [hz]
    rw [e]
    split
    · linarith
    · linarith
  · rw [hc, hc]
    have h1 := Real.sqrt_nonneg (z 0 ^ 2 + z 1 ^ 2)
    have h2 := abs_nonneg (angleDifference (z 2) 0)
    have h3 := hdist z
    have e : (2 : ℝ) * (if (![1, 0, 0] : Fin 3 → ℝ) 0 < 1 then 1 else 0) + √((![1, 0, 0] : Fin 3 → ℝ) 0 ^ 2 + (![1, 0, 0] : Fin 3 → ℝ) 1 ^ 2) + |angleDifference ((![1, 0, 0] : Fin 3 → ℝ) 2) 0| = 1 := by simp [hz]
    rw [e]
    split
    · linarith
    · linarith
  · simp [Functor.trans2, hypot2, F, unevenScan]

/-- the same for ceres: with the map weight 1/2 the prior pose is best, with the map weight 2 a pose at distance 1 -/
example (numeric : Bool) : ∃ (S : ScanTerm 2) (v : (Fin 2 → ℝ) → ℝ) (f : ℝ → (Fin 2 → ℝ) × (Fin 1 → ℝ) → ℝ), (∀ q, S.evaluateDouble q = .fin (v q) ∧ S.evaluateJet q = .fin (v q)) ∧
    (∀ m x, (problem2d 1 1 m 0 0 numeric S).cost x.1 x.2 = .fin (f m x)) ∧ Minimal (f (1 / 2)) (0, 0) ∧ Minimal (f 2) (![1, 0], 0) := by
  have hz : angleDifference 0 0 = 0 := (angleDif_model 0 0).2 (sameAngle_refl 0)
  refine ⟨⟨[0], fun q => .fin (if q 0 < 1 then 1 else 0), fun q => .fin (if q 0 < 1 then 1 else 0)⟩, fun q => if q 0 < 1 then 1 else 0,
    fun m x => 1 / 2 * (m ^ 2 * (if x.1 0 < 1 then 1 else 0) + (x.1 0 ^ 2 + x.1 1 ^ 2) + angleDifference 0 (x.2 0) ^ 2), fun q => ⟨rfl, rfl⟩, fun m x => ?_, fun z => ?_, fun z => ?_⟩
  · obtain ⟨e, a, b, f⟩ := C75_cost_2d 1 1 m 0 0 numeric ⟨[0], fun q => .fin (if q 0 < 1 then 1 else 0), fun q => .fin (if q 0 < 1 then 1 else 0)⟩ x.1 x.2 (fun p => if (moved2 x.1 (x.2 0) p) 0 < 1 then 1 else 0) fun _ p _ => ⟨rfl, rfl⟩
    rw [f, sq_eq_of_sameAngle a (C44_angle_difference 0 (x.2 0)).2.1 (b.trans (C44_angle_difference 0 (x.2 0)).1.symm)]
    have e1 : mean ([(0 : Fin 2 → ℝ)].map fun p => (if (moved2 x.1 (x.2 0) p) 0 < 1 then (1 : ℝ) else 0) ^ 2) = if x.1 0 < 1 then 1 else 0 := by
      simp [mean, moved2]
    have e2 : distSq x.1 0 = x.1 0 ^ 2 + x.1 1 ^ 2 := by simp [distSq, Fin.sum_univ_two]
    rw [e1, e2]
    congr 1
    ring
  · have h2 := sq_nonneg (angleDifference 0 (z.2 0))
    have h3 := sq_nonneg (z.1 1)
    simp only [Pi.zero_apply, hz]
    split <;> split <;> nlinarith [sq_nonneg (z.1 0)]
  · have h2 := sq_nonneg (angleDifference 0 (z.2 0))
    have h3 := sq_nonneg (z.1 1)
    have e : (1 : ℝ) / 2 * ((2 : ℝ) ^ 2 * (if (![1, 0] : Fin 2 → ℝ) 0 < 1 then 1 else 0) + ((![1, 0] : Fin 2 → ℝ) 0 ^ 2 + (![1, 0] : Fin 2 → ℝ) 1 ^ 2) + angleDifference 0 ((0 : Fin 1 → ℝ) 0) ^ 2) = 1 / 2 := by simp [hz]
    refine e.le.trans ?_
    simp only
    split <;> nlinarith [sq_nonneg (z.1 0)]

end Ndt
