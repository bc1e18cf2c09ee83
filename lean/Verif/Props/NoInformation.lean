import Verif.Props.Outliers
import Verif.Props.Support
import Verif.Props.Evidence

/-! Property theorem C129: where the map knows nothing, matching keeps the initial guess. -/

namespace Ndt

open Real Matching Spec

/-- no point of the scan gets a score at the pose `x`: the map returns 0, a subnormal number, NaN or infinity -/
def Spec.NoScore {n d : Nat} (F : Functor n d) (x : Fin n → ℝ) : Prop := ∀ p ∈ F.points, Fl.isNormal F.tiny (F.sample (F.act x p)) = false

/-- a cost that is a map term, which is constant in a region that contains everything not worse than `g`, plus a prior that is 0 at `g`: nothing is better than `g`, and what is as good has no prior -/
theorem best_of_constant {X : Type} (cost mapT prior : X → ℝ) (g : X) (K : ℝ) (R : X → Prop) (hc : ∀ x, cost x = mapT x + prior x) (h0 : ∀ x, 0 ≤ prior x) (hg : prior g = 0) (hR : ∀ x, cost x ≤ cost g → R x)
    (hm : ∀ x, R x → mapT x = K) : (∀ x, cost g ≤ cost x) ∧ ∀ x, cost x ≤ cost g → prior x = 0 := by
  have eg : cost g = K := by rw [hc, hg, hm g (hR g le_rfl), add_zero]
  have key : ∀ x, cost x ≤ cost g → cost x = K + prior x := fun x h => by rw [hc, hm x (hR x h)]
  refine ⟨fun x => ?_, fun x h => ?_⟩
  · by_contra hlt
    have h := key x (not_le.1 hlt).le
    have := h0 x
    linarith [not_le.1 hlt]
  · have h1 := key x h
    have := h0 x
    linarith

theorem noScore_sum {n d : Nat} (F : Functor n d) (x : Fin n → ℝ) (h : NoScore F x) : F.sumCost (pointCost F.tiny) x = F.points.length ∧ F.sumCost (pointCostSkip F.tiny) x = 0 := by
  unfold Functor.sumCost
  rw [foldl_add_eq, foldl_add_eq, zero_add, zero_add]
  constructor
  · rw [List.map_congr_left (g := fun _ => (1 : ℝ)) fun p hp => by unfold pointCost; rw [h p hp]; rfl]
    simp
  · rw [List.map_congr_left (g := fun _ => (0 : ℝ)) fun p hp => by unfold pointCostSkip; rw [h p hp]; rfl]
    simp

theorem zero_sq2 {a b s t : ℝ} (ha : 0 < a) (hb : 0 < b) (hs : 0 ≤ s) (ht : 0 ≤ t) (h : a * s + b * t = 0) : s = 0 ∧ t = 0 := by
  have h1 := mul_nonneg ha.le hs
  have h2 := mul_nonneg hb.le ht
  exact ⟨(mul_eq_zero.1 (by linarith : a * s = 0)).resolve_left ha.ne', (mul_eq_zero.1 (by linarith : b * t = 0)).resolve_left hb.ne'⟩

theorem pow_pos_of_ne {a : ℝ} (h : a ≠ 0) : 0 < a ^ 2 := by positivity

/-- **C129** (nlopt). If no point of the scan gets a score at any pose within the limits that the weights give (C124), then no pose is better than the initial guess, and a pose that is as good has the same translation and the same angles: on 2D NDT maps, and on
3D NDT and occupancy maps with Euler angles. -/
theorem C129_nlopt :
    (∀ F : Functor 3 2, AngleDif F.dif → UnitScores F → 0 ≤ F.mapW → F.points ≠ [] → 0 < F.transW → 0 < F.rotW →
      (∀ y : Fin 3 → ℝ, F.transW * √((y 0 - F.guess 0) ^ 2 + (y 1 - F.guess 1) ^ 2) + F.rotW * |F.dif (y 2) (F.guess 2)| ≤ F.mapW → NoScore F y) →
      (∀ x, F.nlopt2 F.guess ≤ F.nlopt2 x) ∧ ∀ x, F.nlopt2 x ≤ F.nlopt2 F.guess → x 0 = F.guess 0 ∧ x 1 = F.guess 1 ∧ SameAngle (x 2) (F.guess 2)) ∧
    (∀ F : Functor 6 3, AngleDif F.dif → UnitScores F → 0 ≤ F.mapW → F.points ≠ [] → 0 < F.transW → 0 < F.rotW →
      (∀ y : Fin 6 → ℝ, F.transW * √((y 0 - F.guess 0) ^ 2 + (y 1 - F.guess 1) ^ 2 + (y 2 - F.guess 2) ^ 2) +
        F.rotW * √(F.dif (y 3) (F.guess 3) ^ 2 + F.dif (y 4) (F.guess 4) ^ 2 + F.dif (y 5) (F.guess 5) ^ 2) ≤ F.mapW → NoScore F y) →
      ((∀ x, F.nloptRPY F.guess ≤ F.nloptRPY x) ∧ ∀ x, F.nloptRPY x ≤ F.nloptRPY F.guess →
        x 0 = F.guess 0 ∧ x 1 = F.guess 1 ∧ x 2 = F.guess 2 ∧ SameAngle (x 3) (F.guess 3) ∧ SameAngle (x 4) (F.guess 4) ∧ SameAngle (x 5) (F.guess 5)) ∧
      ((∀ x, F.nloptOccRPY F.guess ≤ F.nloptOccRPY x) ∧ ∀ x, F.nloptOccRPY x ≤ F.nloptOccRPY F.guess →
        x 0 = F.guess 0 ∧ x 1 = F.guess 1 ∧ x 2 = F.guess 2 ∧ SameAngle (x 3) (F.guess 3) ∧ SameAngle (x 4) (F.guess 4) ∧ SameAngle (x 5) (F.guess 5))) := by
  obtain ⟨c2, c3⟩ := C124_nlopt
  constructor
  · intro F hd hu hm hp ht hr hy
    have hz : ∀ x, F.trans2 x = 0 ↔ x 0 = F.guess 0 ∧ x 1 = F.guess 1 := fun x => by
      unfold Functor.trans2; rw [hypot2_eq_zero, sub_eq_zero, sub_eq_zero]
    have hz' : ∀ x, F.rot2 x = 0 ↔ SameAngle (x 2) (F.guess 2) := fun x => hd _ _
    obtain ⟨h1, h2⟩ := best_of_constant F.nlopt2 (fun x => F.mapW * F.sumCost (pointCost F.tiny) x / (F.points.length : ℝ)) (fun x => F.transW * F.trans2 x + F.rotW * |F.rot2 x|) F.guess
      (F.mapW * F.points.length / (F.points.length : ℝ)) (NoScore F) (fun x => by show F.weighted _ _ _ = _; unfold Functor.weighted; ring)
      (fun x => add_nonneg (mul_nonneg ht.le (sqrt_nonneg _)) (mul_nonneg hr.le (abs_nonneg _)))
      (by rw [(hz _).2 ⟨rfl, rfl⟩, (hz' _).2 (sameAngle_refl _)]; simp)
      (fun x h => hy x (c2 F x hd hu hm hp h)) (fun x h => by rw [(noScore_sum F x h).1])
    refine ⟨h1, fun x h => ?_⟩
    obtain ⟨e1, e2⟩ := zero_sq2 ht hr (show 0 ≤ F.trans2 x from sqrt_nonneg _) (abs_nonneg (F.rot2 x)) (h2 x h)
    exact ⟨((hz x).1 e1).1, ((hz x).1 e1).2, (hz' x).1 (abs_eq_zero.1 e2)⟩
  · intro F hd hu hm hp ht hr hy
    have hz : ∀ x, F.trans3 x = 0 ↔ x 0 = F.guess 0 ∧ x 1 = F.guess 1 ∧ x 2 = F.guess 2 := fun x => by
      unfold Functor.trans3; rw [hypot3_eq_zero, sub_eq_zero, sub_eq_zero, sub_eq_zero]
    have hz' : ∀ x, F.rotRPY x = 0 ↔ SameAngle (x 3) (F.guess 3) ∧ SameAngle (x 4) (F.guess 4) ∧ SameAngle (x 5) (F.guess 5) := fun x => by
      unfold Functor.rotRPY; rw [hypot3_eq_zero, hd, hd, hd]
    have key : ∀ (cost : Fl ℝ → ℝ) (s : ℝ), (∀ x, NoScore F x → F.sumCost cost x = s) →
        (∀ x, F.weighted (F.sumCost cost x) (F.trans3 x) (F.rotRPY x) ≤ F.weighted (F.sumCost cost F.guess) (F.trans3 F.guess) (F.rotRPY F.guess) → NoScore F x) →
        (∀ x, F.weighted (F.sumCost cost F.guess) (F.trans3 F.guess) (F.rotRPY F.guess) ≤ F.weighted (F.sumCost cost x) (F.trans3 x) (F.rotRPY x)) ∧
        ∀ x, F.weighted (F.sumCost cost x) (F.trans3 x) (F.rotRPY x) ≤ F.weighted (F.sumCost cost F.guess) (F.trans3 F.guess) (F.rotRPY F.guess) →
          x 0 = F.guess 0 ∧ x 1 = F.guess 1 ∧ x 2 = F.guess 2 ∧ SameAngle (x 3) (F.guess 3) ∧ SameAngle (x 4) (F.guess 4) ∧ SameAngle (x 5) (F.guess 5) := by
      intro cost s hs hR
      obtain ⟨h1, h2⟩ := best_of_constant (fun x => F.weighted (F.sumCost cost x) (F.trans3 x) (F.rotRPY x)) (fun x => F.mapW * F.sumCost cost x / (F.points.length : ℝ)) (fun x => F.transW * F.trans3 x + F.rotW * |F.rotRPY x|) F.guess
        (F.mapW * s / (F.points.length : ℝ)) (NoScore F) (fun x => by simp only [Functor.weighted]; ring)
        (fun x => add_nonneg (mul_nonneg ht.le (sqrt_nonneg _)) (mul_nonneg hr.le (abs_nonneg _)))
        (by rw [(hz _).2 ⟨rfl, rfl, rfl⟩, (hz' _).2 ⟨sameAngle_refl _, sameAngle_refl _, sameAngle_refl _⟩]; simp)
        hR (fun x h => by rw [hs x h])
      refine ⟨h1, fun x h => ?_⟩
      obtain ⟨e1, e2⟩ := zero_sq2 ht hr (show 0 ≤ F.trans3 x from sqrt_nonneg _) (abs_nonneg (F.rotRPY x)) (h2 x h)
      obtain ⟨a, b, c⟩ := (hz x).1 e1
      exact ⟨a, b, c, (hz' x).1 (abs_eq_zero.1 e2)⟩
    exact ⟨key _ _ (fun x h => (noScore_sum F x h).1) fun x h => hy x (c3 F x hd hu hm hp (.inl h)), key _ _ (fun x h => (noScore_sum F x h).2) fun x h => hy x (c3 F x hd hu hm hp (.inr h))⟩

/-- **C129** (nlopt on 2D occupancy maps). -/
theorem C129_occupancy2 (F : Functor 3 2) (hd : AngleDif F.dif) (hu : UnitScores F) (hm : 0 ≤ F.mapW) (hp : F.points ≠ []) (ht : 0 < F.transW) (hr : 0 < F.rotW)
    (hy : ∀ y : Fin 3 → ℝ, F.transW * ((y 0 - F.guess 0) ^ 2 + (y 1 - F.guess 1) ^ 2) + F.rotW * F.dif (y 2) (F.guess 2) ^ 2 ≤ F.mapW / (2 * (F.points.length : ℝ)) → NoScore F y) :
    (∀ x, F.nloptOcc2 F.guess ≤ F.nloptOcc2 x) ∧ ∀ x, F.nloptOcc2 x ≤ F.nloptOcc2 F.guess → x 0 = F.guess 0 ∧ x 1 = F.guess 1 ∧ SameAngle (x 2) (F.guess 2) := by
  obtain ⟨_, w, _⟩ := C65_weights
  obtain ⟨h1, h2⟩ := best_of_constant F.nloptOcc2 (fun x => ({ F with transW := 0, rotW := 0 } : Functor 3 2).nloptOcc2 x)
    (fun x => 1 / 2 * (F.transW * ((x 0 - F.guess 0) ^ 2 + (x 1 - F.guess 1) ^ 2) + F.rotW * F.dif (x 2) (F.guess 2) ^ 2)) F.guess
    (1 / 2 * (0 + (F.points.map fun _ => 1 / 2 * F.mapW * (1 / (F.points.length : ℝ) * (1 / (F.points.length : ℝ)))).sum)) (NoScore F) (w F)
    (fun x => by positivity) (by rw [(hd _ _).2 (sameAngle_refl _)]; simp) (fun x h => hy x (C124_nlopt_occupancy2 F x hd hu hm hp h)) (fun x h => by
      unfold Functor.nloptOcc2
      simp only [zero_mul, add_zero]
      rw [foldl_add_eq, List.map_congr_left fun p hp => by
        show _ = 1 / 2 * F.mapW * (1 / (F.points.length : ℝ) * (1 / (F.points.length : ℝ)))
        unfold pointCost
        rw [h p hp]
        rfl])
  refine ⟨h1, fun x h => ?_⟩
  have e := h2 x h
  obtain ⟨e1, e2⟩ := zero_sq2 ht hr (show 0 ≤ (x 0 - F.guess 0) ^ 2 + (x 1 - F.guess 1) ^ 2 by positivity) (sq_nonneg (F.dif (x 2) (F.guess 2))) (by linarith)
  exact ⟨by nlinarith [sq_nonneg (x 0 - F.guess 0), sq_nonneg (x 1 - F.guess 1)], by nlinarith [sq_nonneg (x 0 - F.guess 0), sq_nonneg (x 1 - F.guess 1)], (hd _ _).1 (pow_eq_zero_iff two_ne_zero |>.1 e2)⟩

theorem noScore_residuals {n d : Nat} (F : Functor n d) (x : Fin n → ℝ) (h : NoScore F x) : F.alglibPoints x = F.points.map fun _ => F.mapW * 1 / (F.points.length : ℝ) :=
  List.map_congr_left fun p hp => by unfold pointCost; rw [h p hp]; rfl

/-- **C129** (alglib). The same in 2D and in 3D with Euler angles. -/
theorem C129_alglib :
    (∀ F : Functor 3 2, AngleDif F.dif → UnitScores F → F.points ≠ [] → F.transW ≠ 0 → F.rotW ≠ 0 →
      (∀ y : Fin 3 → ℝ, F.transW ^ 2 * ((y 0 - F.guess 0) ^ 2 + (y 1 - F.guess 1) ^ 2) + F.rotW ^ 2 * F.dif (y 2) (F.guess 2) ^ 2 ≤ F.mapW ^ 2 / (F.points.length : ℝ) → NoScore F y) →
      (∀ x, sumSq (F.alglib2 F.guess) ≤ sumSq (F.alglib2 x)) ∧ ∀ x, sumSq (F.alglib2 x) ≤ sumSq (F.alglib2 F.guess) → x 0 = F.guess 0 ∧ x 1 = F.guess 1 ∧ SameAngle (x 2) (F.guess 2)) ∧
    (∀ F : Functor 6 3, AngleDif F.dif → UnitScores F → F.points ≠ [] → F.transW ≠ 0 → F.rotW ≠ 0 →
      (∀ y : Fin 6 → ℝ, F.transW ^ 2 * ((y 0 - F.guess 0) ^ 2 + (y 1 - F.guess 1) ^ 2 + (y 2 - F.guess 2) ^ 2) +
        F.rotW ^ 2 * (F.dif (y 3) (F.guess 3) ^ 2 + F.dif (y 4) (F.guess 4) ^ 2 + F.dif (y 5) (F.guess 5) ^ 2) ≤ F.mapW ^ 2 / (F.points.length : ℝ) → NoScore F y) →
      (∀ x, sumSq (F.alglibRPY F.guess) ≤ sumSq (F.alglibRPY x)) ∧ ∀ x, sumSq (F.alglibRPY x) ≤ sumSq (F.alglibRPY F.guess) →
        x 0 = F.guess 0 ∧ x 1 = F.guess 1 ∧ x 2 = F.guess 2 ∧ SameAngle (x 3) (F.guess 3) ∧ SameAngle (x 4) (F.guess 4) ∧ SameAngle (x 5) (F.guess 5)) := by
  have hdrop : ∀ {n d : Nat} (F : Functor n d) (x : Fin n → ℝ) (rest : List ℝ), (F.alglibPoints x ++ rest).drop F.points.length = rest := by
    intro n d F x rest
    have hl : F.points.length = (F.alglibPoints x).length := (List.length_map _).symm
    rw [hl, List.drop_left]
  obtain ⟨c2, c3, _⟩ := C124_alglib
  obtain ⟨_, _, _, _, w2, w3⟩ := C65_weights
  have sq0 : ∀ {a b : ℝ}, a ^ 2 + b ^ 2 = 0 → a = 0 ∧ b = 0 := fun {a b} h => ⟨by nlinarith [sq_nonneg a, sq_nonneg b], by nlinarith [sq_nonneg a, sq_nonneg b]⟩
  have sq3 : ∀ {a b c : ℝ}, a ^ 2 + b ^ 2 + c ^ 2 = 0 → a = 0 ∧ b = 0 ∧ c = 0 := fun {a b c} h =>
    ⟨by nlinarith [sq_nonneg a, sq_nonneg b, sq_nonneg c], by nlinarith [sq_nonneg a, sq_nonneg b, sq_nonneg c], by nlinarith [sq_nonneg a, sq_nonneg b, sq_nonneg c]⟩
  constructor
  · intro F hd hu hp ht hr hy
    obtain ⟨h1, h2⟩ := best_of_constant (fun x => sumSq (F.alglib2 x)) (fun x => sumSq (F.alglibPoints x)) (fun x => F.transW ^ 2 * ((x 0 - F.guess 0) ^ 2 + (x 1 - F.guess 1) ^ 2) + F.rotW ^ 2 * F.dif (x 2) (F.guess 2) ^ 2) F.guess
      (sumSq (F.points.map fun _ => F.mapW * 1 / (F.points.length : ℝ))) (NoScore F)
      (fun x => by
        have hx := w2 F x
        unfold Functor.alglib2 at hx ⊢
        rw [hdrop] at hx
        rw [sumSq_append, hx])
      (fun x => by positivity) (by rw [(hd _ _).2 (sameAngle_refl _)]; simp) (fun x h => hy x (c2 F x hd hu hp h)) (fun x h => by rw [noScore_residuals F x h])
    refine ⟨h1, fun x h => ?_⟩
    obtain ⟨e1, e2⟩ := zero_sq2 (pow_pos_of_ne ht) (pow_pos_of_ne hr) (by positivity) (sq_nonneg _) (h2 x h)
    exact ⟨sub_eq_zero.1 (sq0 e1).1, sub_eq_zero.1 (sq0 e1).2, (hd _ _).1 (pow_eq_zero_iff two_ne_zero |>.1 e2)⟩
  · intro F hd hu hp ht hr hy
    obtain ⟨h1, h2⟩ := best_of_constant (fun x => sumSq (F.alglibRPY x)) (fun x => sumSq (F.alglibPoints x)) (fun x => F.transW ^ 2 * ((x 0 - F.guess 0) ^ 2 + (x 1 - F.guess 1) ^ 2 + (x 2 - F.guess 2) ^ 2) +
        F.rotW ^ 2 * (F.dif (x 3) (F.guess 3) ^ 2 + F.dif (x 4) (F.guess 4) ^ 2 + F.dif (x 5) (F.guess 5) ^ 2)) F.guess
      (sumSq (F.points.map fun _ => F.mapW * 1 / (F.points.length : ℝ))) (NoScore F)
      (fun x => by
        have hx := w3 F x
        unfold Functor.alglibRPY at hx ⊢
        rw [hdrop] at hx
        rw [sumSq_append, hx])
      (fun x => by positivity) (by rw [(hd _ _).2 (sameAngle_refl (F.guess 3)), (hd _ _).2 (sameAngle_refl (F.guess 4)), (hd _ _).2 (sameAngle_refl (F.guess 5))]; simp)
      (fun x h => hy x (c3 F x hd hu hp h)) (fun x h => by rw [noScore_residuals F x h])
    refine ⟨h1, fun x h => ?_⟩
    obtain ⟨e1, e2⟩ := zero_sq2 (pow_pos_of_ne ht) (pow_pos_of_ne hr) (by positivity) (by positivity) (h2 x h)
    obtain ⟨a, b, c⟩ := sq3 e1
    obtain ⟨a', b', c'⟩ := sq3 e2
    exact ⟨sub_eq_zero.1 a, sub_eq_zero.1 b, sub_eq_zero.1 c, (hd _ _).1 a', (hd _ _).1 b', (hd _ _).1 c'⟩

/-- **C129** (ceres). If the value of the map is 1 (nothing there) for every point of the scan, at every pose within the limits that the weights give (C124), then no pose is better than the prior pose, and a pose that is as good has the same translation and the
same angles: in 2D and in 3D with Euler angles. -/
theorem C129_ceres :
    (∀ (tw rw' mw : ℝ) (prior : Fin 2 → ℝ) (priorR : ℝ) (numeric : Bool) (S : ScanTerm 2) (v : (Fin 2 → ℝ) → ℝ), tw ≠ 0 → rw' ≠ 0 → (∀ q, 0 ≤ v q ∧ v q ≤ 1 ∧ S.evaluateDouble q = .fin (v q) ∧ S.evaluateJet q = .fin (v q)) →
      (∀ (t : Fin 2 → ℝ) (a e : ℝ), SameAngle e (priorR - a) → |tw| * √(distSq t prior) ≤ |mw| → |rw'| * |e| ≤ |mw| → ∀ p ∈ S.points, v (moved2 t a p) = 1) →
      ∃ c₀, (problem2d tw rw' mw prior priorR numeric S).cost prior ![priorR] = .fin c₀ ∧
        ∀ (t : Fin 2 → ℝ) (r : Fin 1 → ℝ), ∃ c, (problem2d tw rw' mw prior priorR numeric S).cost t r = .fin c ∧ c₀ ≤ c ∧ (c ≤ c₀ → t = prior ∧ SameAngle (r 0) priorR)) ∧
    (∀ (tw rw' mw : ℝ) (prior priorR : Fin 3 → ℝ) (onlyYaw numeric : Bool) (S : ScanTerm 3) (v : (Fin 3 → ℝ) → ℝ), tw ≠ 0 → rw' ≠ 0 → (∀ q, 0 ≤ v q ∧ v q ≤ 1 ∧ S.evaluateDouble q = .fin (v q) ∧ S.evaluateJet q = .fin (v q)) →
      (∀ t r e : Fin 3 → ℝ, (∀ i, SameAngle (e i) (priorR i - r i)) → |tw| * √(distSq t prior) ≤ |mw| → |rw'| * √(∑ i, e i ^ 2) ≤ |mw| → ∀ p ∈ S.points, v (movedRPY t r p) = 1) →
      ∃ c₀, (problem3dRPY tw rw' mw prior priorR onlyYaw numeric S).cost prior priorR = .fin c₀ ∧
        ∀ t r : Fin 3 → ℝ, ∃ c, (problem3dRPY tw rw' mw prior priorR onlyYaw numeric S).cost t r = .fin c ∧ c₀ ≤ c ∧ (c ≤ c₀ → t = prior ∧ ∀ i, SameAngle (r i) (priorR i))) := by
  have dz : ∀ {n : Nat} {a b : Fin n → ℝ}, distSq a b = 0 → a = b := by
    intro n a b h
    funext i
    have := (Finset.sum_eq_zero_iff_of_nonneg fun i _ => sq_nonneg (a i - b i)).1 h i (Finset.mem_univ i)
    exact sub_eq_zero.1 (pow_eq_zero_iff two_ne_zero |>.1 this)
  have sa : ∀ {e a b : ℝ}, e = 0 → SameAngle e (a - b) → SameAngle b a := by
    rintro e a b rfl ⟨k, hk⟩
    exact ⟨k, by rw [← hk]; ring⟩
  constructor
  · intro tw rw' mw prior priorR numeric S v ht hr hv hy
    obtain ⟨e₀, g1, g2, g3⟩ := C75_cost_2d tw rw' mw prior priorR numeric S prior ![priorR] (fun p => v (moved2 prior priorR p)) fun _ p _ => (hv _).2.2
    have he := sameAngle_self_zero g1 g2
    have hz : distSq prior prior = 0 := by simp [distSq]
    have m0 : ∀ p ∈ S.points, v (moved2 prior priorR p) = 1 := hy prior priorR 0 ⟨0, by simp⟩ (by rw [hz]; simp) (by simp)
    refine ⟨_, g3, fun t r => ?_⟩
    obtain ⟨e, h1, h2, h3⟩ := C75_cost_2d tw rw' mw prior priorR numeric S t r (fun p => v (moved2 t (r 0) p)) fun _ p _ => (hv _).2.2
    have key : ∀ c c₀ : ℝ, (problem2d tw rw' mw prior priorR numeric S).cost t r = .fin c → (problem2d tw rw' mw prior priorR numeric S).cost prior ![priorR] = .fin c₀ → c ≤ c₀ →
        mean (S.points.map fun p => v (moved2 t (r 0) p) ^ 2) = mean (S.points.map fun p => v (moved2 prior priorR p) ^ 2) := by
      intro c c₀ hc hc₀ hle
      obtain ⟨e', _, a2, _, a4, a5⟩ := C124_ceres_2d tw rw' mw prior priorR numeric S t r (fun p => v (moved2 prior priorR p)) (fun p => v (moved2 t (r 0) p)) (fun p _ => ⟨(hv _).1, (hv _).2.1⟩)
        (fun p _ => (hv _).2.2) (fun p _ => (hv _).2.2) c c₀ hc hc₀ hle
      rw [List.map_congr_left fun p hp => show v (moved2 t (r 0) p) ^ 2 = 1 by rw [hy t (r 0) e' a2 a4 a5 p hp, one_pow], List.map_congr_left fun p hp => show v (moved2 prior priorR p) ^ 2 = 1 by rw [m0 p hp, one_pow]]
    have hd : 0 ≤ distSq t prior := Finset.sum_nonneg fun i _ => sq_nonneg _
    have n1 := mul_nonneg (sq_nonneg tw) hd
    have n2 := mul_nonneg (sq_nonneg rw') (sq_nonneg e)
    refine ⟨_, h3, ?_, fun hle => ?_⟩
    · by_contra hlt
      have := key _ _ h3 g3 (not_le.1 hlt).le
      rw [this, he, hz] at hlt
      apply hlt
      linarith
    · have := key _ _ h3 g3 hle
      rw [this, he, hz] at hle
      obtain ⟨e1, e2⟩ := zero_sq2 (pow_pos_of_ne ht) (pow_pos_of_ne hr) hd (sq_nonneg e) (by linarith)
      exact ⟨dz e1, sa (pow_eq_zero_iff two_ne_zero |>.1 e2) h2⟩
  · intro tw rw' mw prior priorR onlyYaw numeric S v ht hr hv hy
    obtain ⟨e₀, g1, g3⟩ := C75_cost_rpy tw rw' mw prior priorR onlyYaw numeric S prior priorR (fun p => v (movedRPY prior priorR p)) fun _ p _ => (hv _).2.2
    have he : ∑ i, e₀ i ^ 2 = 0 := Finset.sum_eq_zero fun i _ => by rw [sameAngle_self_zero (g1 i).1 (g1 i).2]; ring
    have hz : distSq prior prior = 0 := by simp [distSq]
    have m0 : ∀ p ∈ S.points, v (movedRPY prior priorR p) = 1 := hy prior priorR 0 (fun i => ⟨0, by simp⟩) (by rw [hz]; simp) (by simp)
    refine ⟨_, g3, fun t r => ?_⟩
    obtain ⟨e, h1, h3⟩ := C75_cost_rpy tw rw' mw prior priorR onlyYaw numeric S t r (fun p => v (movedRPY t r p)) fun _ p _ => (hv _).2.2
    have key : ∀ c c₀ : ℝ, (problem3dRPY tw rw' mw prior priorR onlyYaw numeric S).cost t r = .fin c → (problem3dRPY tw rw' mw prior priorR onlyYaw numeric S).cost prior priorR = .fin c₀ → c ≤ c₀ →
        mean (S.points.map fun p => v (movedRPY t r p) ^ 2) = mean (S.points.map fun p => v (movedRPY prior priorR p) ^ 2) := by
      intro c c₀ hc hc₀ hle
      obtain ⟨e', a2, _, a4, a5⟩ := C124_ceres_rpy tw rw' mw prior priorR onlyYaw numeric S t r (fun p => v (movedRPY prior priorR p)) (fun p => v (movedRPY t r p)) (fun p _ => ⟨(hv _).1, (hv _).2.1⟩)
        (fun p _ => (hv _).2.2) (fun p _ => (hv _).2.2) c c₀ hc hc₀ hle
      rw [List.map_congr_left fun p hp => show v (movedRPY t r p) ^ 2 = 1 by rw [hy t r e' (fun i => (a2 i).2) a4 a5 p hp, one_pow],
        List.map_congr_left fun p hp => show v (movedRPY prior priorR p) ^ 2 = 1 by rw [m0 p hp, one_pow]]
    have hd : 0 ≤ distSq t prior := Finset.sum_nonneg fun i _ => sq_nonneg _
    have hs : 0 ≤ ∑ i, e i ^ 2 := Finset.sum_nonneg fun i _ => sq_nonneg _
    have n1 := mul_nonneg (sq_nonneg tw) hd
    have n2 := mul_nonneg (sq_nonneg rw') hs
    refine ⟨_, h3, ?_, fun hle => ?_⟩
    · by_contra hlt
      have := key _ _ h3 g3 (not_le.1 hlt).le
      rw [this, he, hz] at hlt
      apply hlt
      linarith
    · have := key _ _ h3 g3 hle
      rw [this, he, hz] at hle
      obtain ⟨e1, e2⟩ := zero_sq2 (pow_pos_of_ne ht) (pow_pos_of_ne hr) hd hs (by linarith)
      refine ⟨dz e1, fun i => sa ?_ (h1 i).2⟩
      exact pow_eq_zero_iff two_ne_zero |>.1 ((Finset.sum_eq_zero_iff_of_nonneg fun i _ => sq_nonneg (e i)).1 e2 i (Finset.mem_univ i))

/-- **C129** is false with quaternions: where the map knows nothing, every rotation is as good as the prior rotation, whatever the rotation weight, both with ceres and with alglib. -/
theorem C129_quaternion_refuted :
    (∀ (tw rw' mw : ℝ) (prior : Fin 3 → ℝ) (priorR q : Quat) (onlyYaw numeric : Bool) (points : List (Fin 3 → ℝ)), quatNormSq priorR = 1 → quatNormSq q = 1 →
      (problem3dQuaternion tw rw' mw prior priorR onlyYaw numeric ⟨points, fun _ => .fin 1, fun _ => .fin 1⟩).cost prior q =
        (problem3dQuaternion tw rw' mw prior priorR onlyYaw numeric ⟨points, fun _ => .fin 1, fun _ => .fin 1⟩).cost prior priorR) ∧
    (∀ (F : Functor 7 3) (x : Fin 7 → ℝ), (∀ q, F.sample q = .nan) → F.guess 3 ^ 2 + F.guess 4 ^ 2 + F.guess 5 ^ 2 + F.guess 6 ^ 2 = 1 → x 3 ^ 2 + x 4 ^ 2 + x 5 ^ 2 + x 6 ^ 2 = 1 →
      x 0 = F.guess 0 → x 1 = F.guess 1 → x 2 = F.guess 2 → sumSq (F.alglibQuat x) = sumSq (F.alglibQuat F.guess)) := by
  constructor
  · intro tw rw' mw prior priorR q onlyYaw numeric points hp hq
    rw [C75_cost_quaternion_partial tw rw' mw prior priorR onlyYaw numeric _ prior q (fun _ => 1) hp hq fun _ _ _ => ⟨rfl, rfl⟩,
      C75_cost_quaternion_partial tw rw' mw prior priorR onlyYaw numeric _ prior priorR (fun _ => 1) hp hp fun _ _ _ => ⟨rfl, rfl⟩]
  · intro F x hs n1 n2 e0 e1 e2
    have hdrop : ∀ (x : Fin 7 → ℝ) (rest : List ℝ), (F.alglibPoints x ++ rest).drop F.points.length = rest := by
      intro x rest
      have hl : F.points.length = (F.alglibPoints x).length := (List.length_map _).symm
      rw [hl, List.drop_left]
    have hx := (C65_alglib_quat_partial F x).2 n1 n2
    have hg := (C65_alglib_quat_partial F F.guess).2 n1 n1
    have hn : ∀ y, NoScore F y := fun y p _ => by rw [hs]; rfl
    unfold Functor.alglibQuat at hx hg ⊢
    rw [hdrop] at hx hg
    rw [sumSq_append, sumSq_append, hx, hg, noScore_residuals F _ (hn _), noScore_residuals F _ (hn _), e0, e1, e2]

/-- **C129** (maps). What the hypothesis means for NDT maps: after any history, a pose gives no score to any point of the scan if none of the moved points lies in a cell that received enough points for a distribution. Then the value for ceres is 1. -/
theorem C129_map {n d : Nat} (k : Kind d) (g : Geo ℝ d) (hr : 0 < g.r) (exp : Multiset (Pt ℝ d) → Bool) (ops : List (GridOp ℝ d)) (st : St k.backend (Multiset (Pt ℝ d))) (h : gridRun g k.dyn exp ops (k.init _) = some st)
    (enough : Multiset (Pt ℝ d) → Prop) (dens : Multiset (Pt ℝ d) → Pt ℝ d → ℝ) (hd : ∀ s q, 0 ≤ dens s q ∧ (0 < dens s q ↔ enough s)) :
    (∀ (F : Functor n d) (y : Fin n → ℝ), 0 < F.tiny → (∀ p ∈ F.points, ∃ x, St.sampleNNAt g k.dyn dens (F.act y p) st = some x ∧ F.sample (F.act y p) = .fin x) →
      (∀ p ∈ F.points, ¬ Spec.Seen g.r enough (Spec.accepted g k ops) (g.toMap (F.act y p))) → NoScore F y) ∧
    (∀ (q : Pt ℝ d) (v : ℝ), ¬ Spec.Seen g.r enough (Spec.accepted g k ops) (g.toMap q) → evaluateDouble g k.dyn dens st q = some v → v = 1) := by
  have key : ∀ (q : Pt ℝ d) (x : ℝ), St.sampleNNAt g k.dyn dens q st = some x → ¬ Spec.Seen g.r enough (Spec.accepted g k ops) (g.toMap q) → x = 0 := by
    intro q x hx hs
    have hb := (C01_bundle_contains_point hr (g.toMap q) (toBundleIndex g.r (g.toMap q))).1 rfl
    obtain ⟨h0, h1⟩ := (C113_positive_iff k g hr exp ops st h enough dens hd q _ hb x).1 hx
    exact le_antisymm (not_lt.1 fun hlt => hs (h1.1 hlt).2.2) h0
  refine ⟨fun F y ht hF hs p hp => ?_, fun q v hs hv => ?_⟩
  · obtain ⟨x, hx, e⟩ := hF p hp
    rw [e, key _ x hx (hs p hp)]
    simpa [Fl.isNormal] using ht
  · unfold evaluateDouble at hv
    obtain ⟨x, hx, rfl⟩ := Option.map_eq_some_iff.1 hv
    rw [key q x hx hs, sub_zero]

/-- **C129** (occupancy maps). The same for occupancy maps, whatever scans were inserted and whatever the sensor model: only the end points of beams count, so a pose whose moved points all lie where no cell received enough of them gives no score to any point, no matter how often the free space there was observed. -/
theorem C129_occupancy_map {n d : Nat} (k : Kind d) (g : Geo ℝ d) (hr : 0 < g.r) (defRay : Pt ℝ d → Pt ℝ d → List (Idx d)) (exp : Occ Nat (Pt ℝ d) → Bool)
    (ops : List (OccMapOp ℝ d Nat (Pt ℝ d))) (hp : ∀ op ∈ ops, op.Plain) (st : St k.backend (Occ Nat (Pt ℝ d))) (h : occRun (occFlavour ℝ d) g k.dyn defRay exp ops (k.init _) = some st)
    (enough : Multiset (Pt ℝ d) → Prop) (h0 : ¬ enough 0) (dens : Multiset (Pt ℝ d) → Pt ℝ d → ℝ) (hd : ∀ s q, 0 ≤ dens s q ∧ (0 < dens s q ↔ enough s)) (m : Ivm)
    (F : Functor n d) (y : Fin n → ℝ) (ht : 0 < F.tiny) (hF : ∀ p ∈ F.points, ∃ x, St.occSampleNNAt g k.dyn dens Occ.occupancy (F.act y p) (some m) st = .ok (some x) ∧ F.sample (F.act y p) = .fin x)
    (hs : ∀ p ∈ F.points, ¬ Spec.Seen g.r enough ((scansOf ops).map fun s => Spec.hits g k s).sum (g.toMap (F.act y p))) : NoScore F y := by
  intro p hp'
  obtain ⟨x, hx, e⟩ := hF p hp'
  have hb := (C01_bundle_contains_point hr (g.toMap (F.act y p)) (toBundleIndex g.r (g.toMap (F.act y p)))).1 rfl
  have h1 := (C113_occupancy k g hr defRay exp st ⟨ops, h⟩ enough h0 dens hd m (F.act y p) _ hb x).1 hx
  have h2 := (C113_occupancy_scans k g hr defRay exp ops hp st h enough h0 dens hd m (F.act y p) _ hb x).1 hx
  have h3 : x = 0 := le_antisymm (not_lt.1 fun hlt => hs p hp' (h2.1 hlt).2.2) h1.1
  rw [e, h3]
  simpa [Fl.isNormal] using ht

/-- **C129** (weighted occupancy maps). The same for weighted occupancy maps, whatever scans were inserted and whatever the sensor model: only the end points of beams count, so a pose whose moved points all lie where no cell received enough of them gives no score to any point, no matter how often the free space there was observed. -/
theorem C129_weighted_map {n d : Nat} (k : Kind d) (g : Geo ℝ d) (hr : 0 < g.r) (defRay : Pt ℝ d → Pt ℝ d → List (Idx d)) (exp : Occ ℝ (Pt ℝ d × ℝ) → Bool)
    (ops : List (OccMapOp ℝ d ℝ (Pt ℝ d × ℝ))) (hp : ∀ op ∈ ops, op.Plain) (st : St k.backend (Occ ℝ (Pt ℝ d × ℝ))) (h : occRun (weightedFlavour ℝ d) g k.dyn defRay exp ops (k.init _) = some st)
    (enough : Multiset (Pt ℝ d × ℝ) → Prop) (h0 : ¬ enough 0) (dens : Multiset (Pt ℝ d × ℝ) → Pt ℝ d → ℝ) (hd : ∀ s q, 0 ≤ dens s q ∧ (0 < dens s q ↔ enough s)) (m : Ivm)
    (F : Functor n d) (y : Fin n → ℝ) (ht : 0 < F.tiny) (hF : ∀ p ∈ F.points, ∃ x, St.occSampleNNAt g k.dyn dens Occ.occupancyW (F.act y p) (some m) st = .ok (some x) ∧ F.sample (F.act y p) = .fin x)
    (hs : ∀ p ∈ F.points, ¬ Spec.Seen g.r (fun s => enough (s.map fun a => (a, 1))) ((scansOf ops).map fun s => Spec.hits g k s).sum (g.toMap (F.act y p))) : NoScore F y := by
  intro p hp'
  obtain ⟨x, hx, e⟩ := hF p hp'
  have hb := (C01_bundle_contains_point hr (g.toMap (F.act y p)) (toBundleIndex g.r (g.toMap (F.act y p)))).1 rfl
  have h1 := (C113_weighted k g hr defRay exp st ⟨ops, h⟩ enough h0 dens hd m (F.act y p) _ hb x).1 hx
  have h2 := (C113_weighted_scans k g hr defRay exp ops hp st h enough h0 dens hd m (F.act y p) _ hb x).1 hx
  have h3 : x = 0 := le_antisymm (not_lt.1 fun hlt => hs p hp' (h2.1 hlt).2.2) h1.1
  rw [e, h3]
  simpa [Fl.isNormal] using ht

/-- an occupancy map where three beams cross a place and end behind it: the place is not seen -/
example {W E : Type} [AddCommMonoid W] (fl : Flavour ℝ 1 W E) : (∃ st, occRun fl evGeo evKind.dyn (fun _ _ => []) (fun _ => false) (evLooks W E) (evKind.init _) = some st) ∧ (∀ op ∈ evLooks W E, op.Plain) ∧
    ((scansOf (evLooks W E)).map fun s => Spec.hits evGeo evKind s).sum ≠ 0 ∧ (∀ s ∈ scansOf (evLooks W E), LooksThrough false evGeo evKind s (fun _ => 2)) ∧ Spec.InBundle evGeo.r (fun _ => 2) (evGeo.toMap fun _ => 6 / 5) ∧
    ¬ Spec.Seen evGeo.r (· ≠ 0) ((scansOf (evLooks W E)).map fun s => Spec.hits evGeo evKind s).sum (evGeo.toMap fun _ => 6 / 5) := by
  have hh : ((scansOf (evLooks W E)).map fun s => Spec.hits evGeo evKind s).sum = {fun _ => 26 / 5} + ({fun _ => 26 / 5} + {fun _ => 26 / 5}) := by
    have : Spec.hits evGeo evKind (evLook W) = {fun _ => 26 / 5} := ev_hits W _ _ (by norm_num)
    simp only [evLooks, scansOf, List.map_cons, List.map_nil, List.sum_cons, List.sum_nil, add_zero, this]
  refine ⟨occRun_total evKind.lawful fl evGeo evKind.dyn (fun _ _ => []) (fun _ => false) (evLooks W E) _ evKind.init_rinv (fun j h => Kind.static_good _ _ _ h), fun op h => ev_plain op (by simp [h]), ?_, ?_, ?_, ?_⟩
  · rw [hh]; simp
  · intro s hs
    simp only [evLooks, scansOf, List.mem_cons, List.not_mem_nil, or_false, or_self] at hs
    rw [hs]
    exact ev_looks false W
  · intro a
    exact ⟨by show ((2 : Int) : ℝ) * (1 / 2) ≤ 6 / 5; norm_num, by show (6 / 5 : ℝ) < (((2 : Int) : ℝ) + 1) * (1 / 2); norm_num⟩
  · rw [hh]
    classical
    rintro ⟨c, _, i, h5, hne⟩
    obtain ⟨p, hp⟩ := Multiset.exists_mem_of_ne_zero hne
    obtain ⟨hp1, hp2⟩ := Multiset.mem_filter.1 hp
    have hp1 : p = fun _ => 26 / 5 := by simpa using hp1
    subst hp1
    have a := h5 0
    have b := hp2 0
    simp only [evGeo, mul_one] at a b
    have a1 : (i 0 : ℝ) - shift ℝ c 0 ≤ 6 / 5 := a.1
    have b1 : (26 / 5 : ℝ) < i 0 + 1 - shift ℝ c 0 := b.2
    linarith

/-- a map with a point, and a place that is not seen -/
example : ∃ (g : Geo ℝ 1) (ops : List (GridOp ℝ 1)) (st : St (octreeBackend 1) (Multiset (Pt ℝ 1))), 0 < g.r ∧ gridRun g true (fun _ => true) ops ((Kind.dynamic (d := 1) 0 0).init _) = some st ∧
    Spec.accepted g (.dynamic 0 0) ops ≠ 0 ∧ ¬ Spec.Seen g.r (· ≠ 0) (Spec.accepted g (.dynamic 0 0) ops) (g.toMap fun _ => 5) := by
  let g : Geo ℝ 1 := { r := 1, toMap := id, normal := fun _ => true }
  have hrun : ∃ st, gridRun g true (fun _ => true) [.insert id [fun _ => 1 / 5]] ((Kind.dynamic (d := 1) 0 0).init (Multiset (Pt ℝ 1))) = some st := by
    refine dynamic_run_total g _ 0 0 10 _ _ (Kind.init_rinv (.dynamic 0 0)) (.refl ..) ?_ 10 (le_refl _) ?_ ?_
    · intro op hop
      obtain rfl := List.mem_singleton.1 hop
      intro p hp a
      have : p = fun _ => 1 / 5 := by simpa [accList, g] using hp
      subst this
      norm_num [toBundleIndex, bundleResolutionInv, bundleResolution, g, abs_le]
    · intro bi hbi; rw [Kind.init_allocated] at hbi; exact absurd hbi (Set.notMem_empty _)
    · decide
  obtain ⟨st, hst⟩ := hrun
  have hreg : Spec.Region g.r (.dynamic 0 0 : Kind 1) (fun _ => 1 / 5) := trivial
  have hacc : Spec.accepted g (.dynamic 0 0) [.insert id [fun _ => 1 / 5]] = {fun _ => 1 / 5} := by
    classical
    show Multiset.filter _ _ + 0 = _
    rw [add_zero]
    exact Multiset.filter_eq_self.2 fun p hp => by
      have : p = fun _ => 1 / 5 := by simpa [g] using hp
      rw [this]; exact hreg
  refine ⟨g, [.insert id [fun _ => 1 / 5]], st, one_pos, hst, by rw [hacc]; simp, ?_⟩
  rw [hacc]
  classical
  rintro ⟨c, _, i, h5, hne⟩
  obtain ⟨p, hp⟩ := Multiset.exists_mem_of_ne_zero hne
  obtain ⟨hp1, hp2⟩ := Multiset.mem_filter.1 hp
  obtain rfl := Multiset.mem_singleton.1 hp1
  have a := h5 0
  have b := hp2 0
  simp only [g, mul_one] at a b
  have a1 : (5 : ℝ) < i 0 + 1 - shift ℝ c 0 := a.2
  have b1 : (i 0 : ℝ) - shift ℝ c 0 ≤ 1 / 5 := b.1
  linarith

/-- the hypotheses can be met with a map that is not empty: it begins more than the limit of one step away from the guess -/
example : ∃ F : Functor 3 2, AngleDif F.dif ∧ UnitScores F ∧ 0 < F.mapW ∧ F.points ≠ [] ∧ 0 < F.transW ∧ 0 < F.rotW ∧ (∃ x, ¬ NoScore F x) ∧
    ∀ y : Fin 3 → ℝ, F.transW * √((y 0 - F.guess 0) ^ 2 + (y 1 - F.guess 1) ^ 2) + F.rotW * |F.dif (y 2) (F.guess 2)| ≤ F.mapW → NoScore F y := by
  refine ⟨{ oneStep 2 1 with }, (oneStep_met 2 1).2, (oneStep_met 2 1).1, by norm_num [oneStep], by simp [oneStep], by norm_num [oneStep], by norm_num [oneStep], ⟨![1, 0, 0], ?_⟩, fun y hy p hp => ?_⟩
  · intro h
    have := h 0 (by simp [oneStep])
    norm_num [oneStep, Fl.isNormal] at this
  · have hp : p = 0 := by simpa [oneStep] using hp
    subst hp
    have h1 : 2 * √((y 0 - 0) ^ 2 + (y 1 - 0) ^ 2) ≤ 1 := by
      have : 0 ≤ (1 : ℝ) * |angleDifference (y 2) 0| := by positivity
      have hy : 2 * √((y 0 - 0) ^ 2 + (y 1 - 0) ^ 2) + 1 * |angleDifference (y 2) 0| ≤ 1 := hy
      linarith
    have h2 : y 0 ≠ 1 := by
      intro e
      have : (1 : ℝ) ≤ √((y 0 - 0) ^ 2 + (y 1 - 0) ^ 2) := by
        rw [e]
        exact one_le_sqrt.2 (by nlinarith [sq_nonneg (y 1 - 0)])
      linarith
    simp [oneStep, Fl.isNormal, h2]

end Ndt
