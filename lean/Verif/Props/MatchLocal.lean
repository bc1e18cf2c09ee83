import Verif.Props.NoInformation
import Verif.Props.Local
import Verif.Props.Optimum

/-! Property theorem C131: what is mapped elsewhere does not change the result of matching. -/

namespace Ndt

open Real Matching Spec

/-- two costs have the same best poses, and the same value there -/
def Spec.SameBest {X : Type} (f f' : X → ℝ) : Prop := ∀ x, ((∀ y, f x ≤ f y) ↔ ∀ y, f' x ≤ f' y) ∧ ((∀ y, f x ≤ f y) → f x = f' x)

/-- two costs that agree in a region that contains everything not worse than `g` have the same best poses -/
theorem same_best {X : Type} (f f' : X → ℝ) (g : X) (L : X → Prop) (hf : ∀ x, f x ≤ f g → L x) (hf' : ∀ x, f' x ≤ f' g → L x) (he : ∀ x, L x → f' x = f x) : SameBest f f' := by
  have hg := he g (hf g le_rfl)
  refine fun x => ⟨⟨fun h y => ?_, fun h y => ?_⟩, fun h => (he x (hf x (h g))).symm⟩
  · by_contra hlt
    have hx := he x (hf x (h g))
    have hy := he y (hf' y (by linarith [h g, not_le.1 hlt]))
    linarith [h y, not_le.1 hlt]
  · by_contra hlt
    have hx := he x (hf' x (h g))
    have hy := he y (hf y (by linarith [h g, not_le.1 hlt]))
    linarith [h y, not_le.1 hlt]

/-- the same problem with another map -/
def otherMap {n d : Nat} (F : Functor n d) (s' : (Fin d → ℝ) → Fl ℝ) : Functor n d := { F with sample := s' }

/-- the two maps give the same score to every point of the scan at the pose `y` -/
def Spec.SameScores {n d : Nat} (F : Functor n d) (s' : (Fin d → ℝ) → Fl ℝ) (y : Fin n → ℝ) : Prop := ∀ p ∈ F.points, s' (F.act y p) = F.sample (F.act y p)

theorem sumCost_other {n d : Nat} (F : Functor n d) (s' : (Fin d → ℝ) → Fl ℝ) (cost : Fl ℝ → ℝ) (x : Fin n → ℝ) (h : SameScores F s' x) : (otherMap F s').sumCost cost x = F.sumCost cost x := by
  unfold Functor.sumCost
  rw [foldl_add_eq, foldl_add_eq]
  congr 2
  exact List.map_congr_left fun p hp => by rw [show (otherMap F s').sample ((otherMap F s').act x p) = F.sample (F.act x p) from h p hp]

theorem alglibPoints_other {n d : Nat} (F : Functor n d) (s' : (Fin d → ℝ) → Fl ℝ) (x : Fin n → ℝ) (h : SameScores F s' x) : (otherMap F s').alglibPoints x = F.alglibPoints x := by
  unfold Functor.alglibPoints
  refine List.map_congr_left fun p hp => ?_
  rw [show (otherMap F s').sample ((otherMap F s').act x p) = F.sample (F.act x p) from h p hp]
  rfl

/-- **C131** (nlopt). Two maps that give the same scores at all poses within the limits of the weights (C124) have the same best poses with the same costs, however they differ elsewhere. -/
theorem C131_nlopt :
    (∀ (F : Functor 3 2) (s' : (Fin 2 → ℝ) → Fl ℝ), AngleDif F.dif → UnitScores F → UnitScores (otherMap F s') → 0 ≤ F.mapW → F.points ≠ [] →
      (∀ y : Fin 3 → ℝ, F.transW * √((y 0 - F.guess 0) ^ 2 + (y 1 - F.guess 1) ^ 2) + F.rotW * |F.dif (y 2) (F.guess 2)| ≤ F.mapW → SameScores F s' y) →
      SameBest F.nlopt2 (otherMap F s').nlopt2) ∧
    (∀ (F : Functor 6 3) (s' : (Fin 3 → ℝ) → Fl ℝ), AngleDif F.dif → UnitScores F → UnitScores (otherMap F s') → 0 ≤ F.mapW → F.points ≠ [] →
      (∀ y : Fin 6 → ℝ, F.transW * √((y 0 - F.guess 0) ^ 2 + (y 1 - F.guess 1) ^ 2 + (y 2 - F.guess 2) ^ 2) +
        F.rotW * √(F.dif (y 3) (F.guess 3) ^ 2 + F.dif (y 4) (F.guess 4) ^ 2 + F.dif (y 5) (F.guess 5) ^ 2) ≤ F.mapW → SameScores F s' y) →
      SameBest F.nloptRPY (otherMap F s').nloptRPY ∧ SameBest F.nloptOccRPY (otherMap F s').nloptOccRPY) := by
  obtain ⟨c2, c3⟩ := C124_nlopt
  refine ⟨fun F s' hd hu hu' hm hp hy => ?_, fun F s' hd hu hu' hm hp hy => ⟨?_, ?_⟩⟩
  · refine same_best _ _ F.guess _ (fun x h => c2 F x hd hu hm hp h) (fun x h => c2 (otherMap F s') x hd hu' hm hp h) fun x hx => ?_
    unfold Functor.nlopt2
    rw [show (otherMap F s').tiny = F.tiny from rfl, sumCost_other F s' _ x (hy x hx)]
    rfl
  · refine same_best _ _ F.guess _ (fun x h => c3 F x hd hu hm hp (.inl h)) (fun x h => c3 (otherMap F s') x hd hu' hm hp (.inl h)) fun x hx => ?_
    unfold Functor.nloptRPY
    rw [show (otherMap F s').tiny = F.tiny from rfl, sumCost_other F s' _ x (hy x hx)]
    rfl
  · refine same_best _ _ F.guess _ (fun x h => c3 F x hd hu hm hp (.inr h)) (fun x h => c3 (otherMap F s') x hd hu' hm hp (.inr h)) fun x hx => ?_
    unfold Functor.nloptOccRPY
    rw [show (otherMap F s').tiny = F.tiny from rfl, sumCost_other F s' _ x (hy x hx)]
    rfl

/-- **C131** (nlopt with quaternions). The rotation prior does not vanish at the guess (C46), so the limit of the translation grows by its largest value, and the rotation is not limited. -/
theorem C131_nlopt_quaternion (roll pitch yaw : Quat → ℝ) (F : Functor 7 3) (s' : (Fin 3 → ℝ) → Fl ℝ) (hd : ∀ a b, |F.dif a b| ≤ π) (hu : UnitScores F) (hu' : UnitScores (otherMap F s')) (hm : 0 ≤ F.mapW) (hr : 0 ≤ F.rotW)
    (hy : ∀ y : Fin 7 → ℝ, F.transW * √((y 0 - F.guess 0) ^ 2 + (y 1 - F.guess 1) ^ 2 + (y 2 - F.guess 2) ^ 2) ≤ F.mapW + F.rotW * √(3 * π ^ 2) → SameScores F s' y) :
    SameBest (F.nloptQuat roll pitch yaw) ((otherMap F s').nloptQuat roll pitch yaw) ∧ SameBest (F.nloptOccQuat roll pitch yaw) ((otherMap F s').nloptOccQuat roll pitch yaw) := by
  have hrot : |F.rotQuat roll pitch yaw F.guess| ≤ √(3 * π ^ 2) := by
    have hsq : ∀ a b, F.dif a b * F.dif a b ≤ π ^ 2 := fun a b => by
      rw [← sq]
      exact sq_le_sq' (by linarith [(abs_le.1 (hd a b)).1]) (abs_le.1 (hd a b)).2
    unfold Functor.rotQuat hypot3
    rw [abs_of_nonneg (sqrt_nonneg _)]
    refine sqrt_le_sqrt ?_
    linarith [hsq (roll ⟨F.guess 6, F.guess 3, F.guess 4, F.guess 5⟩) (F.guess 3), hsq (pitch ⟨F.guess 6, F.guess 3, F.guess 4, F.guess 5⟩) (F.guess 4), hsq (yaw ⟨F.guess 6, F.guess 3, F.guess 4, F.guess 5⟩) (F.guess 5)]
  have key : ∀ (G : Functor 7 3) (cost : Fl ℝ → ℝ) (x : Fin 7 → ℝ), (∀ q, 0 ≤ cost (G.sample q) ∧ cost (G.sample q) ≤ 1) → G.mapW = F.mapW → G.transW = F.transW → G.rotW = F.rotW → G.guess = F.guess → G.dif = F.dif →
      G.weighted (G.sumCost cost x) (G.trans3 (n := 4) x) (G.rotQuat roll pitch yaw x) ≤ G.weighted (G.sumCost cost G.guess) (G.trans3 (n := 4) G.guess) (G.rotQuat roll pitch yaw G.guess) →
      F.transW * √((x 0 - F.guess 0) ^ 2 + (x 1 - F.guess 1) ^ 2 + (x 2 - F.guess 2) ^ 2) ≤ F.mapW + F.rotW * √(3 * π ^ 2) := by
    intro G cost x hG e1 e2 e3 e4 e5 h
    have hrG : G.rotQuat roll pitch yaw G.guess = F.rotQuat roll pitch yaw F.guess := by
      unfold Functor.rotQuat
      rw [e4, e5]
    unfold Functor.weighted at h
    rw [mul_div_assoc, mul_div_assoc, hrG, e1, e2, e3] at h
    have t0 : G.trans3 (n := 4) G.guess = 0 := by simp [Functor.trans3, hypot3]
    have t1 : G.trans3 (n := 4) x = √((x 0 - F.guess 0) ^ 2 + (x 1 - F.guess 1) ^ 2 + (x 2 - F.guess 2) ^ 2) := by
      unfold Functor.trans3 hypot3
      rw [e4]
      congr 1
      ring
    rw [t0, t1, mul_zero] at h
    have h1 := mul_nonneg hm (sumCost_unit G cost x hG).1
    have h2 := mul_le_mul_of_nonneg_left (sumCost_unit G cost G.guess hG).2 hm
    have h3 := mul_le_mul_of_nonneg_left hrot hr
    have h4 := mul_nonneg hr (abs_nonneg (G.rotQuat roll pitch yaw x))
    linarith
  constructor
  · refine same_best _ _ F.guess _ (fun x h => key F _ x (fun q => (pointCost_unit (hu q)).1) rfl rfl rfl rfl rfl h) (fun x h => key (otherMap F s') _ x (fun q => (pointCost_unit (hu' q)).1) rfl rfl rfl rfl rfl h) fun x hx => ?_
    unfold Functor.nloptQuat
    rw [show (otherMap F s').tiny = F.tiny from rfl, sumCost_other F s' _ x (hy x hx)]
    rfl
  · refine same_best _ _ F.guess _ (fun x h => key F _ x (fun q => (pointCost_unit (hu q)).2) rfl rfl rfl rfl rfl h) (fun x h => key (otherMap F s') _ x (fun q => (pointCost_unit (hu' q)).2) rfl rfl rfl rfl rfl h) fun x hx => ?_
    unfold Functor.nloptOccQuat
    rw [show (otherMap F s').tiny = F.tiny from rfl, sumCost_other F s' _ x (hy x hx)]
    rfl

/-- **C131** (nlopt on 2D occupancy maps) -/
theorem C131_occupancy2 (F : Functor 3 2) (s' : (Fin 2 → ℝ) → Fl ℝ) (hd : AngleDif F.dif) (hu : UnitScores F) (hu' : UnitScores (otherMap F s')) (hm : 0 ≤ F.mapW) (hp : F.points ≠ [])
    (hy : ∀ y : Fin 3 → ℝ, F.transW * ((y 0 - F.guess 0) ^ 2 + (y 1 - F.guess 1) ^ 2) + F.rotW * F.dif (y 2) (F.guess 2) ^ 2 ≤ F.mapW / (2 * (F.points.length : ℝ)) → SameScores F s' y) :
    SameBest F.nloptOcc2 (otherMap F s').nloptOcc2 := by
  refine same_best _ _ F.guess _ (fun x h => C124_nlopt_occupancy2 F x hd hu hm hp h) (fun x h => C124_nlopt_occupancy2 (otherMap F s') x hd hu' hm hp h) fun x hx => ?_
  unfold Functor.nloptOcc2
  simp only
  rw [foldl_add_eq, foldl_add_eq]
  rw [show ((otherMap F s').points.map fun p => 1 / 2 * (otherMap F s').mapW * (pointCost (otherMap F s').tiny ((otherMap F s').sample ((otherMap F s').act x p)) / ((otherMap F s').points.length : ℝ) *
      (pointCost (otherMap F s').tiny ((otherMap F s').sample ((otherMap F s').act x p)) / ((otherMap F s').points.length : ℝ)))) =
      F.points.map fun p => 1 / 2 * F.mapW * (pointCost F.tiny (F.sample (F.act x p)) / (F.points.length : ℝ) * (pointCost F.tiny (F.sample (F.act x p)) / (F.points.length : ℝ))) from
    List.map_congr_left fun p hq => by
      rw [show (otherMap F s').sample ((otherMap F s').act x p) = F.sample (F.act x p) from hy x hx p hq]
      rfl]
  rfl

/-- **C131** (alglib). With quaternions only the translation is limited (C124), so the maps have to agree for all rotations. -/
theorem C131_alglib :
    (∀ (F : Functor 3 2) (s' : (Fin 2 → ℝ) → Fl ℝ), AngleDif F.dif → UnitScores F → UnitScores (otherMap F s') → F.points ≠ [] →
      (∀ y : Fin 3 → ℝ, F.transW ^ 2 * ((y 0 - F.guess 0) ^ 2 + (y 1 - F.guess 1) ^ 2) + F.rotW ^ 2 * F.dif (y 2) (F.guess 2) ^ 2 ≤ F.mapW ^ 2 / (F.points.length : ℝ) → SameScores F s' y) →
      SameBest (fun x => sumSq (F.alglib2 x)) fun x => sumSq ((otherMap F s').alglib2 x)) ∧
    (∀ (F : Functor 6 3) (s' : (Fin 3 → ℝ) → Fl ℝ), AngleDif F.dif → UnitScores F → UnitScores (otherMap F s') → F.points ≠ [] →
      (∀ y : Fin 6 → ℝ, F.transW ^ 2 * ((y 0 - F.guess 0) ^ 2 + (y 1 - F.guess 1) ^ 2 + (y 2 - F.guess 2) ^ 2) +
        F.rotW ^ 2 * (F.dif (y 3) (F.guess 3) ^ 2 + F.dif (y 4) (F.guess 4) ^ 2 + F.dif (y 5) (F.guess 5) ^ 2) ≤ F.mapW ^ 2 / (F.points.length : ℝ) → SameScores F s' y) →
      SameBest (fun x => sumSq (F.alglibRPY x)) fun x => sumSq ((otherMap F s').alglibRPY x)) ∧
    (∀ (F : Functor 7 3) (s' : (Fin 3 → ℝ) → Fl ℝ), UnitScores F → UnitScores (otherMap F s') → F.points ≠ [] → F.guess 3 ^ 2 + F.guess 4 ^ 2 + F.guess 5 ^ 2 + F.guess 6 ^ 2 = 1 →
      (∀ y : Fin 7 → ℝ, y 3 ^ 2 + y 4 ^ 2 + y 5 ^ 2 + y 6 ^ 2 = 1 → F.transW ^ 2 * ((y 0 - F.guess 0) ^ 2 + (y 1 - F.guess 1) ^ 2 + (y 2 - F.guess 2) ^ 2) ≤ F.mapW ^ 2 / (F.points.length : ℝ) → SameScores F s' y) →
      SameBest (fun x : {y : Fin 7 → ℝ // y 3 ^ 2 + y 4 ^ 2 + y 5 ^ 2 + y 6 ^ 2 = 1} => sumSq (F.alglibQuat x)) fun x => sumSq ((otherMap F s').alglibQuat x)) := by
  obtain ⟨c1, c2, c3⟩ := C124_alglib
  refine ⟨fun F s' hd hu hu' hp hy => ?_, fun F s' hd hu hu' hp hy => ?_, fun F s' hu hu' hp hg hy => ?_⟩
  · refine same_best _ _ F.guess _ (fun x h => c1 F x hd hu hp h) (fun x h => c1 (otherMap F s') x hd hu' hp h) fun x hx => ?_
    unfold Functor.alglib2
    rw [alglibPoints_other F s' x (hy x hx)]
    rfl
  · refine same_best _ _ F.guess _ (fun x h => c2 F x hd hu hp h) (fun x h => c2 (otherMap F s') x hd hu' hp h) fun x hx => ?_
    unfold Functor.alglibRPY
    rw [alglibPoints_other F s' x (hy x hx)]
    rfl
  · refine same_best _ _ ⟨F.guess, hg⟩ (fun x => F.transW ^ 2 * ((x.1 0 - F.guess 0) ^ 2 + (x.1 1 - F.guess 1) ^ 2 + (x.1 2 - F.guess 2) ^ 2) ≤ F.mapW ^ 2 / (F.points.length : ℝ))
      (fun x h => c3 F x hu hp hg x.2 h) (fun x h => c3 (otherMap F s') x hu' hp hg x.2 h) fun x hx => ?_
    show sumSq ((otherMap F s').alglibQuat x.1) = sumSq (F.alglibQuat x.1)
    unfold Functor.alglibQuat
    rw [alglibPoints_other F s' x.1 (hy x.1 x.2 hx)]
    rfl

/-- **C131** (ceres): the same for the cost of the ceres problems. With quaternions only the translation is limited. -/
theorem C131_ceres :
    (∀ (tw rw' mw : ℝ) (prior : Fin 2 → ℝ) (priorR : ℝ) (numeric : Bool) (S S' : ScanTerm 2) (v v' : (Fin 2 → ℝ) → ℝ), S'.points = S.points →
      (∀ q, 0 ≤ v q ∧ v q ≤ 1 ∧ S.evaluateDouble q = .fin (v q) ∧ S.evaluateJet q = .fin (v q)) → (∀ q, 0 ≤ v' q ∧ v' q ≤ 1 ∧ S'.evaluateDouble q = .fin (v' q) ∧ S'.evaluateJet q = .fin (v' q)) →
      (∀ (t : Fin 2 → ℝ) (a e : ℝ), SameAngle e (priorR - a) → |tw| * √(distSq t prior) ≤ |mw| → |rw'| * |e| ≤ |mw| → ∀ p ∈ S.points, v' (moved2 t a p) = v (moved2 t a p)) →
      ∃ f f' : (Fin 2 → ℝ) × (Fin 1 → ℝ) → ℝ, (∀ x, (problem2d tw rw' mw prior priorR numeric S).cost x.1 x.2 = .fin (f x)) ∧ (∀ x, (problem2d tw rw' mw prior priorR numeric S').cost x.1 x.2 = .fin (f' x)) ∧ SameBest f f') ∧
    (∀ (tw rw' mw : ℝ) (prior priorR : Fin 3 → ℝ) (onlyYaw numeric : Bool) (S S' : ScanTerm 3) (v v' : (Fin 3 → ℝ) → ℝ), S'.points = S.points →
      (∀ q, 0 ≤ v q ∧ v q ≤ 1 ∧ S.evaluateDouble q = .fin (v q) ∧ S.evaluateJet q = .fin (v q)) → (∀ q, 0 ≤ v' q ∧ v' q ≤ 1 ∧ S'.evaluateDouble q = .fin (v' q) ∧ S'.evaluateJet q = .fin (v' q)) →
      (∀ t r e : Fin 3 → ℝ, (∀ i, SameAngle (e i) (priorR i - r i)) → |tw| * √(distSq t prior) ≤ |mw| → |rw'| * √(∑ i, e i ^ 2) ≤ |mw| → ∀ p ∈ S.points, v' (movedRPY t r p) = v (movedRPY t r p)) →
      ∃ f f' : (Fin 3 → ℝ) × (Fin 3 → ℝ) → ℝ, (∀ x, (problem3dRPY tw rw' mw prior priorR onlyYaw numeric S).cost x.1 x.2 = .fin (f x)) ∧
        (∀ x, (problem3dRPY tw rw' mw prior priorR onlyYaw numeric S').cost x.1 x.2 = .fin (f' x)) ∧ SameBest f f') ∧
    (∀ (tw rw' mw : ℝ) (prior : Fin 3 → ℝ) (priorR : Quat) (onlyYaw numeric : Bool) (S S' : ScanTerm 3) (v v' : (Fin 3 → ℝ) → ℝ), quatNormSq priorR = 1 → S'.points = S.points →
      (∀ q, 0 ≤ v q ∧ v q ≤ 1 ∧ S.evaluateDouble q = .fin (v q) ∧ S.evaluateJet q = .fin (v q)) → (∀ q, 0 ≤ v' q ∧ v' q ≤ 1 ∧ S'.evaluateDouble q = .fin (v' q) ∧ S'.evaluateJet q = .fin (v' q)) →
      (∀ (t : Fin 3 → ℝ) (q : Quat), quatNormSq q = 1 → |tw| * √(distSq t prior) ≤ |mw| → ∀ p ∈ S.points, v' (moved3 t q p) = v (moved3 t q p)) →
      ∃ f f' : (Fin 3 → ℝ) × {q : Quat // quatNormSq q = 1} → ℝ, (∀ x, (problem3dQuaternion tw rw' mw prior priorR onlyYaw numeric S).cost x.1 x.2 = .fin (f x)) ∧
        (∀ x, (problem3dQuaternion tw rw' mw prior priorR onlyYaw numeric S').cost x.1 x.2 = .fin (f' x)) ∧ SameBest f f') := by
  refine ⟨?_, ?_, ?_⟩
  · intro tw rw' mw prior priorR numeric S S' v v' hS hv hv' hy
    have c := fun x : (Fin 2 → ℝ) × (Fin 1 → ℝ) => C75_cost_2d tw rw' mw prior priorR numeric S x.1 x.2 (fun p => v (moved2 x.1 (x.2 0) p)) fun _ p _ => (hv _).2.2
    have c' := fun x : (Fin 2 → ℝ) × (Fin 1 → ℝ) => C75_cost_2d tw rw' mw prior priorR numeric S' x.1 x.2 (fun p => v' (moved2 x.1 (x.2 0) p)) fun _ p _ => (hv' _).2.2
    choose e a b f using c
    choose e' a' b' f' using c'
    refine ⟨_, _, f, f', same_best _ _ (prior, ![priorR]) (fun x => |tw| * √(distSq x.1 prior) ≤ |mw| ∧ ∃ e, SameAngle e (priorR - x.2 0) ∧ |rw'| * |e| ≤ |mw|) ?_ ?_ ?_⟩
    · intro x h
      obtain ⟨e, _, h2, _, h3, h4⟩ := C124_ceres_2d tw rw' mw prior priorR numeric S x.1 x.2 (fun p => v (moved2 prior priorR p)) (fun p => v (moved2 x.1 (x.2 0) p))
        (fun p _ => ⟨(hv _).1, (hv _).2.1⟩) (fun p _ => (hv _).2.2) (fun p _ => (hv _).2.2) _ _ (f x) (f (prior, ![priorR])) h
      exact ⟨h3, e, h2, h4⟩
    · intro x h
      obtain ⟨e, _, h2, _, h3, h4⟩ := C124_ceres_2d tw rw' mw prior priorR numeric S' x.1 x.2 (fun p => v' (moved2 prior priorR p)) (fun p => v' (moved2 x.1 (x.2 0) p))
        (fun p _ => ⟨(hv' _).1, (hv' _).2.1⟩) (fun p _ => (hv' _).2.2) (fun p _ => (hv' _).2.2) _ _ (f' x) (f' (prior, ![priorR])) h
      exact ⟨h3, e, h2, h4⟩
    · rintro x ⟨h3, e0, h2, h4⟩
      have hm : (S'.points.map fun p => v' (moved2 x.1 (x.2 0) p) ^ 2) = S.points.map fun p => v (moved2 x.1 (x.2 0) p) ^ 2 := by
        rw [hS]
        exact List.map_congr_left fun p hp => by rw [hy x.1 (x.2 0) e0 h2 h3 h4 p hp]
      have he : e' x ^ 2 = e x ^ 2 := sq_eq_of_sameAngle (a' x) (a x) ((b' x).trans (b x).symm)
      rw [hm, he]
  · intro tw rw' mw prior priorR onlyYaw numeric S S' v v' hS hv hv' hy
    have c := fun x : (Fin 3 → ℝ) × (Fin 3 → ℝ) => C75_cost_rpy tw rw' mw prior priorR onlyYaw numeric S x.1 x.2 (fun p => v (movedRPY x.1 x.2 p)) fun _ p _ => (hv _).2.2
    have c' := fun x : (Fin 3 → ℝ) × (Fin 3 → ℝ) => C75_cost_rpy tw rw' mw prior priorR onlyYaw numeric S' x.1 x.2 (fun p => v' (movedRPY x.1 x.2 p)) fun _ p _ => (hv' _).2.2
    choose e a f using c
    choose e' a' f' using c'
    refine ⟨_, _, f, f', same_best _ _ (prior, priorR) (fun x => |tw| * √(distSq x.1 prior) ≤ |mw| ∧ ∃ e : Fin 3 → ℝ, (∀ i, SameAngle (e i) (priorR i - x.2 i)) ∧ |rw'| * √(∑ i, e i ^ 2) ≤ |mw|) ?_ ?_ ?_⟩
    · intro x h
      obtain ⟨e, h2, _, h3, h4⟩ := C124_ceres_rpy tw rw' mw prior priorR onlyYaw numeric S x.1 x.2 (fun p => v (movedRPY prior priorR p)) (fun p => v (movedRPY x.1 x.2 p))
        (fun p _ => ⟨(hv _).1, (hv _).2.1⟩) (fun p _ => (hv _).2.2) (fun p _ => (hv _).2.2) _ _ (f x) (f (prior, priorR)) h
      exact ⟨h3, e, fun i => (h2 i).2, h4⟩
    · intro x h
      obtain ⟨e, h2, _, h3, h4⟩ := C124_ceres_rpy tw rw' mw prior priorR onlyYaw numeric S' x.1 x.2 (fun p => v' (movedRPY prior priorR p)) (fun p => v' (movedRPY x.1 x.2 p))
        (fun p _ => ⟨(hv' _).1, (hv' _).2.1⟩) (fun p _ => (hv' _).2.2) (fun p _ => (hv' _).2.2) _ _ (f' x) (f' (prior, priorR)) h
      exact ⟨h3, e, fun i => (h2 i).2, h4⟩
    · rintro x ⟨h3, e0, h2, h4⟩
      have hm : (S'.points.map fun p => v' (movedRPY x.1 x.2 p) ^ 2) = S.points.map fun p => v (movedRPY x.1 x.2 p) ^ 2 := by
        rw [hS]
        exact List.map_congr_left fun p hp => by rw [hy x.1 x.2 e0 h2 h3 h4 p hp]
      have he : ∑ i, e' x i ^ 2 = ∑ i, e x i ^ 2 := Finset.sum_congr rfl fun i _ => sq_eq_of_sameAngle (a' x i).1 (a x i).1 ((a' x i).2.trans (a x i).2.symm)
      rw [hm, he]
  · intro tw rw' mw prior priorR onlyYaw numeric S S' v v' hn hS hv hv' hy
    have f := fun x : (Fin 3 → ℝ) × {q : Quat // quatNormSq q = 1} => C75_cost_quaternion_partial tw rw' mw prior priorR onlyYaw numeric S x.1 x.2 (fun p => v (moved3 x.1 x.2 p)) hn x.2.2 fun _ p _ => (hv _).2.2
    have f' := fun x : (Fin 3 → ℝ) × {q : Quat // quatNormSq q = 1} => C75_cost_quaternion_partial tw rw' mw prior priorR onlyYaw numeric S' x.1 x.2 (fun p => v' (moved3 x.1 x.2 p)) hn x.2.2 fun _ p _ => (hv' _).2.2
    refine ⟨_, _, f, f', same_best _ _ (prior, ⟨priorR, hn⟩) (fun x => |tw| * √(distSq x.1 prior) ≤ |mw|) ?_ ?_ ?_⟩
    · intro x h
      exact (C124_ceres_quaternion_partial tw rw' mw prior priorR onlyYaw numeric S x.1 x.2 (fun p => v (moved3 prior priorR p)) (fun p => v (moved3 x.1 x.2 p)) hn x.2.2
        (fun p _ => ⟨(hv _).1, (hv _).2.1⟩) (fun p _ => (hv _).2.2) (fun p _ => (hv _).2.2) _ _ (f x) (f (prior, ⟨priorR, hn⟩)) h).2
    · intro x h
      exact (C124_ceres_quaternion_partial tw rw' mw prior priorR onlyYaw numeric S' x.1 x.2 (fun p => v' (moved3 prior priorR p)) (fun p => v' (moved3 x.1 x.2 p)) hn x.2.2
        (fun p _ => ⟨(hv' _).1, (hv' _).2.1⟩) (fun p _ => (hv' _).2.2) (fun p _ => (hv' _).2.2) _ _ (f' x) (f' (prior, ⟨priorR, hn⟩)) h).2
    · intro x h3
      have hm : (S'.points.map fun p => v' (moved3 x.1 x.2 p) ^ 2) = S.points.map fun p => v (moved3 x.1 x.2 p) ^ 2 := by
        rw [hS]
        exact List.map_congr_left fun p hp => by rw [hy x.1 x.2 x.2.2 h3 p hp]
      rw [hm]

/-- **C131** (NDT maps). What the hypothesis means: after any history, another cloud is inserted, all of whose accepted points are at least one resolution away, in some coordinate, from the moved points of the scan. Then the scan gets the same scores,
and the same values for ceres. -/
theorem C131_map {n d : Nat} (k : Kind d) (g : Geo ℝ d) (hr : 0 < g.r) (exp : Multiset (Pt ℝ d) → Bool) (st : St k.backend (Multiset (Pt ℝ d))) (hst : Reachable k g exp st) (pose : Pt ℝ d → Pt ℝ d) (cloud : List (Pt ℝ d))
    (s : St k.backend (Multiset (Pt ℝ d))) (h : gridInsert g k.dyn pose cloud st = some s) (dens : Multiset (Pt ℝ d) → Pt ℝ d → ℝ) :
    (∀ (F : Functor n d) (s' : (Fin d → ℝ) → Fl ℝ) (out : Option ℝ → Fl ℝ), (∀ q, F.sample q = out (St.sampleNNAt g k.dyn dens q st)) → (∀ q, s' q = out (St.sampleNNAt g k.dyn dens q s)) → ∀ y : Fin n → ℝ,
      (∀ p ∈ F.points, ∀ q ∈ Spec.acceptedPoints g k pose cloud, ∃ a, g.r ≤ |q a - g.toMap (F.act y p) a|) → SameScores F s' y) ∧
    (∀ p, (∀ q ∈ Spec.acceptedPoints g k pose cloud, ∃ a, g.r ≤ |q a - g.toMap p a|) → evaluateDouble g k.dyn dens s p = evaluateDouble g k.dyn dens st p) := by
  refine ⟨fun F s' out h1 h2 y hy p hp => ?_, fun p hp => ?_⟩
  · rw [h1, h2, (C99_far_insertion k g hr exp st hst pose cloud s h dens _ (hy p hp)).1]
  · unfold evaluateDouble
    rw [(C99_far_insertion k g hr exp st hst pose cloud s h dens _ hp).1]

/-- **C131** (occupancy maps). The same for scans inserted into occupancy maps, plain or with the visibility test: no bundle that their hits and rays touch is equal or adjacent to the bundle of a moved point. -/
theorem C131_scans {n d : Nat} {M : Type} (k : Kind d) (g : Geo ℝ d) (hr : 0 < g.r) (defRay : Pt ℝ d → Pt ℝ d → List (Idx d)) (dummy : M) :
    (∀ (exp : Occ Nat (Pt ℝ d) → Bool) (st st' : St k.backend (Occ Nat (Pt ℝ d))) (_ : OccReachable (occFlavour ℝ d) k g defRay exp st) (ops : List (OccMapOp ℝ d Nat (Pt ℝ d)))
      (_ : occRun (occFlavour ℝ d) g k.dyn defRay exp ops st = some st') (dens : Multiset (Pt ℝ d) → Pt ℝ d → ℝ) (occ : M → Occ Nat (Pt ℝ d) → ℝ) (F : Functor n d) (s' : (Fin d → ℝ) → Fl ℝ) (out : _ → Fl ℝ),
      (∀ q, F.sample q = out (St.occSampleNNAt g k.dyn dens occ q (some dummy) st)) → (∀ q, s' q = out (St.occSampleNNAt g k.dyn dens occ q (some dummy) st')) → ∀ y : Fin n → ℝ,
      (∀ p ∈ F.points, ∀ bp, Spec.InBundle g.r bp (g.toMap (F.act y p)) → ∀ op ∈ ops, ∀ b, Spec.OpTouches g k defRay op b → ¬ Spec.Neighbour bp b) → SameScores F s' y) ∧
    (∀ (exp : Occ ℝ (Pt ℝ d × ℝ) → Bool) (st st' : St k.backend (Occ ℝ (Pt ℝ d × ℝ))) (_ : OccReachable (weightedFlavour ℝ d) k g defRay exp st) (ops : List (OccMapOp ℝ d ℝ (Pt ℝ d × ℝ)))
      (_ : occRun (weightedFlavour ℝ d) g k.dyn defRay exp ops st = some st') (dens : Multiset (Pt ℝ d × ℝ) → Pt ℝ d → ℝ) (occ : M → Occ ℝ (Pt ℝ d × ℝ) → ℝ) (F : Functor n d) (s' : (Fin d → ℝ) → Fl ℝ) (out : _ → Fl ℝ),
      (∀ q, F.sample q = out (St.occSampleNNAt g k.dyn dens occ q (some dummy) st)) → (∀ q, s' q = out (St.occSampleNNAt g k.dyn dens occ q (some dummy) st')) → ∀ y : Fin n → ℝ,
      (∀ p ∈ F.points, ∀ bp, Spec.InBundle g.r bp (g.toMap (F.act y p)) → ∀ op ∈ ops, ∀ b, Spec.OpTouches g k defRay op b → ¬ Spec.Neighbour bp b) → SameScores F s' y) := by
  refine ⟨fun exp st st' hst ops h dens occ F s' out h1 h2 y hy p hp => ?_, fun exp st st' hst ops h dens occ F s' out h1 h2 y hy p hp => ?_⟩ <;>
    have hb := (C01_bundle_contains_point hr (g.toMap (F.act y p)) _).1 rfl
  · rw [h1, h2, (C99_scans k g hr defRay exp st st' hst ops h _ _ hb (hy p hp _ hb) dens occ (some dummy)).1]
  · rw [h1, h2, (C99_scans_weighted k g hr defRay exp st st' hst ops h _ _ hb (hy p hp _ hb) dens occ (some dummy)).1]

theorem moved2_far {r ρ : ℝ} {t u : Fin 2 → ℝ} {α : ℝ} {p q : Fin 2 → ℝ} {a : Fin 2} (hd : √((t 0 - u 0) ^ 2 + (t 1 - u 1) ^ 2) ≤ ρ) (h : r + ρ + |p 0| + |p 1| ≤ |q a - u a|) : r ≤ |q a - moved2 t α p a| := by
  have h1 := abs_moved2_sub t α p a
  have h2 : |t a - u a| ≤ ρ := by
    refine le_trans ?_ hd
    rw [← sqrt_sq_eq_abs]
    refine sqrt_le_sqrt ?_
    fin_cases a
    · exact le_add_of_nonneg_right (sq_nonneg _)
    · exact le_add_of_nonneg_left (sq_nonneg _)
  have h3 : |q a - u a| ≤ |q a - moved2 t α p a| + |moved2 t α p a - t a| + |t a - u a| := by
    have := abs_add_three (q a - moved2 t α p a) (moved2 t α p a - t a) (t a - u a)
    rwa [show q a - moved2 t α p a + (moved2 t α p a - t a) + (t a - u a) = q a - u a by ring] at this
  linarith

/-- **C131** (distance). In 2D, for a map in world coordinates: points that are, in some coordinate, farther from the initial guess than the reach of the scan plus map weight / translation weight plus one resolution change nothing about the result:
inserting them leaves the best poses of nlopt and ceres and their costs alone. -/
theorem C131_distance (k : Kind 2) (g : Geo ℝ 2) (hr : 0 < g.r) (hg : g.toMap = id) (exp : Multiset (Pt ℝ 2) → Bool) (st : St k.backend (Multiset (Pt ℝ 2))) (hst : Reachable k g exp st) (pose : Pt ℝ 2 → Pt ℝ 2) (cloud : List (Pt ℝ 2))
    (s : St k.backend (Multiset (Pt ℝ 2))) (h : gridInsert g k.dyn pose cloud st = some s) (dens : Multiset (Pt ℝ 2) → Pt ℝ 2 → ℝ) :
    (∀ (F : Functor 3 2) (s' : (Fin 2 → ℝ) → Fl ℝ) (out : Option ℝ → Fl ℝ), AngleDif F.dif → UnitScores F → UnitScores (otherMap F s') → 0 ≤ F.mapW → 0 < F.transW → 0 ≤ F.rotW → F.points ≠ [] →
      (∀ x p, F.act x p = moved2 ![x 0, x 1] (x 2) p) → (∀ q, F.sample q = out (St.sampleNNAt g k.dyn dens q st)) → (∀ q, s' q = out (St.sampleNNAt g k.dyn dens q s)) →
      (∀ p ∈ F.points, ∀ q ∈ Spec.acceptedPoints g k pose cloud, ∃ a : Fin 2, g.r + F.mapW / F.transW + |p 0| + |p 1| ≤ |q a - ![F.guess 0, F.guess 1] a|) → SameBest F.nlopt2 (otherMap F s').nlopt2) ∧
    (∀ (tw rw' mw : ℝ) (prior : Fin 2 → ℝ) (priorR : ℝ) (numeric : Bool) (S S' : ScanTerm 2) (v v' : (Fin 2 → ℝ) → ℝ), tw ≠ 0 → S'.points = S.points →
      (∀ q, 0 ≤ v q ∧ v q ≤ 1 ∧ S.evaluateDouble q = .fin (v q) ∧ S.evaluateJet q = .fin (v q)) → (∀ q, 0 ≤ v' q ∧ v' q ≤ 1 ∧ S'.evaluateDouble q = .fin (v' q) ∧ S'.evaluateJet q = .fin (v' q)) →
      (∀ q, evaluateDouble g k.dyn dens st q = some (v q)) → (∀ q, evaluateDouble g k.dyn dens s q = some (v' q)) →
      (∀ p ∈ S.points, ∀ q ∈ Spec.acceptedPoints g k pose cloud, ∃ a : Fin 2, g.r + |mw| / |tw| + |p 0| + |p 1| ≤ |q a - prior a|) →
      ∃ f f' : (Fin 2 → ℝ) × (Fin 1 → ℝ) → ℝ, (∀ x, (problem2d tw rw' mw prior priorR numeric S).cost x.1 x.2 = .fin (f x)) ∧ (∀ x, (problem2d tw rw' mw prior priorR numeric S').cost x.1 x.2 = .fin (f' x)) ∧ SameBest f f') := by
  constructor
  · intro F s' out hd hu hu' hm ht hrot hp hact h1 h2 hfar
    refine C131_nlopt.1 F s' hd hu hu' hm hp fun y hy => (C131_map k g hr exp st hst pose cloud s h dens).1 F s' out h1 h2 y fun p hp' q hq => ?_
    obtain ⟨a, ha⟩ := hfar p hp' q hq
    refine ⟨a, ?_⟩
    rw [hg, hact, id]
    refine moved2_far (ρ := F.mapW / F.transW) ?_ ha
    rw [le_div_iff₀ ht, mul_comm]
    have := mul_nonneg hrot (abs_nonneg (F.dif (y 2) (F.guess 2)))
    exact le_trans (le_add_of_nonneg_right this) hy
  · intro tw rw' mw prior priorR numeric S S' v v' ht hS hv hv' h1 h2 hfar
    refine C131_ceres.1 tw rw' mw prior priorR numeric S S' v v' hS hv hv' fun t α e _ hy _ p hp => ?_
    have := (C131_map (n := 3) k g hr exp st hst pose cloud s h dens).2 (moved2 t α p) fun q hq => by
      obtain ⟨a, ha⟩ := hfar p hp q hq
      refine ⟨a, ?_⟩
      rw [hg, id]
      refine moved2_far (ρ := |mw| / |tw|) ?_ ha
      rw [le_div_iff₀ (abs_pos.2 ht), mul_comm]
      simpa [distSq, Fin.sum_univ_two] using hy
    rw [h1, h2] at this
    exact Option.some.inj this

/-- The hypotheses can be met: a static map with a point near the guess; then a point 45 units away is inserted. All hypotheses of the first part of `C131_distance` hold, and those of `C131_map` for every pose within the limits; the inserted point is
recorded by the map. -/
example : ∃ (k : Kind 2) (g : Geo ℝ 2) (st s : St k.backend (Multiset (Pt ℝ 2))) (cloud : List (Pt ℝ 2)) (dens : Multiset (Pt ℝ 2) → Pt ℝ 2 → ℝ) (F : Functor 3 2) (s' : (Fin 2 → ℝ) → Fl ℝ) (out : Option ℝ → Fl ℝ), 0 < g.r ∧ g.toMap = id ∧
    Reachable k g (fun _ => true) st ∧ gridInsert g k.dyn id cloud st = some s ∧ Spec.acceptedPoints g k id cloud ≠ 0 ∧ AngleDif F.dif ∧ UnitScores F ∧ UnitScores (otherMap F s') ∧ 0 ≤ F.mapW ∧ 0 < F.transW ∧ 0 ≤ F.rotW ∧
    F.points ≠ [] ∧ (∀ x p, F.act x p = moved2 ![x 0, x 1] (x 2) p) ∧ (∀ q, F.sample q = out (St.sampleNNAt g k.dyn dens q st)) ∧ (∀ q, s' q = out (St.sampleNNAt g k.dyn dens q s)) ∧
    (∀ p ∈ F.points, ∀ q ∈ Spec.acceptedPoints g k id cloud, ∃ a : Fin 2, g.r + F.mapW / F.transW + |p 0| + |p 1| ≤ |q a - ![F.guess 0, F.guess 1] a|) := by
  let k : Kind 2 := .static (fun _ => 64) (fun _ => 0)
  let g : Geo ℝ 2 := { r := 1, toMap := id, normal := fun _ => true }
  let out : Option ℝ → Fl ℝ := fun o => .fin (o.getD 0)
  let dens : Multiset (Pt ℝ 2) → Pt ℝ 2 → ℝ := fun s _ => if s.card = 0 then 0 else 1
  have hdens : ∀ s q, 0 ≤ dens s q ∧ dens s q ≤ 1 := fun s q => by
    show 0 ≤ (if s.card = 0 then (0 : ℝ) else 1) ∧ (if s.card = 0 then (0 : ℝ) else 1) ≤ 1
    split <;> norm_num
  obtain ⟨st, hst⟩ := gridRun_total k.lawful g k.dyn (fun _ => true) [.insert id [![5, 5]]] _ k.init_rinv (fun j h => Kind.static_good _ _ _ h)
  obtain ⟨s, hs⟩ := gridRun_total k.lawful g k.dyn (fun _ => true) [.insert id [![5, 5]], .insert id [![50, 5]]] _ k.init_rinv (fun j h => Kind.static_good _ _ _ h)
  have hins : gridInsert g k.dyn id [![50, 5]] st = some s := by
    obtain ⟨s1, e1, e2⟩ := Option.bind_eq_some_iff.1 (show (gridStep g k.dyn _ (.insert id [![5, 5]]) _).bind _ = some s from hs)
    obtain ⟨s2, e3, e4⟩ := Option.bind_eq_some_iff.1 (show (gridStep g k.dyn _ (.insert id [![5, 5]]) _).bind _ = some st from hst)
    obtain rfl : s2 = st := Option.some.inj e4
    obtain rfl : s1 = s2 := Option.some.inj (e1.symm.trans e3)
    obtain ⟨s3, e5, e6⟩ := Option.bind_eq_some_iff.1 (show (gridStep g k.dyn _ (.insert id [![50, 5]]) s1).bind _ = some s from e2)
    obtain rfl : s3 = s := Option.some.inj e6
    exact e5
  have hunit : ∀ (s : St k.backend (Multiset (Pt ℝ 2))), Reachable k g (fun _ => true) s → ∀ q x, out (St.sampleNNAt g k.dyn dens q s) = .fin x → 0 ≤ x ∧ x ≤ 1 := by
    rintro s ⟨ops, hops⟩ q x hx
    cases e : St.sampleNNAt g k.dyn dens q s with
    | none =>
      rw [e] at hx
      obtain rfl : (0 : ℝ) = x := Fl.fin.inj hx
      norm_num
    | some y =>
      rw [e] at hx
      obtain rfl : y = x := Fl.fin.inj hx
      exact C24_sample_in_unit_interval k g one_pos _ ops s hops dens hdens q y e
  let F : Functor 3 2 := { points := [0], sample := fun q => out (St.sampleNNAt g k.dyn dens q st), act := fun x p => moved2 ![x 0, x 1] (x 2) p, dif := angleDifference, guess := ![5, 5, 0], transW := 1, rotW := 1, mapW := 1,
                           tiny := 1 / 1000 }
  refine ⟨k, g, st, s, [![50, 5]], dens, F, fun q => out (St.sampleNNAt g k.dyn dens q s), out, one_pos, rfl, ⟨_, hst⟩, hins, ?_, (oneStep_met 1 1).2, hunit st ⟨_, hst⟩, hunit s ⟨_, hs⟩, zero_le_one, one_pos, zero_le_one,
    by simp [F], fun _ _ => rfl, fun _ => rfl, fun _ => rfl, ?_⟩
  · classical
    intro h0
    have hmem : ![50, 5] ∉ Spec.acceptedPoints g k id [![50, 5]] := by rw [h0]; exact Multiset.notMem_zero _
    refine hmem (Multiset.mem_filter.2 ⟨?_, ?_⟩)
    · simp [g]
    · intro a
      fin_cases a
      · refine ⟨?_, ?_⟩
        · show ((0 : Int) : ℝ) * (1 / 2) ≤ 50
          norm_num
        · show (50 : ℝ) < (((0 : Int) : ℝ) + 2 * ((64 : Nat) : ℝ) - 1) * (1 / 2)
          norm_num
      · refine ⟨?_, ?_⟩
        · show ((0 : Int) : ℝ) * (1 / 2) ≤ 5
          norm_num
        · show (5 : ℝ) < (((0 : Int) : ℝ) + 2 * ((64 : Nat) : ℝ) - 1) * (1 / 2)
          norm_num
  · intro p hp q hq
    classical
    obtain rfl : p = 0 := by simpa [F] using hp
    have hq1 := (Multiset.mem_filter.1 hq).1
    have hq2 : q = ![50, 5] := by simpa [g] using hq1
    subst hq2
    refine ⟨0, ?_⟩
    show (1 : ℝ) + 1 / 1 + |(0 : ℝ)| + |(0 : ℝ)| ≤ |50 - 5|
    norm_num

/-- and with quaternions: two maps that differ 100 units away from the guess -/
example : ∃ (F : Functor 7 3) (s' : (Fin 3 → ℝ) → Fl ℝ), (∀ a b, |F.dif a b| ≤ π) ∧ UnitScores F ∧ UnitScores (otherMap F s') ∧ 0 < F.mapW ∧ 0 < F.rotW ∧ F.points ≠ [] ∧ F.guess 3 ^ 2 + F.guess 4 ^ 2 + F.guess 5 ^ 2 + F.guess 6 ^ 2 = 1 ∧
    (∃ y, ¬ SameScores F s' y) ∧
    (∀ y : Fin 7 → ℝ, F.transW * √((y 0 - F.guess 0) ^ 2 + (y 1 - F.guess 1) ^ 2 + (y 2 - F.guess 2) ^ 2) ≤ F.mapW + F.rotW * √(3 * π ^ 2) → SameScores F s' y) ∧
    (∀ y : Fin 7 → ℝ, y 3 ^ 2 + y 4 ^ 2 + y 5 ^ 2 + y 6 ^ 2 = 1 → F.transW ^ 2 * ((y 0 - F.guess 0) ^ 2 + (y 1 - F.guess 1) ^ 2 + (y 2 - F.guess 2) ^ 2) ≤ F.mapW ^ 2 / (F.points.length : ℝ) → SameScores F s' y) := by
  let F : Functor 7 3 := { points := [0], sample := fun _ => .fin 0, act := fun x p => moved3 (translationOf x) (quatOf x) p, dif := angleDifference, guess := ![0, 0, 0, 0, 0, 0, 1], transW := 1, rotW := 1, mapW := 1, tiny := 1 / 1000 }
  have hact : ∀ y : Fin 7 → ℝ, F.act y 0 0 = y 0 := fun y => by
    show (quatOf y).rotate 0 0 + translationOf y 0 = y 0
    simp [Quat.rotate, Quat.mul, Quat.inv, translationOf]
  have hsame : ∀ y : Fin 7 → ℝ, y 0 < 100 → SameScores F (fun q => if 100 ≤ q 0 then .fin 1 else .fin 0) y := by
    intro y hy p hp
    obtain rfl : p = 0 := by simpa [F] using hp
    show (if 100 ≤ F.act y 0 0 then Fl.fin (1 : ℝ) else .fin 0) = .fin 0
    rw [hact, if_neg (not_le.2 hy)]
  have hle : ∀ y : Fin 7 → ℝ, y 0 ≤ √((y 0 - F.guess 0) ^ 2 + (y 1 - F.guess 1) ^ 2 + (y 2 - F.guess 2) ^ 2) := fun y => by
    refine le_sqrt_of_sq_le ?_
    have e : F.guess 0 = 0 := rfl
    rw [e]
    nlinarith [sq_nonneg (y 1 - F.guess 1), sq_nonneg (y 2 - F.guess 2)]
  refine ⟨F, fun q => if 100 ≤ q 0 then .fin 1 else .fin 0, fun a b => (C44_angle_difference a b).2.1, ?_, ?_, one_pos, one_pos, by simp [F], by simp [F], ⟨![100, 0, 0, 0, 0, 0, 1], fun h => ?_⟩, fun y hy => hsame y ?_, fun y _ hy => hsame y ?_⟩
  · intro q x hx
    obtain rfl : (0 : ℝ) = x := Fl.fin.inj hx
    norm_num
  · intro q x hx
    have hx : (if 100 ≤ q 0 then Fl.fin (1 : ℝ) else .fin 0) = .fin x := hx
    split at hx
    · obtain rfl : (1 : ℝ) = x := Fl.fin.inj hx
      norm_num
    · obtain rfl : (0 : ℝ) = x := Fl.fin.inj hx
      norm_num
  · have h1 := h 0 (by simp [F])
    have h1 : (if 100 ≤ F.act ![100, 0, 0, 0, 0, 0, 1] 0 0 then Fl.fin (1 : ℝ) else .fin 0) = .fin 0 := h1
    rw [hact, if_pos (by norm_num)] at h1
    exact one_ne_zero (Fl.fin.inj h1)
  · have h1 : (1 : ℝ) * √((y 0 - F.guess 0) ^ 2 + (y 1 - F.guess 1) ^ 2 + (y 2 - F.guess 2) ^ 2) ≤ 1 + 1 * √(3 * π ^ 2) := hy
    have h2 : √(3 * π ^ 2) ≤ 8 := by
      rw [sqrt_le_left (by norm_num)]
      nlinarith [pi_le_four, pi_pos]
    linarith [hle y]
  · have h1 : (1 : ℝ) ^ 2 * ((y 0 - F.guess 0) ^ 2 + (y 1 - F.guess 1) ^ 2 + (y 2 - F.guess 2) ^ 2) ≤ 1 ^ 2 / (([0] : List (Fin 3 → ℝ)).length : ℝ) := hy
    have h2 : √((y 0 - F.guess 0) ^ 2 + (y 1 - F.guess 1) ^ 2 + (y 2 - F.guess 2) ^ 2) ≤ 1 := by
      rw [sqrt_le_left zero_le_one]
      simpa using h1
    linarith [hle y]

end Ndt
