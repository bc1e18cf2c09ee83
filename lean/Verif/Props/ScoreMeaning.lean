import Verif.Props.NoInformation

/-! Property theorem C130: what the score of a match says about the scan. -/

namespace Ndt

open Real Matching Spec

open scoped Classical in
/-- What a score should say about the scores `s` that the map gives to the moved points. It is between 0 and 1. It is 0 exactly if no point gets a score, and 1 exactly if every point gets the score 1. At most the share `score / τ` of the points gets a score of `τ` or
more, and at most the share `(1 - score) / (1 - τ)` gets less. -/
def Spec.TellsFit {α : Type} (score tiny : ℝ) (points : List α) (s : α → Fl ℝ) : Prop :=
  0 ≤ score ∧ score ≤ 1 ∧ (score = 0 ↔ ∀ p ∈ points, Fl.isNormal tiny (s p) = false) ∧ (score = 1 ↔ ∀ p ∈ points, s p = .fin 1) ∧
  ∀ τ : ℝ, 0 < τ → τ < 1 →
    ((points.filter fun p => τ ≤ properScore tiny (s p)).length : ℝ) / points.length ≤ score / τ ∧ ((points.filter fun p => properScore tiny (s p) < τ).length : ℝ) / points.length ≤ (1 - score) / (1 - τ)

theorem properScore_unit {tiny : ℝ} {s : Fl ℝ} (h : ∀ x, s = .fin x → 0 ≤ x ∧ x ≤ 1) : 0 ≤ properScore tiny s ∧ properScore tiny s ≤ 1 := by
  have := (pointCost_unit (tiny := tiny) h).1
  rw [pointCost_eq] at this
  constructor <;> linarith

theorem properScore_eq_zero {tiny : ℝ} (ht : 0 < tiny) (s : Fl ℝ) : properScore tiny s = 0 ↔ Fl.isNormal tiny s = false := by
  match s with
  | .nan => simp [properScore, Fl.isNormal]
  | .inf b => simp [properScore, Fl.isNormal]
  | .fin x =>
    by_cases h : tiny ≤ |x|
    · simp only [properScore, Fl.isNormal, h, if_true, decide_true]
      simp only [Bool.true_eq_false, iff_false]
      rintro rfl
      rw [abs_zero] at h
      linarith
    · simp [properScore, Fl.isNormal, h]

theorem properScore_eq_one {tiny : ℝ} (ht : tiny ≤ 1) (s : Fl ℝ) : properScore tiny s = 1 ↔ s = .fin 1 := by
  match s with
  | .nan => simp [properScore]
  | .inf b => simp [properScore]
  | .fin x =>
    by_cases h : tiny ≤ |x|
    · simp [properScore, h]
    · simp only [properScore, h, if_false, Fl.fin.injEq]
      constructor
      · intro e; norm_num at e
      · rintro rfl; rw [abs_one] at h; exact absurd ht h

theorem sum_eq_zero_iff_unit {α : Type} (l : List α) (v : α → ℝ) (h : ∀ p ∈ l, 0 ≤ v p) : (l.map v).sum = 0 ↔ ∀ p ∈ l, v p = 0 := by
  induction l with
  | nil => simp
  | cons a l ih =>
    have h0 := h a List.mem_cons_self
    have h1 : 0 ≤ (l.map v).sum := List.sum_nonneg fun x hx => by
      obtain ⟨p, hp, rfl⟩ := List.mem_map.1 hx
      exact h p (List.mem_cons_of_mem _ hp)
    rw [List.map_cons, List.sum_cons, List.forall_mem_cons, ← ih fun p hp => h p (List.mem_cons_of_mem _ hp)]
    constructor
    · intro e; constructor <;> linarith
    · rintro ⟨a, b⟩; linarith

open scoped Classical in
theorem markov {α : Type} (l : List α) (v : α → ℝ) (h : ∀ p ∈ l, 0 ≤ v p ∧ v p ≤ 1) (τ : ℝ) (h0 : 0 < τ) (h1 : τ < 1) :
    τ * (l.filter fun p => τ ≤ v p).length ≤ (l.map v).sum ∧ (1 - τ) * (l.filter fun p => v p < τ).length ≤ l.length - (l.map v).sum := by
  induction l with
  | nil => simp
  | cons a l ih =>
    obtain ⟨i1, i2⟩ := ih fun p hp => h p (List.mem_cons_of_mem _ hp)
    obtain ⟨a0, a1⟩ := h a List.mem_cons_self
    rw [List.map_cons, List.sum_cons, List.length_cons, Nat.cast_succ]
    by_cases ha : τ ≤ v a
    · rw [List.filter_cons_of_pos (by simpa using ha), List.filter_cons_of_neg (by simpa using ha), List.length_cons, Nat.cast_succ]
      constructor <;> linarith
    · rw [List.filter_cons_of_neg (by simpa using ha), List.filter_cons_of_pos (by simpa using ha), List.length_cons, Nat.cast_succ]
      constructor <;> linarith [not_le.1 ha]

theorem tellsFit_mean {α : Type} (tiny : ℝ) (h0 : 0 < tiny) (h1 : tiny ≤ 1) (points : List α) (hp : points ≠ []) (s : α → Fl ℝ) (hs : ∀ p x, s p = .fin x → 0 ≤ x ∧ x ≤ 1) :
    TellsFit (mean (points.map fun p => properScore tiny (s p))) tiny points s := by
  have hu : ∀ p ∈ points, 0 ≤ properScore tiny (s p) ∧ properScore tiny (s p) ≤ 1 := fun p _ => properScore_unit (hs p)
  have hN : (0 : ℝ) < points.length := Nat.cast_pos.2 (List.length_pos_iff.2 hp)
  obtain ⟨s0, s1⟩ := sum_unit points (fun p => properScore tiny (s p)) hu
  unfold TellsFit mean
  rw [List.length_map]
  refine ⟨div_nonneg s0 hN.le, (div_le_one hN).2 s1, ?_, ?_, fun τ t0 t1 => ?_⟩
  · rw [div_eq_zero_iff, or_iff_left hN.ne', sum_eq_zero_iff_unit _ _ fun p hp => (hu p hp).1]
    exact forall_congr' fun p => forall_congr' fun _ => properScore_eq_zero h0 _
  · rw [div_eq_one_iff_eq hN.ne']
    have e := sum_eq_zero_iff_unit points (fun p => 1 - properScore tiny (s p)) fun p hp => by linarith [(hu p hp).2]
    rw [sum_one_sub] at e
    rw [show (points.map fun p => properScore tiny (s p)).sum = points.length ↔ (points.length : ℝ) - (points.map fun p => properScore tiny (s p)).sum = 0 from ⟨fun h => by linarith, fun h => by linarith⟩, e]
    exact forall_congr' fun p => forall_congr' fun _ => by rw [← properScore_eq_one h1, sub_eq_zero, eq_comm]
  · obtain ⟨m1, m2⟩ := markov points _ hu τ t0 t1
    constructor
    · rw [div_le_div_iff₀ hN t0, div_mul_cancel₀ _ hN.ne']
      linarith
    · rw [div_le_div_iff₀ hN (by linarith), sub_mul, div_mul_cancel₀ _ hN.ne']
      linarith

/-- **C130** (nlopt on NDT maps). The score that is reported tells the fit, in 2D, with Euler angles and with quaternions. -/
theorem C130_nlopt :
    (∀ (F : Functor 3 2) (x : Fin 3 → ℝ), F.mapW ≠ 0 → F.points ≠ [] → UnitScores F → 0 < F.tiny → F.tiny ≤ 1 → TellsFit (F.nloptScore2 x (F.nlopt2 x)) F.tiny F.points fun p => F.sample (F.act x p)) ∧
    (∀ (F : Functor 6 3) (x : Fin 6 → ℝ), F.mapW ≠ 0 → F.points ≠ [] → UnitScores F → 0 < F.tiny → F.tiny ≤ 1 → TellsFit (F.nloptScoreRPY x (F.nloptRPY x)) F.tiny F.points fun p => F.sample (F.act x p)) ∧
    (∀ (roll pitch yaw : Quat → ℝ) (F : Functor 7 3) (x : Fin 7 → ℝ), F.mapW ≠ 0 → F.points ≠ [] → UnitScores F → 0 < F.tiny → F.tiny ≤ 1 →
      TellsFit (F.nloptScoreQuat roll pitch yaw x (F.nloptQuat roll pitch yaw x)) F.tiny F.points fun p => F.sample (F.act x p)) := by
  obtain ⟨k1, k2, k3⟩ := C48_nlopt
  refine ⟨fun F x hw hp hu h0 h1 => ?_, fun F x hw hp hu h0 h1 => ?_, fun roll pitch yaw F x hw hp hu h0 h1 => ?_⟩
  · rw [k1 F x hw hp]; exact tellsFit_mean F.tiny h0 h1 F.points hp _ fun p => hu _
  · rw [k2 F x hw hp]; exact tellsFit_mean F.tiny h0 h1 F.points hp _ fun p => hu _
  · rw [k3 roll pitch yaw F x hw hp]; exact tellsFit_mean F.tiny h0 h1 F.points hp _ fun p => hu _

/-- **C130** (alglib, NDT and occupancy maps). The same in 2D, with Euler angles and with quaternions. -/
theorem C130_alglib :
    (∀ (F : Functor 3 2) (x : Fin 3 → ℝ), F.mapW ≠ 0 → F.points ≠ [] → UnitScores F → 0 < F.tiny → F.tiny ≤ 1 → TellsFit (F.alglibScore (F.alglib2 x)) F.tiny F.points fun p => F.sample (F.act x p)) ∧
    (∀ (F : Functor 6 3) (x : Fin 6 → ℝ), F.mapW ≠ 0 → F.points ≠ [] → UnitScores F → 0 < F.tiny → F.tiny ≤ 1 → TellsFit (F.alglibScore (F.alglibRPY x)) F.tiny F.points fun p => F.sample (F.act x p)) ∧
    (∀ (F : Functor 7 3) (x : Fin 7 → ℝ), F.mapW ≠ 0 → F.points ≠ [] → UnitScores F → 0 < F.tiny → F.tiny ≤ 1 → TellsFit (F.alglibScore (F.alglibQuat x)) F.tiny F.points fun p => F.sample (F.act x p)) := by
  obtain ⟨k1, k2, k3⟩ := C48_alglib
  refine ⟨fun F x hw hp hu h0 h1 => ?_, fun F x hw hp hu h0 h1 => ?_, fun F x hw hp hu h0 h1 => ?_⟩
  · rw [k1 F x hw hp]; exact tellsFit_mean F.tiny h0 h1 F.points hp _ fun p => hu _
  · rw [k2 F x hw hp]; exact tellsFit_mean F.tiny h0 h1 F.points hp _ fun p => hu _
  · rw [k3 F x hw hp]; exact tellsFit_mean F.tiny h0 h1 F.points hp _ fun p => hu _

/-- **C130** is false of nlopt on occupancy maps: in 3D a scan of which no point meets the map gets the perfect score 1, at every pose and with every weights. In 2D, at the initial guess, such a scan gets the score `1 - 1 / (4 n)` for `n` points. -/
theorem C130_occupancy_refuted :
    (∀ (F : Functor 6 3) (x : Fin 6 → ℝ), F.mapW ≠ 0 → F.points ≠ [] → NoScore F x → F.nloptOccScoreRPY x (F.nloptOccRPY x) = 1) ∧
    (∀ (roll pitch yaw : Quat → ℝ) (F : Functor 7 3) (x : Fin 7 → ℝ), F.mapW ≠ 0 → F.points ≠ [] → NoScore F x → F.nloptOccScoreQuat roll pitch yaw x (F.nloptOccQuat roll pitch yaw x) = 1) ∧
    (∀ F : Functor 3 2, AngleDif F.dif → F.mapW ≠ 0 → F.points ≠ [] → NoScore F F.guess → F.nloptOccScore2 F.guess (F.nloptOcc2 F.guess) = 1 - 1 / (4 * F.points.length)) := by
  refine ⟨fun F x hw hp h => ?_, fun roll pitch yaw F x hw hp h => ?_, fun F hd hw hp h => ?_⟩
  · refine (unweighted_weighted F hw _ _ _).trans ?_
    rw [(noScore_sum F x h).2, zero_div, sub_zero]
  · refine (unweighted_weighted F hw _ _ _).trans ?_
    rw [(noScore_sum F x h).2, zero_div, sub_zero]
  · have hN : (F.points.length : ℝ) ≠ 0 := Nat.cast_ne_zero.2 fun h => hp (List.length_eq_zero_iff.1 h)
    have ht : F.trans2 F.guess = 0 := hypot2_eq_zero.2 ⟨sub_self _, sub_self _⟩
    have hr : F.rot2 F.guess = 0 := (hd _ _).2 (sameAngle_refl _)
    have e : F.nloptOcc2 F.guess = F.mapW / (4 * F.points.length) := by
      unfold Functor.nloptOcc2
      simp only []
      rw [hr, foldl_add_eq, List.map_congr_left fun p hp => by
        show _ = 1 / 2 * F.mapW * (1 / (F.points.length : ℝ) * (1 / (F.points.length : ℝ)))
        unfold pointCost
        rw [h p hp]
        rfl]
      simp
      field_simp
      norm_num
    unfold Functor.nloptOccScore2 Functor.unweighted
    rw [ht, hr, e]
    simp
    field_simp

/-- the hypotheses of the theorems can be met -/
example : ∃ F : Functor 3 2, F.mapW ≠ 0 ∧ F.points ≠ [] ∧ UnitScores F ∧ 0 < F.tiny ∧ F.tiny ≤ 1 ∧ (∃ x, F.nloptScore2 x (F.nlopt2 x) = 0) ∧ ∃ x, F.nloptScore2 x (F.nlopt2 x) = 1 := by
  have hu : UnitScores (oneStep 1 2) := (oneStep_met 1 2).1
  have hp : (oneStep 1 2).points ≠ [] := by simp [oneStep]
  have hw : (oneStep 1 2).mapW ≠ 0 := by norm_num [oneStep]
  have t0 : 0 < (oneStep 1 2).tiny := by norm_num [oneStep]
  have t1 : (oneStep 1 2).tiny ≤ 1 := by norm_num [oneStep]
  refine ⟨oneStep 1 2, hw, hp, hu, t0, t1, ⟨0, ?_⟩, ⟨![1, 0, 0], ?_⟩⟩
  · refine (C130_nlopt.1 _ _ hw hp hu t0 t1).2.2.1.2 fun p hp => ?_
    have hp : p = 0 := by simpa [oneStep] using hp
    subst hp
    norm_num [oneStep, Fl.isNormal]
  · refine (C130_nlopt.1 _ _ hw hp hu t0 t1).2.2.2.1.2 fun p hp => ?_
    have hp : p = 0 := by simpa [oneStep] using hp
    subst hp
    norm_num [oneStep]

/-- a scan outside of the map, with nlopt on occupancy maps -/
example : ∃ (F : Functor 6 3) (x : Fin 6 → ℝ), F.mapW ≠ 0 ∧ F.points ≠ [] ∧ NoScore F x := ⟨onePoint 6 3 .nan, 0, one_ne_zero, by simp [onePoint], fun _ _ => rfl⟩

end Ndt
