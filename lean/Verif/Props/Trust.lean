import Verif.Props.Problem
import Verif.Props.MatchingMore
import Verif.Props.Sampling
import Verif.Props.OccMap
import Verif.Props.MatchFrame

/-!
Property theorem C124: the weights limit how far scan matching can leave the initial guess. A solver returns a pose that is not worse than the pose it started from; which one is not modelled. Map values and scores lie between 0 and 1
(`C124_values`), so the map term can change by at most its weight.
-/

namespace Ndt

open Real Matching Spec

theorem mean_sq_unit {α : Type} (l : List α) (v : α → ℝ) (h : ∀ p ∈ l, 0 ≤ v p ∧ v p ≤ 1) : 0 ≤ mean (l.map fun p => v p ^ 2) ∧ mean (l.map fun p => v p ^ 2) ≤ 1 := by
  unfold mean
  rw [List.length_map]
  have h0 : 0 ≤ (l.map fun p => v p ^ 2).sum := List.sum_nonneg fun x hx => by
    obtain ⟨p, _, rfl⟩ := List.mem_map.1 hx
    exact sq_nonneg _
  have h1 : (l.map fun p => v p ^ 2).sum ≤ (l.length : ℝ) := by
    have := List.sum_le_card_nsmul (l.map fun p => v p ^ 2) 1 fun x hx => by
      obtain ⟨p, hp, rfl⟩ := List.mem_map.1 hx
      exact pow_le_one₀ (h p hp).1 (h p hp).2
    simpa using this
  exact ⟨div_nonneg h0 (Nat.cast_nonneg _), div_le_one_of_le₀ h1 (Nat.cast_nonneg _)⟩

theorem mean_sq_nonneg {α : Type} (l : List α) (v : α → ℝ) : 0 ≤ mean (l.map fun p => v p ^ 2) := by
  unfold mean
  exact div_nonneg (List.sum_nonneg fun x hx => by
    obtain ⟨p, _, rfl⟩ := List.mem_map.1 hx
    exact sq_nonneg _) (Nat.cast_nonneg _)

theorem abs_mul_sqrt_le {a b m : ℝ} (h : a ^ 2 * b ≤ m ^ 2) : |a| * √b ≤ |m| := by
  rw [← sqrt_sq_eq_abs a, ← sqrt_sq_eq_abs m, ← sqrt_mul (sq_nonneg a)]
  exact sqrt_le_sqrt h

theorem sameAngle_self_zero {e a : ℝ} (h1 : |e| ≤ π) (h2 : SameAngle e (a - a)) : e = 0 :=
  eq_of_sameAngle (by rwa [sub_self] at h2) (by rw [sub_zero]; linarith [pi_pos])

/-- **C124** (ceres, 2D). If a pose is not worse than the prior pose (translation `prior`, rotation `priorR`), where the map values `v₀` at the prior pose are between 0 and 1, then the weighted squared distances from the prior, in translation
and in angle, add up to at most the squared map weight times the improvement of the mean squared map value. So the translation moves by at most map weight / translation weight and the rotation by at most map weight / rotation weight. -/
theorem C124_ceres_2d (tw rw' mw : ℝ) (prior : Fin 2 → ℝ) (priorR : ℝ) (numeric : Bool) (S : ScanTerm 2) (t : Fin 2 → ℝ) (r : Fin 1 → ℝ) (v₀ v : (Fin 2 → ℝ) → ℝ)
    (h0 : ∀ p ∈ S.points, 0 ≤ v₀ p ∧ v₀ p ≤ 1)
    (hv₀ : ∀ p ∈ S.points, S.evaluateDouble (moved2 prior priorR p) = .fin (v₀ p) ∧ S.evaluateJet (moved2 prior priorR p) = .fin (v₀ p))
    (hv : ∀ p ∈ S.points, S.evaluateDouble (moved2 t (r 0) p) = .fin (v p) ∧ S.evaluateJet (moved2 t (r 0) p) = .fin (v p)) (c c₀ : ℝ)
    (hc : (problem2d tw rw' mw prior priorR numeric S).cost t r = .fin c) (hc₀ : (problem2d tw rw' mw prior priorR numeric S).cost prior ![priorR] = .fin c₀) (hle : c ≤ c₀) :
    ∃ e, |e| ≤ π ∧ SameAngle e (priorR - r 0) ∧
      tw ^ 2 * distSq t prior + rw' ^ 2 * e ^ 2 ≤ mw ^ 2 * (mean (S.points.map fun p => v₀ p ^ 2) - mean (S.points.map fun p => v p ^ 2)) ∧
      |tw| * √(distSq t prior) ≤ |mw| ∧ |rw'| * |e| ≤ |mw| := by
  obtain ⟨e, h1, h2, h3⟩ := C75_cost_2d tw rw' mw prior priorR numeric S t r v fun _ => hv
  obtain ⟨e', h1', h2', h3'⟩ := C75_cost_2d tw rw' mw prior priorR numeric S prior ![priorR] v₀ fun _ => hv₀
  have he := sameAngle_self_zero h1' h2'
  rw [hc] at h3
  rw [hc₀, he] at h3'
  have k1 := Fl.fin.inj h3
  have k2 := Fl.fin.inj h3'
  have hz : distSq prior prior = 0 := by simp [distSq]
  rw [hz] at k2
  have hd : 0 ≤ distSq t prior := Finset.sum_nonneg fun i _ => sq_nonneg _
  have hm := mean_sq_unit S.points v₀ h0
  have hn := mean_sq_nonneg S.points v
  have hmain : tw ^ 2 * distSq t prior + rw' ^ 2 * e ^ 2 ≤ mw ^ 2 * (mean (S.points.map fun p => v₀ p ^ 2) - mean (S.points.map fun p => v p ^ 2)) := by linarith
  have hw : mw ^ 2 * (mean (S.points.map fun p => v₀ p ^ 2) - mean (S.points.map fun p => v p ^ 2)) ≤ mw ^ 2 * 1 := mul_le_mul_of_nonneg_left (by linarith [hm.2]) (sq_nonneg _)
  have a1 := mul_nonneg (sq_nonneg tw) hd
  have a2 := mul_nonneg (sq_nonneg rw') (sq_nonneg e)
  refine ⟨e, h1, h2, hmain, abs_mul_sqrt_le (by linarith), ?_⟩
  have := abs_mul_sqrt_le (a := rw') (b := e ^ 2) (m := mw) (by linarith)
  rwa [sqrt_sq_eq_abs] at this

/-- **C124** (ceres, 3D with Euler angles). The same with one angle per component. -/
theorem C124_ceres_rpy (tw rw' mw : ℝ) (prior priorR : Fin 3 → ℝ) (onlyYaw numeric : Bool) (S : ScanTerm 3) (t r : Fin 3 → ℝ) (v₀ v : (Fin 3 → ℝ) → ℝ)
    (h0 : ∀ p ∈ S.points, 0 ≤ v₀ p ∧ v₀ p ≤ 1)
    (hv₀ : ∀ p ∈ S.points, S.evaluateDouble (movedRPY prior priorR p) = .fin (v₀ p) ∧ S.evaluateJet (movedRPY prior priorR p) = .fin (v₀ p))
    (hv : ∀ p ∈ S.points, S.evaluateDouble (movedRPY t r p) = .fin (v p) ∧ S.evaluateJet (movedRPY t r p) = .fin (v p)) (c c₀ : ℝ)
    (hc : (problem3dRPY tw rw' mw prior priorR onlyYaw numeric S).cost t r = .fin c) (hc₀ : (problem3dRPY tw rw' mw prior priorR onlyYaw numeric S).cost prior priorR = .fin c₀) (hle : c ≤ c₀) :
    ∃ e : Fin 3 → ℝ, (∀ i, |e i| ≤ π ∧ SameAngle (e i) (priorR i - r i)) ∧
      tw ^ 2 * distSq t prior + rw' ^ 2 * ∑ i, e i ^ 2 ≤ mw ^ 2 * (mean (S.points.map fun p => v₀ p ^ 2) - mean (S.points.map fun p => v p ^ 2)) ∧
      |tw| * √(distSq t prior) ≤ |mw| ∧ |rw'| * √(∑ i, e i ^ 2) ≤ |mw| := by
  obtain ⟨e, h1, h3⟩ := C75_cost_rpy tw rw' mw prior priorR onlyYaw numeric S t r v fun _ => hv
  obtain ⟨e', h1', h3'⟩ := C75_cost_rpy tw rw' mw prior priorR onlyYaw numeric S prior priorR v₀ fun _ => hv₀
  have he : ∑ i, e' i ^ 2 = 0 := Finset.sum_eq_zero fun i _ => by rw [sameAngle_self_zero (h1' i).1 (h1' i).2]; ring
  rw [hc] at h3
  rw [hc₀, he] at h3'
  have k1 := Fl.fin.inj h3
  have k2 := Fl.fin.inj h3'
  have hz : distSq prior prior = 0 := by simp [distSq]
  rw [hz] at k2
  have hd : 0 ≤ distSq t prior := Finset.sum_nonneg fun i _ => sq_nonneg _
  have hs : 0 ≤ ∑ i, e i ^ 2 := Finset.sum_nonneg fun i _ => sq_nonneg _
  have hm := mean_sq_unit S.points v₀ h0
  have hn := mean_sq_nonneg S.points v
  have hmain : tw ^ 2 * distSq t prior + rw' ^ 2 * ∑ i, e i ^ 2 ≤ mw ^ 2 * (mean (S.points.map fun p => v₀ p ^ 2) - mean (S.points.map fun p => v p ^ 2)) := by linarith
  have hw : mw ^ 2 * (mean (S.points.map fun p => v₀ p ^ 2) - mean (S.points.map fun p => v p ^ 2)) ≤ mw ^ 2 * 1 := mul_le_mul_of_nonneg_left (by linarith [hm.2]) (sq_nonneg _)
  have a1 := mul_nonneg (sq_nonneg tw) hd
  have a2 := mul_nonneg (sq_nonneg rw') hs
  exact ⟨e, h1, hmain, abs_mul_sqrt_le (by linarith), abs_mul_sqrt_le (by linarith)⟩

/-- **C124** (ceres, 3D with quaternions, partial). The translation is limited in the same way. (Missing: the limit for the rotation, see `C124_quaternion_refuted`.) -/
theorem C124_ceres_quaternion_partial (tw rw' mw : ℝ) (prior : Fin 3 → ℝ) (priorR : Quat) (onlyYaw numeric : Bool) (S : ScanTerm 3) (t : Fin 3 → ℝ) (q : Quat) (v₀ v : (Fin 3 → ℝ) → ℝ)
    (hp : quatNormSq priorR = 1) (hq : quatNormSq q = 1) (h0 : ∀ p ∈ S.points, 0 ≤ v₀ p ∧ v₀ p ≤ 1)
    (hv₀ : ∀ p ∈ S.points, S.evaluateDouble (moved3 prior priorR p) = .fin (v₀ p) ∧ S.evaluateJet (moved3 prior priorR p) = .fin (v₀ p))
    (hv : ∀ p ∈ S.points, S.evaluateDouble (moved3 t q p) = .fin (v p) ∧ S.evaluateJet (moved3 t q p) = .fin (v p)) (c c₀ : ℝ)
    (hc : (problem3dQuaternion tw rw' mw prior priorR onlyYaw numeric S).cost t q = .fin c) (hc₀ : (problem3dQuaternion tw rw' mw prior priorR onlyYaw numeric S).cost prior priorR = .fin c₀) (hle : c ≤ c₀) :
    tw ^ 2 * distSq t prior ≤ mw ^ 2 * (mean (S.points.map fun p => v₀ p ^ 2) - mean (S.points.map fun p => v p ^ 2)) ∧ |tw| * √(distSq t prior) ≤ |mw| := by
  have h3 := C75_cost_quaternion_partial tw rw' mw prior priorR onlyYaw numeric S t q v hp hq fun _ => hv
  have h3' := C75_cost_quaternion_partial tw rw' mw prior priorR onlyYaw numeric S prior priorR v₀ hp hp fun _ => hv₀
  rw [hc] at h3
  rw [hc₀] at h3'
  have k1 := Fl.fin.inj h3
  have k2 := Fl.fin.inj h3'
  have hz : distSq prior prior = 0 := by simp [distSq]
  rw [hz] at k2
  have hd : 0 ≤ distSq t prior := Finset.sum_nonneg fun i _ => sq_nonneg _
  have hm := mean_sq_unit S.points v₀ h0
  have hn := mean_sq_nonneg S.points v
  have hmain : tw ^ 2 * distSq t prior ≤ mw ^ 2 * (mean (S.points.map fun p => v₀ p ^ 2) - mean (S.points.map fun p => v p ^ 2)) := by linarith
  have hw : mw ^ 2 * (mean (S.points.map fun p => v₀ p ^ 2) - mean (S.points.map fun p => v p ^ 2)) ≤ mw ^ 2 * 1 := mul_le_mul_of_nonneg_left (by linarith [hm.2]) (sq_nonneg _)
  exact ⟨hmain, abs_mul_sqrt_le (by linarith)⟩

/-- a scan of one point ahead of the sensor, and a map that prefers it behind the origin -/
noncomputable def behindTerm : ScanTerm 3 :=
  ⟨[![1, 0, 0]], fun q => .fin (if q 0 ≤ 0 then 0 else 1), fun q => .fin (if q 0 ≤ 0 then 0 else 1)⟩

/-- **C124** is false of ceres with quaternions: however large the rotation weight, half a turn away from the prior rotation can be better than the prior, even if the map weight is small. -/
theorem C124_quaternion_refuted (tw rw' mw : ℝ) (hm : mw ≠ 0) (onlyYaw numeric : Bool) :
    ∃ c c₀ : ℝ, (problem3dQuaternion tw rw' mw 0 ⟨1, 0, 0, 0⟩ onlyYaw numeric behindTerm).cost 0 ⟨0, 0, 0, 1⟩ = .fin c ∧
      (problem3dQuaternion tw rw' mw 0 ⟨1, 0, 0, 0⟩ onlyYaw numeric behindTerm).cost 0 ⟨1, 0, 0, 0⟩ = .fin c₀ ∧ c < c₀ := by
  have h := C75_cost_quaternion_partial tw rw' mw 0 ⟨1, 0, 0, 0⟩ onlyYaw numeric behindTerm 0 ⟨0, 0, 0, 1⟩ (fun _ => 0) (by simp [quatNormSq]) (by simp [quatNormSq]) (fun _ p hp => by
    obtain rfl := List.mem_singleton.1 hp
    have : moved3 0 ⟨0, 0, 0, 1⟩ ![1, 0, 0] 0 = -1 := by simp [moved3, Quat.rotate, Quat.mul, Quat.inv]; norm_num
    simp only [behindTerm, this]
    norm_num)
  have h' := C75_cost_quaternion_partial tw rw' mw 0 ⟨1, 0, 0, 0⟩ onlyYaw numeric behindTerm 0 ⟨1, 0, 0, 0⟩ (fun _ => 1) (by simp [quatNormSq]) (by simp [quatNormSq]) (fun _ p hp => by
    obtain rfl := List.mem_singleton.1 hp
    have : moved3 0 ⟨1, 0, 0, 0⟩ ![1, 0, 0] 0 = 1 := by simp [moved3, Quat.rotate, Quat.mul, Quat.inv]
    simp only [behindTerm, this]
    norm_num)
  refine ⟨_, _, h, h', ?_⟩
  have : 0 < mw ^ 2 := by positivity
  simp [behindTerm, mean]
  linarith

/-! ### nlopt and alglib -/

/-- every score that is a number is between 0 and 1 -/
def Spec.UnitScores {n d : Nat} (F : Functor n d) : Prop := ∀ q s, F.sample q = .fin s → 0 ≤ s ∧ s ≤ 1

theorem pointCost_unit {tiny : ℝ} {score : Fl ℝ} (h : ∀ s, score = .fin s → 0 ≤ s ∧ s ≤ 1) :
    (0 ≤ pointCost tiny score ∧ pointCost tiny score ≤ 1) ∧ (0 ≤ pointCostSkip tiny score ∧ pointCostSkip tiny score ≤ 1) := by
  unfold pointCost pointCostSkip
  match score with
  | .fin s =>
    have := h s rfl
    simp only [value]
    constructor <;> split_ifs <;> constructor <;> linarith
  | .inf b => simp [Fl.isNormal]
  | .nan => simp [Fl.isNormal]

theorem sumCost_unit {n d : Nat} (F : Functor n d) (cost : Fl ℝ → ℝ) (x : Fin n → ℝ) (h : ∀ q, 0 ≤ cost (F.sample q) ∧ cost (F.sample q) ≤ 1) :
    0 ≤ F.sumCost cost x / (F.points.length : ℝ) ∧ F.sumCost cost x / (F.points.length : ℝ) ≤ 1 := by
  unfold Functor.sumCost
  rw [foldl_add_eq, zero_add]
  have h0 : 0 ≤ (F.points.map fun p => cost (F.sample (F.act x p))).sum := List.sum_nonneg fun y hy => by
    obtain ⟨p, _, rfl⟩ := List.mem_map.1 hy
    exact (h _).1
  have h1 : (F.points.map fun p => cost (F.sample (F.act x p))).sum ≤ (F.points.length : ℝ) := by
    have := List.sum_le_card_nsmul (F.points.map fun p => cost (F.sample (F.act x p))) 1 fun y hy => by
      obtain ⟨p, _, rfl⟩ := List.mem_map.1 hy
      exact (h _).2
    simpa using this
  exact ⟨div_nonneg h0 (Nat.cast_nonneg _), div_le_one_of_le₀ h1 (Nat.cast_nonneg _)⟩

/-- **C124** (nlopt). If a pose `x` is not worse than the initial guess, then the weighted distance from the guess plus the weighted angle is at most the map weight: in 2D, in 3D with Euler angles, and on 3D occupancy maps with Euler angles. -/
theorem C124_nlopt :
    (∀ (F : Functor 3 2) (x : Fin 3 → ℝ), AngleDif F.dif → UnitScores F → 0 ≤ F.mapW → F.points ≠ [] → F.nlopt2 x ≤ F.nlopt2 F.guess →
      F.transW * √((x 0 - F.guess 0) ^ 2 + (x 1 - F.guess 1) ^ 2) + F.rotW * |F.dif (x 2) (F.guess 2)| ≤ F.mapW) ∧
    (∀ (F : Functor 6 3) (x : Fin 6 → ℝ), AngleDif F.dif → UnitScores F → 0 ≤ F.mapW → F.points ≠ [] → F.nloptRPY x ≤ F.nloptRPY F.guess ∨ F.nloptOccRPY x ≤ F.nloptOccRPY F.guess →
      F.transW * √((x 0 - F.guess 0) ^ 2 + (x 1 - F.guess 1) ^ 2 + (x 2 - F.guess 2) ^ 2) +
        F.rotW * √(F.dif (x 3) (F.guess 3) ^ 2 + F.dif (x 4) (F.guess 4) ^ 2 + F.dif (x 5) (F.guess 5) ^ 2) ≤ F.mapW) := by
  have key : ∀ {n d : Nat} (F : Functor n d) (cost : Fl ℝ → ℝ) (x : Fin n → ℝ) (t t₀ r r₀ : ℝ), (∀ q, 0 ≤ cost (F.sample q) ∧ cost (F.sample q) ≤ 1) → 0 ≤ F.mapW → t₀ = 0 → r₀ = 0 →
      F.weighted (F.sumCost cost x) t r ≤ F.weighted (F.sumCost cost F.guess) t₀ r₀ → F.transW * t + F.rotW * |r| ≤ F.mapW := by
    rintro n d F cost x t t₀ r r₀ hu hm rfl rfl h
    unfold Functor.weighted at h
    rw [mul_div_assoc, mul_div_assoc, abs_zero, mul_zero, mul_zero] at h
    have h1 := mul_nonneg hm (sumCost_unit F cost x hu).1
    have h2 := mul_le_mul_of_nonneg_left (sumCost_unit F cost F.guess hu).2 hm
    linarith
  constructor
  · intro F x hd hu hm _ h
    have := key F (pointCost F.tiny) x _ _ _ _ (fun q => (pointCost_unit (hu q)).1) hm (hypot2_eq_zero.2 ⟨sub_self _, sub_self _⟩) ((hd _ _).2 (sameAngle_refl _)) h
    simpa [Functor.trans2, Functor.rot2, hypot2, sq] using this
  · intro F x hd hu hm _ h
    have ht : F.trans3 F.guess = 0 := hypot3_eq_zero.2 ⟨sub_self _, sub_self _, sub_self _⟩
    have hr : F.rotRPY F.guess = 0 := hypot3_eq_zero.2 ⟨(hd _ _).2 (sameAngle_refl _), (hd _ _).2 (sameAngle_refl _), (hd _ _).2 (sameAngle_refl _)⟩
    have : F.transW * F.trans3 x + F.rotW * |F.rotRPY x| ≤ F.mapW := by
      rcases h with h | h
      · exact key F (pointCost F.tiny) x _ _ _ _ (fun q => (pointCost_unit (hu q)).1) hm ht hr h
      · exact key F (pointCostSkip F.tiny) x _ _ _ _ (fun q => (pointCost_unit (hu q)).2) hm ht hr h
    rw [abs_of_nonneg (show 0 ≤ F.rotRPY x from sqrt_nonneg _)] at this
    simpa [Functor.trans3, Functor.rotRPY, hypot3, sq] using this

theorem sum_sq_div_le {α : Type} (l : List α) (c : α → ℝ) (n : ℝ) (hn : n = (l.length : ℝ)) (h : ∀ p, 0 ≤ c p ∧ c p ≤ 1) : (l.map fun p => (c p / n) ^ 2).sum ≤ 1 / n := by
  subst hn
  have h1 := List.sum_le_card_nsmul (l.map fun p => (c p / (l.length : ℝ)) ^ 2) ((1 / (l.length : ℝ)) ^ 2) fun y hy => by
    obtain ⟨p, _, rfl⟩ := List.mem_map.1 hy
    rw [div_pow, div_pow]
    exact div_le_div_of_nonneg_right (by rw [one_pow]; exact pow_le_one₀ (h p).1 (h p).2) (sq_nonneg _)
  rw [List.length_map, nsmul_eq_mul] at h1
  refine h1.trans (le_of_eq ?_)
  rcases eq_or_ne (l.length : ℝ) 0 with h0 | h0
  · rw [h0]; simp
  · field_simp

/-- **C124** (nlopt on 2D occupancy maps). The weighted squared distance plus the weighted squared angle is at most half the map weight, divided by the number of points. -/
theorem C124_nlopt_occupancy2 (F : Functor 3 2) (x : Fin 3 → ℝ) (hd : AngleDif F.dif) (hu : UnitScores F) (hm : 0 ≤ F.mapW) (_hp : F.points ≠ []) (h : F.nloptOcc2 x ≤ F.nloptOcc2 F.guess) :
    F.transW * ((x 0 - F.guess 0) ^ 2 + (x 1 - F.guess 1) ^ 2) + F.rotW * F.dif (x 2) (F.guess 2) ^ 2 ≤ F.mapW / (2 * (F.points.length : ℝ)) := by
  unfold Functor.nloptOcc2 Functor.rot2 at h
  simp only at h
  have hg : F.dif (F.guess 2) (F.guess 2) = 0 := (hd _ _).2 (sameAngle_refl _)
  rw [foldl_add_eq, foldl_add_eq, hg] at h
  have e : ∀ y : Fin 3 → ℝ, (F.points.map fun p => 1 / 2 * F.mapW * (pointCost F.tiny (F.sample (F.act y p)) / (F.points.length : ℝ) * (pointCost F.tiny (F.sample (F.act y p)) / (F.points.length : ℝ)))).sum =
      1 / 2 * F.mapW * (F.points.map fun p => (pointCost F.tiny (F.sample (F.act y p)) / (F.points.length : ℝ)) ^ 2).sum := by
    intro y
    rw [← List.sum_map_mul_left]
    congr 1
    exact List.map_congr_left fun p _ => by ring
  rw [e, e] at h
  have h1 := sum_sq_div_le F.points (fun p => pointCost F.tiny (F.sample (F.act F.guess p))) _ rfl fun p => (pointCost_unit (hu _)).1
  have h0 : 0 ≤ (F.points.map fun p => (pointCost F.tiny (F.sample (F.act x p)) / (F.points.length : ℝ)) ^ 2).sum := List.sum_nonneg fun y hy => by
    obtain ⟨p, _, rfl⟩ := List.mem_map.1 hy
    exact sq_nonneg _
  have h2 := mul_le_mul_of_nonneg_left h1 (show 0 ≤ 1 / 2 * F.mapW by linarith)
  have h3 := mul_nonneg (show 0 ≤ 1 / 2 * F.mapW by linarith) h0
  have e2 : F.mapW / (2 * (F.points.length : ℝ)) = 1 / 2 * F.mapW * (1 / (F.points.length : ℝ)) := by rw [div_mul_eq_div_div]; ring
  rw [e2]
  linarith

theorem sumSq_append (a b : List ℝ) : sumSq (a ++ b) = sumSq a + sumSq b := by
  unfold sumSq
  rw [List.map_append, List.sum_append]

theorem sumSq_alglibPoints {n d : Nat} (F : Functor n d) (x : Fin n → ℝ) (hu : UnitScores F) : 0 ≤ sumSq (F.alglibPoints x) ∧ sumSq (F.alglibPoints x) ≤ F.mapW ^ 2 / (F.points.length : ℝ) := by
  have e : sumSq (F.alglibPoints x) = F.mapW ^ 2 * (F.points.map fun p => (pointCost F.tiny (F.sample (F.act x p)) / (F.points.length : ℝ)) ^ 2).sum := by
    unfold sumSq Functor.alglibPoints
    rw [List.map_map, ← List.sum_map_mul_left]
    congr 1
    exact List.map_congr_left fun p _ => by show (_ : ℝ) ^ 2 = _; ring
  have h1 := sum_sq_div_le F.points (fun p => pointCost F.tiny (F.sample (F.act x p))) _ rfl fun p => (pointCost_unit (hu _)).1
  have h0 : 0 ≤ (F.points.map fun p => (pointCost F.tiny (F.sample (F.act x p)) / (F.points.length : ℝ)) ^ 2).sum := List.sum_nonneg fun y hy => by
    obtain ⟨p, _, rfl⟩ := List.mem_map.1 hy
    exact sq_nonneg _
  rw [e]
  refine ⟨mul_nonneg (sq_nonneg _) h0, (mul_le_mul_of_nonneg_left h1 (sq_nonneg F.mapW)).trans (le_of_eq (by ring))⟩

/-- **C124** (alglib). The weighted squared distance plus the weighted squared angles are at most the squared map weight, divided by the number of points: in 2D and in 3D with Euler angles. With quaternions of norm 1 this holds for the translation. -/
theorem C124_alglib :
    (∀ (F : Functor 3 2) (x : Fin 3 → ℝ), AngleDif F.dif → UnitScores F → F.points ≠ [] → sumSq (F.alglib2 x) ≤ sumSq (F.alglib2 F.guess) →
      F.transW ^ 2 * ((x 0 - F.guess 0) ^ 2 + (x 1 - F.guess 1) ^ 2) + F.rotW ^ 2 * F.dif (x 2) (F.guess 2) ^ 2 ≤ F.mapW ^ 2 / (F.points.length : ℝ)) ∧
    (∀ (F : Functor 6 3) (x : Fin 6 → ℝ), AngleDif F.dif → UnitScores F → F.points ≠ [] → sumSq (F.alglibRPY x) ≤ sumSq (F.alglibRPY F.guess) →
      F.transW ^ 2 * ((x 0 - F.guess 0) ^ 2 + (x 1 - F.guess 1) ^ 2 + (x 2 - F.guess 2) ^ 2) +
        F.rotW ^ 2 * (F.dif (x 3) (F.guess 3) ^ 2 + F.dif (x 4) (F.guess 4) ^ 2 + F.dif (x 5) (F.guess 5) ^ 2) ≤ F.mapW ^ 2 / (F.points.length : ℝ)) ∧
    (∀ (F : Functor 7 3) (x : Fin 7 → ℝ), UnitScores F → F.points ≠ [] → F.guess 3 ^ 2 + F.guess 4 ^ 2 + F.guess 5 ^ 2 + F.guess 6 ^ 2 = 1 → x 3 ^ 2 + x 4 ^ 2 + x 5 ^ 2 + x 6 ^ 2 = 1 →
      sumSq (F.alglibQuat x) ≤ sumSq (F.alglibQuat F.guess) →
      F.transW ^ 2 * ((x 0 - F.guess 0) ^ 2 + (x 1 - F.guess 1) ^ 2 + (x 2 - F.guess 2) ^ 2) ≤ F.mapW ^ 2 / (F.points.length : ℝ)) := by
  have hdrop : ∀ {n d : Nat} (F : Functor n d) (x : Fin n → ℝ) (rest : List ℝ), (F.alglibPoints x ++ rest).drop F.points.length = rest := by
    intro n d F x rest
    have hl : F.points.length = (F.alglibPoints x).length := (List.length_map _).symm
    rw [hl, List.drop_left]
  obtain ⟨_, _, _, _, w2, w3⟩ := C65_weights
  refine ⟨?_, ?_, ?_⟩
  · intro F x hd hu _ h
    have hx := w2 F x
    have hg := w2 F F.guess
    unfold Functor.alglib2 at h hx hg
    rw [hdrop] at hx hg
    rw [sumSq_append, sumSq_append, hx, hg, (hd _ _).2 (sameAngle_refl (F.guess 2))] at h
    have := (sumSq_alglibPoints F x hu).1
    have := (sumSq_alglibPoints F F.guess hu).2
    linarith
  · intro F x hd hu _ h
    have hx := w3 F x
    have hg := w3 F F.guess
    unfold Functor.alglibRPY at h hx hg
    rw [hdrop] at hx hg
    rw [sumSq_append, sumSq_append, hx, hg, (hd _ _).2 (sameAngle_refl (F.guess 3)), (hd _ _).2 (sameAngle_refl (F.guess 4)), (hd _ _).2 (sameAngle_refl (F.guess 5))] at h
    have := (sumSq_alglibPoints F x hu).1
    have := (sumSq_alglibPoints F F.guess hu).2
    linarith
  · intro F x hu _ n1 n2 h
    have hx := (C65_alglib_quat_partial F x).2 n1 n2
    have hg := (C65_alglib_quat_partial F F.guess).2 n1 n1
    unfold Functor.alglibQuat at h hx hg
    rw [hdrop] at hx hg
    rw [sumSq_append, sumSq_append, hx, hg] at h
    have := (sumSq_alglibPoints F x hu).1
    have := (sumSq_alglibPoints F F.guess hu).2
    linarith

/-- **C124** is false of nlopt with quaternions: even if the map has no weight, the pose at the origin without rotation is better than the initial guess at the origin that is turned by a quarter about the vertical axis, whatever the rotation weight. -/
theorem C124_nlopt_quat_refuted (roll pitch yaw : Quat → ℝ) (h0 : roll ⟨1, 0, 0, 0⟩ = 0 ∧ pitch ⟨1, 0, 0, 0⟩ = 0 ∧ yaw ⟨1, 0, 0, 0⟩ = 0) (hyaw : yaw ⟨√2 / 2, 0, 0, √2 / 2⟩ = π / 2)
    (F : Functor 7 3) (hd : F.dif = angleDifference) (hr : 0 < F.rotW) (hm : F.mapW = 0) (hg : F.guess = ![0, 0, 0, 0, 0, √2 / 2, √2 / 2]) :
    F.nloptQuat roll pitch yaw ![0, 0, 0, 0, 0, 0, 1] < F.nloptQuat roll pitch yaw F.guess := by
  have e6 : F.guess 6 = √2 / 2 := by rw [hg]; rfl
  have e5 : F.guess 5 = √2 / 2 := by rw [hg]; rfl
  have e4 : F.guess 4 = 0 := by rw [hg]; rfl
  have e3 : F.guess 3 = 0 := by rw [hg]; rfl
  have e2 : F.guess 2 = 0 := by rw [hg]; rfl
  have e1 : F.guess 1 = 0 := by rw [hg]; rfl
  have e0 : F.guess 0 = 0 := by rw [hg]; rfl
  have hs : √2 < 3 / 2 := by
    rw [sqrt_lt' (by norm_num)]
    norm_num
  have hs0 : 0 < √2 := sqrt_pos.2 (by norm_num)
  have hpi := pi_gt_three
  have ht : F.trans3 F.guess = 0 := hypot3_eq_zero.2 ⟨sub_self _, sub_self _, sub_self _⟩
  have ht' : F.trans3 ![0, 0, 0, 0, 0, 0, 1] = 0 := hypot3_eq_zero.2 ⟨by rw [e0]; exact sub_self _, by rw [e1]; exact sub_self _, by rw [e2]; exact sub_self _⟩
  have hsmall : ∀ a b : ℝ, |a - b| < π → angleDifference a b = a - b := by
    intro a b hab
    obtain ⟨h1, h2, _⟩ := C44_angle_difference a b
    refine eq_of_sameAngle h1 ?_
    have := abs_sub (angleDifference a b) (a - b)
    linarith
  have k1 : |F.rotQuat roll pitch yaw ![0, 0, 0, 0, 0, 0, 1]| = √2 / 2 := by
    have e : F.rotQuat roll pitch yaw ![0, 0, 0, 0, 0, 0, 1] = hypot3 (angleDifference 0 0) (angleDifference 0 0) (angleDifference 0 (√2 / 2)) := by
      unfold Functor.rotQuat
      rw [hd, e3, e4, e5]
      show hypot3 (angleDifference (roll ⟨1, 0, 0, 0⟩) 0) (angleDifference (pitch ⟨1, 0, 0, 0⟩) 0) (angleDifference (yaw ⟨1, 0, 0, 0⟩) (√2 / 2)) = _
      rw [h0.1, h0.2.1, h0.2.2]
    have hz : angleDifference 0 0 = 0 := (angleDif_model 0 0).2 (sameAngle_refl 0)
    rw [e, hz, hsmall 0 (√2 / 2) (by rw [zero_sub, abs_neg, abs_of_pos (by linarith)]; linarith)]
    unfold hypot3
    rw [show (0 : ℝ) * 0 + 0 * 0 + (0 - √2 / 2) * (0 - √2 / 2) = (√2 / 2) ^ 2 by ring, sqrt_sq (by linarith), abs_of_pos (by linarith)]
  have k2 : π / 2 - √2 / 2 ≤ |F.rotQuat roll pitch yaw F.guess| := by
    have e : F.rotQuat roll pitch yaw F.guess = hypot3 (angleDifference (roll ⟨√2 / 2, 0, 0, √2 / 2⟩) 0) (angleDifference (pitch ⟨√2 / 2, 0, 0, √2 / 2⟩) 0) (π / 2 - √2 / 2) := by
      unfold Functor.rotQuat
      rw [hd, e3, e4, e5, e6]
      simp only
      rw [hyaw, hsmall (π / 2) (√2 / 2) (by rw [abs_of_pos (by linarith)]; linarith)]
    rw [e]
    refine le_trans ?_ (le_abs_self _)
    unfold hypot3
    refine le_sqrt_of_sq_le ?_
    nlinarith [mul_self_nonneg (angleDifference (roll ⟨√2 / 2, 0, 0, √2 / 2⟩) 0), mul_self_nonneg (angleDifference (pitch ⟨√2 / 2, 0, 0, √2 / 2⟩) 0)]
  unfold Functor.nloptQuat Functor.weighted
  rw [ht, ht', hm, k1]
  have := mul_lt_mul_of_pos_left (show √2 / 2 < |F.rotQuat roll pitch yaw F.guess| by linarith) hr
  simp only [zero_mul, zero_div, mul_zero, zero_add]
  exact this


/-! ### maps -/

/-- **C124** (maps). Map values are between 0 and 1, so the limits above apply to all maps: on an NDT map built by any sequence of operations and on an occupancy map built by any sequence of operations, if densities and occupancies are
between 0 and 1. -/
theorem C124_values {d : Nat} (k : Kind d) (g : Geo ℝ d) (hr : 0 < g.r) :
    (∀ (exp : Multiset (Pt ℝ d) → Bool) (ops : List (GridOp ℝ d)) (st : St k.backend (Multiset (Pt ℝ d))) (_ : gridRun g k.dyn exp ops (k.init _) = some st)
      (valid : Multiset (Pt ℝ d) → Bool) (bell dens : Multiset (Pt ℝ d) → Pt ℝ d → ℝ), (∀ s p, dens s p = if valid s then bell s p else 0) → (∀ s q, 0 ≤ dens s q ∧ dens s q ≤ 1) → ∀ (q : Pt ℝ d) (v : ℝ),
      (evaluateDouble g k.dyn dens st q = some v ∨ evaluateJet g k.dyn valid bell st q = some v) → 0 ≤ v ∧ v ≤ 1) ∧
    (∀ {W E M : Type} [AddCommMonoid W] (fl : Flavour ℝ d W E) (defRay : Pt ℝ d → Pt ℝ d → List (Idx d)) (exp : Occ W E → Bool) (st : St k.backend (Occ W E)) (_ : OccReachable fl k g defRay exp st)
      (valid : Multiset E → Bool) (bell dens : Multiset E → Pt ℝ d → ℝ) (occ : M → Occ W E → ℝ) (m : M), (∀ s p, dens s p = if valid s then bell s p else 0) → (∀ s q, 0 ≤ dens s q ∧ dens s q ≤ 1) →
      (∀ o, 0 ≤ occ m o ∧ occ m o ≤ 1) → ∀ (q : Pt ℝ d) (v : ℝ),
      (occEvaluateDouble g k.dyn dens occ (some m) st q = .ok (some v) ∨ occEvaluateJet g k.dyn valid bell occ (some m) st q = .ok (some v)) → 0 ≤ v ∧ v ≤ 1) := by
  constructor
  · intro exp ops st h valid bell dens hb hd q v hv
    rw [C62_gridmap g k.dyn valid bell dens hb, or_self] at hv
    unfold evaluateDouble at hv
    obtain ⟨s, hs, rfl⟩ := Option.map_eq_some_iff.1 hv
    have := C24_sample_in_unit_interval k g hr exp ops st h dens hd q s hs
    constructor <;> linarith [this.1, this.2]
  · intro W E M _ fl defRay exp st hst valid bell dens occ m hb hd ho q v hv
    rw [C62_occupancy g k.dyn valid bell dens hb, or_self] at hv
    unfold occEvaluateDouble at hv
    cases hs : St.occSampleNNAt g k.dyn dens occ q (some m) st with
    | error e => rw [hs] at hv; cases hv
    | ok o =>
      rw [hs] at hv
      cases o with
      | none => cases hv
      | some s =>
        have e : 1 - s = v := Option.some.inj (Except.ok.inj hv)
        have := C24_occupancy_sample_in_unit_interval fl k g hr defRay exp st hst dens hd occ m ho q s hs
        constructor <;> linarith [this.1, this.2]

/-! ### samples -/

/-- with map weight 1 and translation weight 10, no pose that is at least as good as the guess is more than 0.1 away from it, whatever the map; the pose at distance 0.05 whose points have map value 1/2 is such a pose -/
example (numeric : Bool) : ∃ S : ScanTerm 2, ∃ c c₀ : ℝ, (problem2d 10 1 1 ![0, 0] 0 numeric S).cost ![1 / 20, 0] ![0] = .fin c ∧ (problem2d 10 1 1 ![0, 0] 0 numeric S).cost ![0, 0] ![0] = .fin c₀ ∧ c ≤ c₀ ∧
    S.points ≠ [] := by
  let S : ScanTerm 2 := ⟨[![0, 0]], fun q => .fin (if q 0 ≤ 0 then 1 else 1 / 2), fun q => .fin (if q 0 ≤ 0 then 1 else 1 / 2)⟩
  obtain ⟨e, h1, h2, h⟩ := C75_cost_2d 10 1 1 ![0, 0] 0 numeric S ![1 / 20, 0] ![0] (fun _ => 1 / 2) (fun _ p hp => by
    obtain rfl := List.mem_singleton.1 hp
    have : moved2 ![1 / 20, 0] (![0] 0) ![0, 0] 0 = 1 / 20 := by simp [moved2]
    simp only [S, this]
    norm_num)
  obtain ⟨e', h1', h2', h'⟩ := C75_cost_2d 10 1 1 ![0, 0] 0 numeric S ![0, 0] ![0] (fun _ => 1) (fun _ p hp => by
    obtain rfl := List.mem_singleton.1 hp
    have : moved2 ![0, 0] (![0] 0) ![0, 0] 0 = 0 := by simp [moved2]
    simp only [S, this]
    norm_num)
  refine ⟨S, _, _, h, h', ?_, by simp [S]⟩
  rw [sameAngle_self_zero h1 h2, sameAngle_self_zero h1' h2']
  simp [S, mean, distSq, Fin.sum_univ_two]
  norm_num

/-- a pose away from the guess that is better than the guess -/
example : ∃ (F : Functor 3 2) (x : Fin 3 → ℝ), AngleDif F.dif ∧ UnitScores F ∧ 0 ≤ F.mapW ∧ F.points ≠ [] ∧ x ≠ F.guess ∧ F.nlopt2 x ≤ F.nlopt2 F.guess ∧ F.nloptOcc2 x ≤ F.nloptOcc2 F.guess ∧
    sumSq (F.alglib2 x) ≤ sumSq (F.alglib2 F.guess) ∧ 0 < F.transW := by
  let F : Functor 3 2 := ⟨[![0, 0]], fun q => .fin (if q 0 ≤ 0 then 0 else 1), fun x _ => ![x 0, x 1], angleDifference, ![0, 0, 0], 1, 1, 1, 1 / 1024⟩
  have hz : angleDifference 0 0 = 0 := (angleDif_model 0 0).2 (sameAngle_refl 0)
  have s1 : pointCost (1 / 1024) (.fin 1) = 0 := by simp [pointCost, Fl.isNormal, value]; norm_num
  have s0 : pointCost (1 / 1024) (.fin 0) = 1 := by simp [pointCost, Fl.isNormal, value]
  refine ⟨F, ![1 / 4, 0, 0], angleDif_model, ?_, by norm_num [F], by simp [F], ?_, ?_, ?_, ?_, by norm_num [F]⟩
  · intro q s h
    have := Fl.fin.inj h
    rw [← this]
    split_ifs <;> norm_num
  · intro h
    have := congrFun h 0
    simp [F] at this
  · have e1 : F.nlopt2 ![1 / 4, 0, 0] = 1 / 4 := by
      simp [F, Functor.nlopt2, Functor.weighted, Functor.sumCost, Functor.trans2, Functor.rot2, hypot2, hz]
      rw [if_neg (by norm_num)]
      simpa using s1
    have e2 : F.nlopt2 F.guess = 1 := by
      simp [F, Functor.nlopt2, Functor.weighted, Functor.sumCost, Functor.trans2, Functor.rot2, hypot2, hz]
      simpa using s0
    rw [e1, e2]; norm_num
  · have e1 : F.nloptOcc2 ![1 / 4, 0, 0] = 1 / 32 := by
      simp [F, Functor.nloptOcc2, Functor.rot2, hz]
      rw [if_neg (by norm_num), show pointCost 1024⁻¹ (.fin 1) = 0 by simpa using s1]
      norm_num
    have e2 : F.nloptOcc2 F.guess = 1 / 4 := by
      simp [F, Functor.nloptOcc2, Functor.rot2, hz]
      rw [show pointCost 1024⁻¹ (.fin 0) = 1 by simpa using s0]
      norm_num
    rw [e1, e2]; norm_num
  · have e1 : sumSq (F.alglib2 ![1 / 4, 0, 0]) = 1 / 16 := by
      simp [F, Functor.alglib2, Functor.alglibPoints, sumSq, hz]
      rw [if_neg (by norm_num), show pointCost 1024⁻¹ (.fin 1) = 0 by simpa using s1]
      norm_num
    have e2 : sumSq (F.alglib2 F.guess) = 1 := by
      simp [F, Functor.alglib2, Functor.alglibPoints, sumSq, hz]
      rw [show pointCost 1024⁻¹ (.fin 0) = 1 by simpa using s0]
      norm_num
    rw [e1, e2]; norm_num

end Ndt
