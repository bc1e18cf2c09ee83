import Verif.Props.Quaternions
import Verif.Spec.Score
import Verif.Proofs.Sampling
import Mathlib.Algebra.BigOperators.Ring.List
import Mathlib.Algebra.Order.BigOperators.Group.List

/-!
C47, C48, C49, C62, C64, C65: cost functions of the scan matchers.
-/

namespace Ndt

open Real Matching Spec

/-! ### C47 -/

/-- The comparison `value == -value` in the scan match functors changes no value: it holds for zero only. -/
theorem scanResidual_eq (weight : ℝ) (v : Fl ℝ) : scanResidual weight v = .fin weight * v := by
  unfold scanResidual
  match v with
  | .nan => rfl
  | .inf b => cases b <;> rfl
  | .fin x =>
    by_cases h : x = -x
    · have : x = 0 := by linarith
      subst this
      show (Fl.fin weight : Fl ℝ) * (if Fl.eq (.fin 0) (.fin (-0)) then 0 else .fin 0) = _
      split_ifs <;> rfl
    · show (Fl.fin weight : Fl ℝ) * (if (decide (x = -x)) = true then 0 else .fin x) = _
      rw [if_neg (by simpa using h)]

/-- **C47** is false of the code: a NaN from the evaluation becomes a NaN residual, for every weight. -/
theorem C47_nan_refuted (weight : ℝ) : scanResidual weight .nan = .nan := by
  rw [scanResidual_eq]
  rfl

/-- **C47** (part) A residual is NaN only if the evaluation is NaN, or infinite with weight 0; a finite value is weighted. -/
theorem C47_finite_partial (weight : ℝ) (v : Fl ℝ) :
    (scanResidual weight v = .nan ↔ v = .nan ∨ (∃ b, v = .inf b) ∧ weight = 0) ∧ (∀ x, v = .fin x → scanResidual weight v = .fin (weight * x)) := by
  rw [scanResidual_eq]
  constructor
  · match v with
    | .nan => exact ⟨fun _ => Or.inl rfl, fun _ => rfl⟩
    | .inf b =>
      show (if weight = 0 then Fl.nan else Fl.inf (decide (weight < 0) != b)) = .nan ↔ _
      by_cases h : weight = 0
      · rw [if_pos h]
        exact ⟨fun _ => Or.inr ⟨⟨b, rfl⟩, h⟩, fun _ => rfl⟩
      · rw [if_neg h]
        constructor
        · intro h'
          exact absurd h' (by simp)
        · rintro (h' | ⟨_, h'⟩)
          · exact absurd h' (by simp)
          · exact absurd h' h
    | .fin x =>
      constructor
      · intro h
        exact absurd h (by show Fl.fin (weight * x) ≠ .nan; simp)
      · rintro (h | ⟨⟨b, h⟩, _⟩)
        · exact absurd h (by simp)
        · exact absurd h (by simp)
  · rintro x rfl
    rfl

example : scanResidual 2 (.fin 3) = .fin (2 * 3) ∧ scanResidual 2 (.inf true) ≠ .nan ∧ scanResidual 0 (.inf true) = .nan := by
  refine ⟨(C47_finite_partial 2 _).2 3 rfl, fun h => ?_, (C47_finite_partial 0 _).1.2 (Or.inr ⟨⟨true, rfl⟩, rfl⟩)⟩
  rcases (C47_finite_partial 2 _).1.1 h with h | ⟨_, h⟩
  · exact absurd h (by simp)
  · norm_num at h

/-! ### C64 -/

/-- **C64** With the weight that the cost function creators pass on, the sum of the squared residuals is the squared weight times the mean of the squared map values: it does not depend on the number of points nor on their order. -/
theorem C64_mean_square {d : Nat} (weight : ℝ) (points : List (Fin d → ℝ)) (moved : (Fin d → ℝ) → Fin d → ℝ) (evaluate : (Fin d → ℝ) → Fl ℝ) (v : (Fin d → ℝ) → ℝ)
    (hv : ∀ p ∈ points, evaluate (moved p) = .fin (v p)) :
    ∃ rs : List ℝ, createdResiduals weight points moved evaluate = rs.map .fin ∧ rs.length = points.length ∧
      (rs.map (· ^ 2)).sum = weight ^ 2 * mean (points.map fun p => v p ^ 2) := by
  refine ⟨points.map fun p => weight / √(points.length : ℝ) * v p, ?_, by rw [List.length_map], ?_⟩
  · unfold createdResiduals scanResiduals
    rw [List.map_map]
    refine List.map_congr_left fun p hp => ?_
    rw [hv p hp, scanResidual_eq]
    rfl
  · rw [List.map_map]
    unfold mean
    rw [List.length_map]
    have e : ((fun x : ℝ => x ^ 2) ∘ fun p => weight / √(points.length : ℝ) * v p) = fun p => (weight ^ 2 / (points.length : ℝ)) * v p ^ 2 := by
      funext p
      show (weight / √(points.length : ℝ) * v p) ^ 2 = _
      rw [mul_pow, div_pow, sq_sqrt (Nat.cast_nonneg _)]
    rw [e, List.sum_map_mul_left]
    ring

/-- **C64** The residuals of a permuted scan are the permuted residuals. -/
theorem C64_permutation {d : Nat} (weight : ℝ) (points points' : List (Fin d → ℝ)) (moved : (Fin d → ℝ) → Fin d → ℝ) (evaluate : (Fin d → ℝ) → Fl ℝ) (h : points.Perm points') :
    (createdResiduals weight points moved evaluate).Perm (createdResiduals weight points' moved evaluate) := by
  unfold createdResiduals scanResiduals
  rw [h.length_eq]
  exact h.map _

/-- two points with values 1 and 2, weight 3 -/
example : ∃ rs : List ℝ, createdResiduals (d := 1) 3 [![1], ![2]] id (fun p => .fin (p 0)) = rs.map .fin ∧ (rs.map (· ^ 2)).sum = 45 / 2 := by
  obtain ⟨rs, h1, _, h2⟩ := C64_mean_square (d := 1) 3 [![1], ![2]] id (fun p => .fin (p 0)) (fun p => p 0) (fun _ _ => rfl)
  refine ⟨rs, h1, h2.trans ?_⟩
  norm_num [mean]

/-! ### C48 -/

theorem pointCost_eq (tiny : ℝ) (s : Fl ℝ) : pointCost tiny s = 1 - properScore tiny s := by
  unfold pointCost properScore
  match s with
  | .nan => simp [Fl.isNormal]
  | .inf b => simp [Fl.isNormal]
  | .fin x =>
    by_cases h : tiny ≤ |x| <;> simp [Fl.isNormal, h, value]

theorem sum_one_sub {α : Type} (f : α → ℝ) : ∀ l : List α, (l.map fun a => 1 - f a).sum = (l.length : ℝ) - (l.map f).sum
  | [] => by simp
  | a :: l => by
    rw [List.map_cons, List.sum_cons, sum_one_sub f l, List.map_cons, List.sum_cons, List.length_cons]
    push_cast
    ring

theorem sumCost_eq {n d : Nat} (F : Functor n d) (x : Fin n → ℝ) :
    F.sumCost (pointCost F.tiny) x = (F.points.length : ℝ) - (F.points.map fun p => properScore F.tiny (F.sample (F.act x p))).sum := by
  unfold Functor.sumCost
  rw [foldl_add_eq, zero_add, ← sum_one_sub]
  simp only [pointCost_eq]

theorem unweighted_weighted {n d : Nat} (F : Functor n d) (hw : F.mapW ≠ 0) (fi trans rot : ℝ) : F.unweighted (F.weighted fi trans rot) trans rot = 1 - fi / (F.points.length : ℝ) := by
  unfold Functor.unweighted Functor.weighted
  have e : F.mapW * fi / (F.points.length : ℝ) + F.transW * trans + F.rotW * |rot| - F.transW * trans - F.rotW * |rot| = F.mapW * (fi / (F.points.length : ℝ)) := by ring
  rw [e, mul_div_cancel_left₀ _ hw]

theorem mean_of {n d : Nat} (F : Functor n d) (hp : F.points ≠ []) (x : Fin n → ℝ) :
    1 - F.sumCost (pointCost F.tiny) x / (F.points.length : ℝ) = mean (F.points.map fun p => properScore F.tiny (F.sample (F.act x p))) := by
  have hN : (F.points.length : ℝ) ≠ 0 := by
    rw [Nat.cast_ne_zero]
    exact fun h => hp (List.length_eq_zero_iff.1 h)
  rw [sumCost_eq]
  unfold mean
  rw [List.length_map, sub_div, div_self hN]
  ring

/-- **C48** For NDT maps with nlopt (2D, 3D with Euler angles, 3D with quaternions), the map score of the function value is the mean sanitised score of the moved points, whatever the weights. -/
theorem C48_nlopt :
    (∀ (F : Functor 3 2) (x : Fin 3 → ℝ), F.mapW ≠ 0 → F.points ≠ [] →
      F.nloptScore2 x (F.nlopt2 x) = mean (F.points.map fun p => properScore F.tiny (F.sample (F.act x p)))) ∧
    (∀ (F : Functor 6 3) (x : Fin 6 → ℝ), F.mapW ≠ 0 → F.points ≠ [] →
      F.nloptScoreRPY x (F.nloptRPY x) = mean (F.points.map fun p => properScore F.tiny (F.sample (F.act x p)))) ∧
    (∀ (roll pitch yaw : Quat → ℝ) (F : Functor 7 3) (x : Fin 7 → ℝ), F.mapW ≠ 0 → F.points ≠ [] →
      F.nloptScoreQuat roll pitch yaw x (F.nloptQuat roll pitch yaw x) = mean (F.points.map fun p => properScore F.tiny (F.sample (F.act x p)))) := by
  refine ⟨fun F x hw hp => ?_, fun F x hw hp => ?_, fun roll pitch yaw F x hw hp => ?_⟩
  · exact (unweighted_weighted F hw _ _ _).trans (mean_of F hp x)
  · exact (unweighted_weighted F hw _ _ _).trans (mean_of F hp x)
  · exact (unweighted_weighted F hw _ _ _).trans (mean_of F hp x)

theorem alglibScore_eq {n d : Nat} (F : Functor n d) (hw : F.mapW ≠ 0) (hp : F.points ≠ []) (x : Fin n → ℝ) (rest : List ℝ) :
    F.alglibScore (F.alglibPoints x ++ rest) = mean (F.points.map fun p => properScore F.tiny (F.sample (F.act x p))) := by
  have hl : (F.alglibPoints x).length = F.points.length := List.length_map _
  unfold Functor.alglibScore
  rw [foldl_add_eq, zero_add]
  have e : (List.range F.points.length).map (fun i => 1 / (F.points.length : ℝ) - (F.alglibPoints x ++ rest).getD i 0 * (1 / F.mapW)) =
      (F.points.map fun p => 1 / (F.points.length : ℝ) * properScore F.tiny (F.sample (F.act x p))) := by
    refine List.ext_getElem (by simp) fun i h1 h2 => ?_
    have hi : i < F.points.length := by simpa using h1
    rw [List.getElem_map, List.getElem_map, List.getElem_range, List.getD_append _ _ _ _ (by rw [hl]; exact hi), List.getD_eq_getElem _ _ (by rw [hl]; exact hi)]
    unfold Functor.alglibPoints
    rw [List.getElem_map, pointCost_eq]
    field_simp
    ring
  rw [e, List.sum_map_mul_left]
  unfold mean
  rw [List.length_map]
  ring

/-- **C48** For all maps with alglib (2D, 3D with Euler angles, 3D with quaternions; NDT and occupancy maps), the map score of the residual vector is the mean sanitised score of the moved points, whatever the weights. -/
theorem C48_alglib :
    (∀ (F : Functor 3 2) (x : Fin 3 → ℝ), F.mapW ≠ 0 → F.points ≠ [] → F.alglibScore (F.alglib2 x) = mean (F.points.map fun p => properScore F.tiny (F.sample (F.act x p)))) ∧
    (∀ (F : Functor 6 3) (x : Fin 6 → ℝ), F.mapW ≠ 0 → F.points ≠ [] → F.alglibScore (F.alglibRPY x) = mean (F.points.map fun p => properScore F.tiny (F.sample (F.act x p)))) ∧
    (∀ (F : Functor 7 3) (x : Fin 7 → ℝ), F.mapW ≠ 0 → F.points ≠ [] → F.alglibScore (F.alglibQuat x) = mean (F.points.map fun p => properScore F.tiny (F.sample (F.act x p)))) :=
  ⟨fun F x hw hp => alglibScore_eq F hw hp x _, fun F x hw hp => alglibScore_eq F hw hp x _, fun F x hw hp => alglibScore_eq F hw hp x _⟩

/-- a functor with one point, used as a witness: all samples are `s` -/
noncomputable def Spec.onePoint (n d : Nat) (s : Fl ℝ) : Functor n d where
  points := [0]
  sample := fun _ => s
  act := fun _ p => p
  dif := fun a b => a - b
  guess := 0
  transW := 0
  rotW := 0
  mapW := 1
  tiny := 1 / 1024

theorem onePoint_mean (n d : Nat) (s : Fl ℝ) (x : Fin n → ℝ) :
    mean ((onePoint n d s).points.map fun p => properScore (onePoint n d s).tiny ((onePoint n d s).sample ((onePoint n d s).act x p))) = properScore (1 / 1024) s := by
  show mean [properScore (1 / 1024) s] = _
  simp [mean]

/-- the hypotheses are met, with a score of 1/2 -/
example : (onePoint 3 2 (.fin (1 / 2))).nloptScore2 0 ((onePoint 3 2 (.fin (1 / 2))).nlopt2 0) = 1 / 2 ∧ (onePoint 7 3 (.fin (1 / 2))).alglibScore ((onePoint 7 3 (.fin (1 / 2))).alglibQuat 0) = 1 / 2 := by
  rw [C48_nlopt.1 _ _ one_ne_zero (by simp [onePoint]), C48_alglib.2.2 _ _ one_ne_zero (by simp [onePoint]), onePoint_mean, onePoint_mean]
  have h : (1 / 1024 : ℝ) ≤ |1 / 2| := by rw [abs_of_pos] <;> norm_num
  unfold properScore
  simp only [if_pos h, and_self]

/-- **C48** is false of 2D occupancy maps with nlopt: the function squares the costs and halves them, the map score does not undo that. One point with score 1/2 is reported with 15/16. -/
theorem C48_occupancy2_refuted :
    ¬ ∀ (F : Functor 3 2) (x : Fin 3 → ℝ), F.mapW ≠ 0 → F.points ≠ [] → F.nloptOccScore2 x (F.nloptOcc2 x) = mean (F.points.map fun p => properScore F.tiny (F.sample (F.act x p))) := by
  intro h
  have h := h (onePoint 3 2 (.fin (1 / 2))) 0 one_ne_zero (by simp [onePoint])
  have hn : (1 / 1024 : ℝ) ≤ |1 / 2| := by rw [abs_of_pos] <;> norm_num
  rw [onePoint_mean] at h
  have e : pointCost (1 / 1024) (.fin (1 / 2)) = 1 / 2 := by
    rw [pointCost_eq]
    unfold properScore
    simp only [if_pos hn]
    norm_num
  unfold Functor.nloptOccScore2 Functor.nloptOcc2 Functor.unweighted at h
  simp only [onePoint, List.foldl_cons, List.foldl_nil, e, List.length_cons, List.length_nil] at h
  unfold properScore at h
  simp only [if_pos hn] at h
  norm_num at h

/-- **C48** (part) What the map score of 2D occupancy maps with nlopt is, without priors: one minus a quarter of the sum of the squared costs, each divided by the number of points. -/
theorem C48_occupancy2_partial (F : Functor 3 2) (x : Fin 3 → ℝ) (hw : F.mapW ≠ 0) (ht : F.transW = 0) (hr : F.rotW = 0) :
    F.nloptOccScore2 x (F.nloptOcc2 x) = 1 - (F.points.map fun p => ((1 - properScore F.tiny (F.sample (F.act x p))) / (F.points.length : ℝ)) ^ 2).sum / 4 := by
  unfold Functor.nloptOccScore2 Functor.nloptOcc2 Functor.unweighted
  simp only [ht, hr]
  rw [foldl_add_eq]
  have e : (fun p => 1 / 2 * F.mapW * (pointCost F.tiny (F.sample (F.act x p)) / (F.points.length : ℝ) * (pointCost F.tiny (F.sample (F.act x p)) / (F.points.length : ℝ)))) =
      fun p => (1 / 2 * F.mapW) * ((1 - properScore F.tiny (F.sample (F.act x p))) / (F.points.length : ℝ)) ^ 2 := by
    funext p
    rw [pointCost_eq]
    ring
  rw [e, List.sum_map_mul_left]
  field_simp
  ring

/-- **C48** is false of 3D occupancy maps with nlopt: a scan that is nowhere on the map has score 1. -/
theorem C48_occupancy3_refuted :
    (¬ ∀ (F : Functor 6 3) (x : Fin 6 → ℝ), F.mapW ≠ 0 → F.points ≠ [] → F.nloptOccScoreRPY x (F.nloptOccRPY x) = mean (F.points.map fun p => properScore F.tiny (F.sample (F.act x p)))) ∧
    (∀ roll pitch yaw : Quat → ℝ, ¬ ∀ (F : Functor 7 3) (x : Fin 7 → ℝ), F.mapW ≠ 0 → F.points ≠ [] →
      F.nloptOccScoreQuat roll pitch yaw x (F.nloptOccQuat roll pitch yaw x) = mean (F.points.map fun p => properScore F.tiny (F.sample (F.act x p)))) := by
  have e : ∀ n d, (onePoint n d .nan).sumCost (pointCostSkip (onePoint n d .nan).tiny) 0 = 0 := by
    intro n d
    show (0 : ℝ) + pointCostSkip _ .nan = 0
    simp [pointCostSkip, Fl.isNormal]
  refine ⟨fun h => ?_, fun roll pitch yaw h => ?_⟩
  · have h := h (onePoint 6 3 .nan) 0 one_ne_zero (by simp [onePoint])
    rw [onePoint_mean] at h
    have h' := unweighted_weighted (onePoint 6 3 .nan) one_ne_zero ((onePoint 6 3 .nan).sumCost (pointCostSkip (onePoint 6 3 .nan).tiny) 0) ((onePoint 6 3 .nan).trans3 0) ((onePoint 6 3 .nan).rotRPY 0)
    have h'' := h'.symm.trans h
    rw [e] at h''
    simp [properScore] at h''
  · have h := h (onePoint 7 3 .nan) 0 one_ne_zero (by simp [onePoint])
    rw [onePoint_mean] at h
    have h' := unweighted_weighted (onePoint 7 3 .nan) one_ne_zero ((onePoint 7 3 .nan).sumCost (pointCostSkip (onePoint 7 3 .nan).tiny) 0) ((onePoint 7 3 .nan).trans3 0) ((onePoint 7 3 .nan).rotQuat roll pitch yaw 0)
    have h'' := h'.symm.trans h
    rw [e] at h''
    simp [properScore] at h''

theorem sumCostSkip_eq {n d : Nat} (F : Functor n d) (x : Fin n → ℝ) (hn : ∀ p ∈ F.points, ∃ s, F.sample (F.act x p) = .fin s ∧ F.tiny ≤ |s|) :
    F.sumCost (pointCostSkip F.tiny) x = F.sumCost (pointCost F.tiny) x := by
  unfold Functor.sumCost
  rw [foldl_add_eq, foldl_add_eq]
  congr 2
  refine List.map_congr_left fun p hp => ?_
  obtain ⟨s, h, hs⟩ := hn p hp
  rw [h]
  unfold pointCost pointCostSkip
  have : Fl.isNormal F.tiny (.fin s) = true := by simpa [Fl.isNormal] using hs
  rw [if_pos this, if_pos this]

/-- **C48** (part) For 3D occupancy maps with nlopt the map score is the mean score if all scores are normal numbers. -/
theorem C48_occupancy3_partial :
    (∀ (F : Functor 6 3) (x : Fin 6 → ℝ), F.mapW ≠ 0 → F.points ≠ [] → (∀ p ∈ F.points, ∃ s, F.sample (F.act x p) = .fin s ∧ F.tiny ≤ |s|) →
      F.nloptOccScoreRPY x (F.nloptOccRPY x) = mean (F.points.map fun p => properScore F.tiny (F.sample (F.act x p)))) ∧
    (∀ (roll pitch yaw : Quat → ℝ) (F : Functor 7 3) (x : Fin 7 → ℝ), F.mapW ≠ 0 → F.points ≠ [] → (∀ p ∈ F.points, ∃ s, F.sample (F.act x p) = .fin s ∧ F.tiny ≤ |s|) →
      F.nloptOccScoreQuat roll pitch yaw x (F.nloptOccQuat roll pitch yaw x) = mean (F.points.map fun p => properScore F.tiny (F.sample (F.act x p)))) := by
  refine ⟨fun F x hw hp hn => ?_, fun roll pitch yaw F x hw hp hn => ?_⟩
  · refine (unweighted_weighted F hw _ _ _).trans ?_
    rw [sumCostSkip_eq F x hn]
    exact mean_of F hp x
  · refine (unweighted_weighted F hw _ _ _).trans ?_
    rw [sumCostSkip_eq F x hn]
    exact mean_of F hp x

example : (onePoint 6 3 (.fin (1 / 2))).nloptOccScoreRPY 0 ((onePoint 6 3 (.fin (1 / 2))).nloptOccRPY 0) = 1 / 2 := by
  have h : (1 / 1024 : ℝ) ≤ |1 / 2| := by rw [abs_of_pos] <;> norm_num
  rw [C48_occupancy3_partial.1 _ _ one_ne_zero (by simp [onePoint]) (fun p _ => ⟨1 / 2, rfl, h⟩), onePoint_mean]
  unfold properScore
  simp only [if_pos h]

/-! ### C49 -/

theorem pointCost_lost {tiny : ℝ} (ht : 0 < tiny) {a b : Fl ℝ} (h : Lost a b) : 0 ≤ pointCost tiny a ∧ pointCost tiny a ≤ 1 ∧ pointCost tiny b = 1 := by
  obtain ⟨⟨s, rfl, h1, h2⟩, hb⟩ := h
  have hb' : properScore tiny b = 0 := by
    rcases hb with rfl | hb
    · unfold properScore
      simp only [abs_zero, if_neg (not_le.2 ht)]
    · match b with
      | .nan => rfl
      | .inf _ => rfl
      | .fin y => exact absurd rfl (hb y)
  rw [pointCost_eq, pointCost_eq, hb']
  have : 0 ≤ properScore tiny (.fin s) ∧ properScore tiny (.fin s) ≤ 1 := by
    unfold properScore
    simp only
    split_ifs <;> constructor <;> linarith
  refine ⟨?_, ?_, ?_⟩ <;> linarith

theorem sum_le_of {α : Type} (f g : α → ℝ) : ∀ l : List α, (∀ a ∈ l, f a ≤ g a) → (l.map f).sum ≤ (l.map g).sum
  | [], _ => le_refl _
  | a :: l, h => by
    rw [List.map_cons, List.sum_cons, List.map_cons, List.sum_cons]
    exact add_le_add (h a (List.mem_cons_self ..)) (sum_le_of f g l fun b hb => h b (List.mem_cons_of_mem _ hb))

theorem sumCost_lost {n d : Nat} (F : Functor n d) (s' : (Fin d → ℝ) → Fl ℝ) (x : Fin n → ℝ) (ht : 0 < F.tiny)
    (h : ∀ p ∈ F.points, s' (F.act x p) = F.sample (F.act x p) ∨ Lost (F.sample (F.act x p)) (s' (F.act x p))) :
    F.sumCost (pointCost F.tiny) x ≤ ({ F with sample := s' } : Functor n d).sumCost (pointCost F.tiny) x := by
  unfold Functor.sumCost
  rw [foldl_add_eq, foldl_add_eq]
  refine add_le_add (le_refl _) (sum_le_of _ _ _ fun p hp => ?_)
  show pointCost F.tiny (F.sample (F.act x p)) ≤ pointCost F.tiny (s' (F.act x p))
  rcases h p hp with h | h
  · rw [h]
  · obtain ⟨_, h1, h2⟩ := pointCost_lost ht h
    linarith

theorem weighted_mono {n d : Nat} (F : Functor n d) (s' : (Fin d → ℝ) → Fl ℝ) (hw : 0 ≤ F.mapW) {a b : ℝ} (h : a ≤ b) (t r : ℝ) :
    F.weighted a t r ≤ ({ F with sample := s' } : Functor n d).weighted b t r := by
  unfold Functor.weighted
  have : F.mapW * a / (F.points.length : ℝ) ≤ F.mapW * b / (F.points.length : ℝ) := div_le_div_of_nonneg_right (mul_le_mul_of_nonneg_left h hw) (Nat.cast_nonneg _)
  show F.mapW * a / (F.points.length : ℝ) + F.transW * t + F.rotW * |r| ≤ F.mapW * b / (F.points.length : ℝ) + F.transW * t + F.rotW * |r|
  linarith

/-- **C49** With nlopt, except for 3D occupancy maps: if some points of the scan lose their support in the map (their proper score is replaced by 0 or by a non-finite value), the function value at the same pose does not get smaller. -/
theorem C49_nlopt :
    (∀ (F : Functor 3 2) (s' : (Fin 2 → ℝ) → Fl ℝ) (x : Fin 3 → ℝ), 0 < F.tiny → 0 ≤ F.mapW →
      (∀ p ∈ F.points, s' (F.act x p) = F.sample (F.act x p) ∨ Lost (F.sample (F.act x p)) (s' (F.act x p))) →
      F.nlopt2 x ≤ ({ F with sample := s' } : Functor 3 2).nlopt2 x ∧ F.nloptOcc2 x ≤ ({ F with sample := s' } : Functor 3 2).nloptOcc2 x) ∧
    (∀ (F : Functor 6 3) (s' : (Fin 3 → ℝ) → Fl ℝ) (x : Fin 6 → ℝ), 0 < F.tiny → 0 ≤ F.mapW →
      (∀ p ∈ F.points, s' (F.act x p) = F.sample (F.act x p) ∨ Lost (F.sample (F.act x p)) (s' (F.act x p))) →
      F.nloptRPY x ≤ ({ F with sample := s' } : Functor 6 3).nloptRPY x) ∧
    (∀ (roll pitch yaw : Quat → ℝ) (F : Functor 7 3) (s' : (Fin 3 → ℝ) → Fl ℝ) (x : Fin 7 → ℝ), 0 < F.tiny → 0 ≤ F.mapW →
      (∀ p ∈ F.points, s' (F.act x p) = F.sample (F.act x p) ∨ Lost (F.sample (F.act x p)) (s' (F.act x p))) →
      F.nloptQuat roll pitch yaw x ≤ ({ F with sample := s' } : Functor 7 3).nloptQuat roll pitch yaw x) := by
  refine ⟨fun F s' x ht hw h => ⟨?_, ?_⟩, fun F s' x ht hw h => ?_, fun roll pitch yaw F s' x ht hw h => ?_⟩
  · exact weighted_mono F s' hw (sumCost_lost F s' x ht h) _ _
  · unfold Functor.nloptOcc2
    simp only
    rw [foldl_add_eq, foldl_add_eq]
    have := sum_le_of (fun p => 1 / 2 * F.mapW * (pointCost F.tiny (F.sample (F.act x p)) / (F.points.length : ℝ) * (pointCost F.tiny (F.sample (F.act x p)) / (F.points.length : ℝ))))
      (fun p => 1 / 2 * F.mapW * (pointCost F.tiny (s' (F.act x p)) / (F.points.length : ℝ) * (pointCost F.tiny (s' (F.act x p)) / (F.points.length : ℝ)))) F.points (by
        intro p hp
        rcases h p hp with h | h
        · rw [h]
        · obtain ⟨h0, h1, h2⟩ := pointCost_lost ht h
          rw [h2]
          have hd : pointCost F.tiny (F.sample (F.act x p)) / (F.points.length : ℝ) ≤ 1 / (F.points.length : ℝ) := div_le_div_of_nonneg_right h1 (Nat.cast_nonneg _)
          have hd0 : 0 ≤ pointCost F.tiny (F.sample (F.act x p)) / (F.points.length : ℝ) := div_nonneg h0 (Nat.cast_nonneg _)
          exact mul_le_mul_of_nonneg_left (mul_le_mul hd hd hd0 (hd0.trans hd)) (by linarith))
    show _ ≤ 1 / 2 * (0 + _ + F.transW * _ + F.rotW * (F.rot2 x * F.rot2 x))
    linarith
  · exact weighted_mono F s' hw (sumCost_lost F s' x ht h) _ _
  · exact weighted_mono F s' hw (sumCost_lost F s' x ht h) _ _

/-- the sum of squares which alglib minimises -/
def Spec.sumSq (l : List ℝ) : ℝ := (l.map (· ^ 2)).sum

theorem alglib_lost {n d : Nat} (F : Functor n d) (s' : (Fin d → ℝ) → Fl ℝ) (x : Fin n → ℝ) (ht : 0 < F.tiny)
    (h : ∀ p ∈ F.points, s' (F.act x p) = F.sample (F.act x p) ∨ Lost (F.sample (F.act x p)) (s' (F.act x p))) (rest : List ℝ) :
    sumSq (F.alglibPoints x ++ rest) ≤ sumSq (({ F with sample := s' } : Functor n d).alglibPoints x ++ rest) := by
  unfold sumSq
  rw [List.map_append, List.sum_append, List.map_append, List.sum_append]
  refine add_le_add ?_ (le_refl _)
  unfold Functor.alglibPoints
  rw [List.map_map, List.map_map]
  refine sum_le_of _ _ _ fun p hp => ?_
  show (F.mapW * pointCost F.tiny (F.sample (F.act x p)) / (F.points.length : ℝ)) ^ 2 ≤ (F.mapW * pointCost F.tiny (s' (F.act x p)) / (F.points.length : ℝ)) ^ 2
  rcases h p hp with h | h
  · rw [h]
  · obtain ⟨h0, h1, h2⟩ := pointCost_lost ht h
    rw [h2]
    have e : ∀ c : ℝ, (F.mapW * c / (F.points.length : ℝ)) ^ 2 = (F.mapW / (F.points.length : ℝ)) ^ 2 * c ^ 2 := fun c => by ring
    rw [e, e]
    refine mul_le_mul_of_nonneg_left ?_ (sq_nonneg _)
    nlinarith

/-- **C49** With alglib, for all maps: the sum of squares does not get smaller. -/
theorem C49_alglib :
    (∀ (F : Functor 3 2) (s' : (Fin 2 → ℝ) → Fl ℝ) (x : Fin 3 → ℝ), 0 < F.tiny →
      (∀ p ∈ F.points, s' (F.act x p) = F.sample (F.act x p) ∨ Lost (F.sample (F.act x p)) (s' (F.act x p))) → sumSq (F.alglib2 x) ≤ sumSq (({ F with sample := s' } : Functor 3 2).alglib2 x)) ∧
    (∀ (F : Functor 6 3) (s' : (Fin 3 → ℝ) → Fl ℝ) (x : Fin 6 → ℝ), 0 < F.tiny →
      (∀ p ∈ F.points, s' (F.act x p) = F.sample (F.act x p) ∨ Lost (F.sample (F.act x p)) (s' (F.act x p))) → sumSq (F.alglibRPY x) ≤ sumSq (({ F with sample := s' } : Functor 6 3).alglibRPY x)) ∧
    (∀ (F : Functor 7 3) (s' : (Fin 3 → ℝ) → Fl ℝ) (x : Fin 7 → ℝ), 0 < F.tiny →
      (∀ p ∈ F.points, s' (F.act x p) = F.sample (F.act x p) ∨ Lost (F.sample (F.act x p)) (s' (F.act x p))) → sumSq (F.alglibQuat x) ≤ sumSq (({ F with sample := s' } : Functor 7 3).alglibQuat x)) :=
  ⟨fun F s' x ht h => alglib_lost F s' x ht h _, fun F s' x ht h => alglib_lost F s' x ht h _, fun F s' x ht h => alglib_lost F s' x ht h _⟩

/-- the hypotheses are met by a point that moves from score 1/2 to NaN -/
example : (onePoint 3 2 (.fin (1 / 2))).nlopt2 0 ≤ (onePoint 3 2 .nan).nlopt2 0 :=
  (C49_nlopt.1 (onePoint 3 2 (.fin (1 / 2))) (fun _ => .nan) 0 (by norm_num [onePoint]) (by norm_num [onePoint])
    (fun _ _ => Or.inr ⟨⟨1 / 2, rfl, by norm_num, by norm_num⟩, Or.inr fun y => by simp⟩)).1

/-- **C49** is false of 3D occupancy maps with nlopt: losing the only point lowers the cost from 1/2 to 0, whatever its proper score below 1. -/
theorem C49_occupancy3_refuted (roll pitch yaw : Quat → ℝ) :
    Lost (.fin (1 / 2)) .nan ∧ (onePoint 6 3 .nan).nloptOccRPY 0 < (onePoint 6 3 (.fin (1 / 2))).nloptOccRPY 0 ∧
    (onePoint 7 3 .nan).nloptOccQuat roll pitch yaw 0 < (onePoint 7 3 (.fin (1 / 2))).nloptOccQuat roll pitch yaw 0 := by
  have h : (1 / 1024 : ℝ) ≤ |1 / 2| := by rw [abs_of_pos] <;> norm_num
  have e : ∀ n d, (onePoint n d .nan).sumCost (pointCostSkip (onePoint n d .nan).tiny) 0 = 0 := by
    intro n d
    show (0 : ℝ) + pointCostSkip _ .nan = 0
    simp [pointCostSkip, Fl.isNormal]
  have e' : ∀ n d, (onePoint n d (.fin (1 / 2))).sumCost (pointCostSkip (onePoint n d (.fin (1 / 2))).tiny) 0 = 1 / 2 := by
    intro n d
    show (0 : ℝ) + pointCostSkip (1 / 1024) (.fin (1 / 2)) = 1 / 2
    unfold pointCostSkip
    rw [if_pos (by simpa [Fl.isNormal] using h)]
    norm_num [value]
  refine ⟨⟨⟨1 / 2, rfl, by norm_num, by norm_num⟩, Or.inr fun y => by simp⟩, ?_, ?_⟩
  · unfold Functor.nloptOccRPY Functor.weighted
    rw [e, e']
    norm_num [onePoint]
  · unfold Functor.nloptOccQuat Functor.weighted
    rw [e, e']
    norm_num [onePoint]

end Ndt
