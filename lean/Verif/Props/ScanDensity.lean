import Verif.Props.Optimum
import Verif.Props.Trust
import Verif.Props.MatchFrame

/-! Property theorem C127: the balance between the map and the prior does not depend on how densely the same surroundings were scanned. -/

namespace Ndt

open Real Matching Spec

/-- The same points in the same proportions: `a` copies of the one scan are `b` copies of the other, in any order. -/
def Spec.SameProportions {α : Type} (l l' : List α) : Prop := ∃ a b : Nat, 0 < a ∧ 0 < b ∧ a • (l : Multiset α) = b • (l' : Multiset α)

section
variable {α : Type} {l l' : List α}

theorem Spec.SameProportions.mem (h : SameProportions l l') (p : α) : p ∈ l' ↔ p ∈ l := by
  obtain ⟨a, b, ha, hb, h⟩ := h
  have := congrArg (fun s => p ∈ s) h
  simp only [Multiset.mem_nsmul, Multiset.mem_coe, eq_iff_iff] at this
  constructor
  · exact fun hp => (this.2 ⟨hb.ne', hp⟩).2
  · exact fun hp => (this.1 ⟨ha.ne', hp⟩).2

theorem Spec.SameProportions.sums (h : SameProportions l l') : ∃ a b : ℝ, 0 < a ∧ 0 < b ∧ a * l.length = b * l'.length ∧ ∀ f : α → ℝ, a * (l.map f).sum = b * (l'.map f).sum := by
  obtain ⟨a, b, ha, hb, h⟩ := h
  refine ⟨a, b, by exact_mod_cast ha, by exact_mod_cast hb, ?_, fun f => ?_⟩
  · have := congrArg Multiset.card h
    rw [Multiset.card_nsmul, Multiset.card_nsmul, Multiset.coe_card, Multiset.coe_card] at this
    exact_mod_cast this
  · have := congrArg (fun s => (s.map f).sum) h
    simpa [Multiset.map_nsmul, Multiset.sum_nsmul, nsmul_eq_mul] using this

theorem Spec.SameProportions.mean_eq (h : SameProportions l l') (f : α → ℝ) : mean (l'.map f) = mean (l.map f) := by
  obtain ⟨a, b, ha, hb, hn, hs⟩ := h.sums
  unfold mean
  rw [List.length_map, List.length_map]
  rw [← mul_div_mul_left (l'.map f).sum _ hb.ne', ← mul_div_mul_left (l.map f).sum _ ha.ne', hn, hs]

theorem sameProportions_copies (k : Nat) (hk : 0 < k) (l : List α) : SameProportions l (List.replicate k l).flatten := by
  refine ⟨k, 1, hk, one_pos, ?_⟩
  rw [one_smul]
  clear hk
  induction k with
  | zero => simp
  | succ k ih =>
    rw [List.replicate_succ, List.flatten_cons, ← Multiset.coe_add, ← ih, succ_nsmul, add_comm]

theorem sameProportions_perm (h : l.Perm l') : SameProportions l l' := ⟨1, 1, one_pos, one_pos, by rw [one_smul, one_smul]; exact Multiset.coe_eq_coe.2 h⟩

end

/-- **C127** (ceres). Scans with the same points in the same proportions give the same cost at every pose, with Euler angles in 2D and 3D and with quaternions of norm 1. -/
theorem C127_ceres :
    (∀ (tw rw' mw : ℝ) (prior : Fin 2 → ℝ) (priorR : ℝ) (numeric : Bool) (S : ScanTerm 2) (points : List (Fin 2 → ℝ)) (t : Fin 2 → ℝ) (r : Fin 1 → ℝ) (v : (Fin 2 → ℝ) → ℝ), SameProportions S.points points →
      (∀ p ∈ S.points, S.evaluateDouble (moved2 t (r 0) p) = .fin (v p) ∧ S.evaluateJet (moved2 t (r 0) p) = .fin (v p)) →
      (problem2d tw rw' mw prior priorR numeric { S with points := points }).cost t r = (problem2d tw rw' mw prior priorR numeric S).cost t r) ∧
    (∀ (tw rw' mw : ℝ) (prior priorR : Fin 3 → ℝ) (onlyYaw numeric : Bool) (S : ScanTerm 3) (points : List (Fin 3 → ℝ)) (t r : Fin 3 → ℝ) (v : (Fin 3 → ℝ) → ℝ), SameProportions S.points points →
      (∀ p ∈ S.points, S.evaluateDouble (movedRPY t r p) = .fin (v p) ∧ S.evaluateJet (movedRPY t r p) = .fin (v p)) →
      (problem3dRPY tw rw' mw prior priorR onlyYaw numeric { S with points := points }).cost t r = (problem3dRPY tw rw' mw prior priorR onlyYaw numeric S).cost t r) ∧
    (∀ (tw rw' mw : ℝ) (prior : Fin 3 → ℝ) (priorR : Quat) (onlyYaw numeric : Bool) (S : ScanTerm 3) (points : List (Fin 3 → ℝ)) (t : Fin 3 → ℝ) (q : Quat) (v : (Fin 3 → ℝ) → ℝ), SameProportions S.points points →
      quatNormSq priorR = 1 → quatNormSq q = 1 → (∀ p ∈ S.points, S.evaluateDouble (moved3 t q p) = .fin (v p) ∧ S.evaluateJet (moved3 t q p) = .fin (v p)) →
      (problem3dQuaternion tw rw' mw prior priorR onlyYaw numeric { S with points := points }).cost t q = (problem3dQuaternion tw rw' mw prior priorR onlyYaw numeric S).cost t q) := by
  refine ⟨?_, ?_, ?_⟩
  · intro tw rw' mw prior priorR numeric S points t r v h hv
    obtain ⟨e, h1, h2, h3⟩ := C75_cost_2d tw rw' mw prior priorR numeric S t r v fun _ => hv
    obtain ⟨e', h1', h2', h3'⟩ := C75_cost_2d tw rw' mw prior priorR numeric { S with points := points } t r v fun _ p hp => hv p ((h.mem p).1 hp)
    rw [h3, h3', h.mean_eq, sq_eq_of_sameAngle h1' h1 (h2'.trans h2.symm)]
  · intro tw rw' mw prior priorR onlyYaw numeric S points t r v h hv
    obtain ⟨e, h1, h3⟩ := C75_cost_rpy tw rw' mw prior priorR onlyYaw numeric S t r v fun _ => hv
    obtain ⟨e', h1', h3'⟩ := C75_cost_rpy tw rw' mw prior priorR onlyYaw numeric { S with points := points } t r v fun _ p hp => hv p ((h.mem p).1 hp)
    rw [h3, h3', h.mean_eq, Finset.sum_congr rfl fun i _ => sq_eq_of_sameAngle (h1' i).1 (h1 i).1 ((h1' i).2.trans (h1 i).2.symm)]
  · intro tw rw' mw prior priorR onlyYaw numeric S points t q v h hp hq hv
    rw [C75_cost_quaternion_partial tw rw' mw prior priorR onlyYaw numeric S t q v hp hq fun _ => hv,
      C75_cost_quaternion_partial tw rw' mw prior priorR onlyYaw numeric { S with points := points } t q v hp hq fun _ p hp => hv p ((h.mem p).1 hp), h.mean_eq]

theorem sumCost_proportions {n d : Nat} (F : Functor n d) (points : List (Fin d → ℝ)) (h : SameProportions F.points points) (cost : Fl ℝ → ℝ) (x : Fin n → ℝ) :
    ({ F with points := points } : Functor n d).sumCost cost x / (points.length : ℝ) = F.sumCost cost x / (F.points.length : ℝ) := by
  have := h.mean_eq fun p => cost (F.sample (F.act x p))
  unfold mean at this
  rw [List.length_map, List.length_map] at this
  unfold Functor.sumCost
  rw [foldl_add_eq, foldl_add_eq, zero_add, zero_add]
  exact this

/-- **C127** (nlopt). The same for nlopt: on 2D NDT maps, and on 3D NDT and occupancy maps with Euler angles and with quaternions. -/
theorem C127_nlopt :
    (∀ (F : Functor 3 2) (points : List (Fin 2 → ℝ)) (x : Fin 3 → ℝ), SameProportions F.points points → ({ F with points := points } : Functor 3 2).nlopt2 x = F.nlopt2 x) ∧
    (∀ (F : Functor 6 3) (points : List (Fin 3 → ℝ)) (x : Fin 6 → ℝ), SameProportions F.points points →
      ({ F with points := points } : Functor 6 3).nloptRPY x = F.nloptRPY x ∧ ({ F with points := points } : Functor 6 3).nloptOccRPY x = F.nloptOccRPY x) ∧
    (∀ (roll pitch yaw : Quat → ℝ) (F : Functor 7 3) (points : List (Fin 3 → ℝ)) (x : Fin 7 → ℝ), SameProportions F.points points →
      ({ F with points := points } : Functor 7 3).nloptQuat roll pitch yaw x = F.nloptQuat roll pitch yaw x ∧ ({ F with points := points } : Functor 7 3).nloptOccQuat roll pitch yaw x = F.nloptOccQuat roll pitch yaw x) := by
  have key : ∀ {n d : Nat} (F : Functor n d) (points : List (Fin d → ℝ)) (h : SameProportions F.points points) (cost : Fl ℝ → ℝ) (x : Fin n → ℝ) (t r : ℝ),
      ({ F with points := points } : Functor n d).weighted (({ F with points := points } : Functor n d).sumCost cost x) t r = F.weighted (F.sumCost cost x) t r := by
    intro n d F points h cost x t r
    unfold Functor.weighted
    rw [mul_div_assoc, mul_div_assoc, sumCost_proportions F points h]
  exact ⟨fun F points x h => key F points h _ x _ _, fun F points x h => ⟨key F points h _ x _ _, key F points h _ x _ _⟩, fun roll pitch yaw F points x h => ⟨key F points h _ x _ _, key F points h _ x _ _⟩⟩

/-- the sum of squares of the residuals of the points, times the number of points, depends on the proportions only -/
theorem alglibPoints_proportions {n d : Nat} (F : Functor n d) (points : List (Fin d → ℝ)) (h : SameProportions F.points points) (hp : F.points ≠ []) (x : Fin n → ℝ) :
    (points.length : ℝ) * sumSq (({ F with points := points } : Functor n d).alglibPoints x) = (F.points.length : ℝ) * sumSq (F.alglibPoints x) := by
  have e : ∀ l : List (Fin d → ℝ), l ≠ [] → (l.length : ℝ) * ((l.map fun p => F.mapW * pointCost F.tiny (F.sample (F.act x p)) / (l.length : ℝ)).map (· ^ 2)).sum =
      F.mapW ^ 2 * mean (l.map fun p => pointCost F.tiny (F.sample (F.act x p)) ^ 2) := by
    intro l hl
    have hN : (l.length : ℝ) ≠ 0 := Nat.cast_ne_zero.2 fun h => hl (List.length_eq_zero_iff.1 h)
    rw [List.map_map, show ((· ^ 2) ∘ fun p => F.mapW * pointCost F.tiny (F.sample (F.act x p)) / (l.length : ℝ)) = fun p => (F.mapW ^ 2 / (l.length : ℝ) ^ 2) * pointCost F.tiny (F.sample (F.act x p)) ^ 2 by
      funext p; simp only [Function.comp]; ring, List.sum_map_mul_left]
    unfold mean
    rw [List.length_map]
    field_simp
  have hp' : points ≠ [] := by
    obtain ⟨p, hpm⟩ := List.exists_mem_of_ne_nil _ hp
    exact List.ne_nil_of_mem ((h.mem p).2 hpm)
  unfold sumSq Functor.alglibPoints
  rw [e F.points hp]
  exact (e points hp').trans (by rw [h.mean_eq])

/-- **C127** (alglib, partial). The weight of the points against the priors is inversely proportional to the number of points: for scans with the same points in the same proportions, the part of the cost that belongs to the points, times the
number of points, is the same, and so are the part that belongs to the priors and the reported score. (Missing: the cost itself, see `C127_alglib_refuted`.) -/
theorem C127_alglib_partial :
    (∀ (F : Functor 3 2) (points : List (Fin 2 → ℝ)) (x : Fin 3 → ℝ), SameProportions F.points points → F.points ≠ [] →
      ∃ c prior : ℝ, sumSq (F.alglib2 x) = c / (F.points.length : ℝ) + prior ∧ sumSq (({ F with points := points } : Functor 3 2).alglib2 x) = c / (points.length : ℝ) + prior ∧
        (F.mapW ≠ 0 → ({ F with points := points } : Functor 3 2).alglibScore (({ F with points := points } : Functor 3 2).alglib2 x) = F.alglibScore (F.alglib2 x))) ∧
    (∀ (F : Functor 6 3) (points : List (Fin 3 → ℝ)) (x : Fin 6 → ℝ), SameProportions F.points points → F.points ≠ [] →
      ∃ c prior : ℝ, sumSq (F.alglibRPY x) = c / (F.points.length : ℝ) + prior ∧ sumSq (({ F with points := points } : Functor 6 3).alglibRPY x) = c / (points.length : ℝ) + prior ∧
        (F.mapW ≠ 0 → ({ F with points := points } : Functor 6 3).alglibScore (({ F with points := points } : Functor 6 3).alglibRPY x) = F.alglibScore (F.alglibRPY x))) ∧
    (∀ (F : Functor 7 3) (points : List (Fin 3 → ℝ)) (x : Fin 7 → ℝ), SameProportions F.points points → F.points ≠ [] →
      ∃ c prior : ℝ, sumSq (F.alglibQuat x) = c / (F.points.length : ℝ) + prior ∧ sumSq (({ F with points := points } : Functor 7 3).alglibQuat x) = c / (points.length : ℝ) + prior ∧
        (F.mapW ≠ 0 → ({ F with points := points } : Functor 7 3).alglibScore (({ F with points := points } : Functor 7 3).alglibQuat x) = F.alglibScore (F.alglibQuat x))) := by
  have key : ∀ {n d : Nat} (F : Functor n d) (points : List (Fin d → ℝ)) (x : Fin n → ℝ) (rest : List ℝ), SameProportions F.points points → F.points ≠ [] →
      ∃ c prior : ℝ, sumSq (F.alglibPoints x ++ rest) = c / (F.points.length : ℝ) + prior ∧ sumSq (({ F with points := points } : Functor n d).alglibPoints x ++ rest) = c / (points.length : ℝ) + prior ∧
        (F.mapW ≠ 0 → ({ F with points := points } : Functor n d).alglibScore (({ F with points := points } : Functor n d).alglibPoints x ++ rest) = F.alglibScore (F.alglibPoints x ++ rest)) := by
    intro n d F points x rest h hp
    have hp' : points ≠ [] := by
      obtain ⟨p, hpm⟩ := List.exists_mem_of_ne_nil _ hp
      exact List.ne_nil_of_mem ((h.mem p).2 hpm)
    have hN : (F.points.length : ℝ) ≠ 0 := Nat.cast_ne_zero.2 fun h => hp (List.length_eq_zero_iff.1 h)
    have hN' : (points.length : ℝ) ≠ 0 := Nat.cast_ne_zero.2 fun h => hp' (List.length_eq_zero_iff.1 h)
    refine ⟨(F.points.length : ℝ) * sumSq (F.alglibPoints x), sumSq rest, ?_, ?_, fun hm => ?_⟩
    · rw [sumSq_append, mul_div_cancel_left₀ _ hN]
    · rw [sumSq_append, ← alglibPoints_proportions F points h hp x, mul_div_cancel_left₀ _ hN']
    · rw [alglibScore_eq F hm hp, alglibScore_eq ({ F with points := points } : Functor n d) hm hp']
      exact h.mean_eq _
  exact ⟨fun F points x h hp => key F points x _ h hp, fun F points x h hp => key F points x _ h hp, fun F points x h hp => key F points x _ h hp⟩

/-- a map with one place that fits, one step away from the guess; `n` copies of one point -/
noncomputable def oneStep (transW : ℝ) (n : Nat) : Functor 3 2 where
  points := List.replicate n 0
  sample := fun q => .fin (if q 0 = 1 then 1 else 0)
  act := fun x p i => p i + (if i = 0 then x 0 else x 1)
  dif := angleDifference
  guess := 0
  transW := transW
  rotW := 1
  mapW := 1
  tiny := 1 / 1024

theorem oneStep_cost (w : ℝ) (n : Nat) : pointCost (1 / 1024) ((oneStep w n).sample ((oneStep w n).act ![1, 0, 0] 0)) = 0 ∧ pointCost (1 / 1024) ((oneStep w n).sample ((oneStep w n).act 0 0)) = 1 := by
  constructor
  · norm_num [oneStep, pointCost, Fl.isNormal, value]
  · norm_num [oneStep, pointCost, Fl.isNormal, value]

theorem oneStep_met (w : ℝ) (n : Nat) : UnitScores (oneStep w n) ∧ AngleDif (oneStep w n).dif := by
  refine ⟨fun q s h => ?_, angleDif_model⟩
  have h : Fl.fin (if q 0 = 1 then (1 : ℝ) else 0) = .fin s := h
  rw [Fl.fin.injEq] at h
  rw [← h]
  split <;> norm_num

theorem oneStep_dif (w : ℝ) (n : Nat) : (oneStep w n).dif 0 0 = 0 := (angleDif_model 0 0).2 (sameAngle_refl 0)

theorem oneStep_alglib (w : ℝ) (n : Nat) (hn : 0 < n) : sumSq ((oneStep w n).alglib2 ![1, 0, 0]) = w ^ 2 ∧ sumSq ((oneStep w n).alglib2 0) = 1 / n := by
  have hN : (n : ℝ) ≠ 0 := Nat.cast_ne_zero.2 hn.ne'
  have hd : ((oneStep w n).dif 0 0) = 0 := oneStep_dif w n
  obtain ⟨h1, h2⟩ := oneStep_cost w n
  constructor
  · unfold Functor.alglib2
    rw [sumSq_append]
    unfold Functor.alglibPoints
    rw [show (oneStep w n).points = List.replicate n 0 from rfl, List.map_replicate, show (oneStep w n).tiny = 1 / 1024 from rfl, h1]
    rw [show (![1, 0, 0] : Fin 3 → ℝ) 2 = 0 from rfl, show (oneStep w n).guess 2 = 0 from rfl, hd]
    simp [sumSq, oneStep]
  · unfold Functor.alglib2
    rw [sumSq_append]
    unfold Functor.alglibPoints
    rw [show (oneStep w n).points = List.replicate n 0 from rfl, List.map_replicate, show (oneStep w n).tiny = 1 / 1024 from rfl, h2]
    rw [show (0 : Fin 3 → ℝ) 2 = 0 from rfl, show (oneStep w n).guess 2 = 0 from rfl, hd]
    simp [sumSq, oneStep]
    field_simp

theorem oneStep_occupancy (w : ℝ) (n : Nat) (hn : 0 < n) : (oneStep w n).nloptOcc2 ![1, 0, 0] = w / 2 ∧ (oneStep w n).nloptOcc2 0 = 1 / (4 * n) := by
  have hN : (n : ℝ) ≠ 0 := Nat.cast_ne_zero.2 hn.ne'
  have hd : ((oneStep w n).dif 0 0) = 0 := oneStep_dif w n
  obtain ⟨h1, h2⟩ := oneStep_cost w n
  constructor
  · have hr : (oneStep w n).rot2 ![1, 0, 0] = 0 := hd
    unfold Functor.nloptOcc2
    simp only []
    rw [hr, foldl_add_eq, show (oneStep w n).points = List.replicate n 0 from rfl, List.map_replicate, show (oneStep w n).tiny = 1 / 1024 from rfl, h1]
    simp [oneStep]
    ring
  · have hr : (oneStep w n).rot2 0 = 0 := hd
    unfold Functor.nloptOcc2
    simp only []
    rw [hr, foldl_add_eq, show (oneStep w n).points = List.replicate n 0 from rfl, List.map_replicate, show (oneStep w n).tiny = 1 / 1024 from rfl, h2]
    simp [oneStep]
    field_simp
    norm_num

theorem oneStep_twice (w : ℝ) : SameProportions (oneStep w 1).points (oneStep w 2).points := sameProportions_copies 2 (by norm_num) [0]

/-- **C127** (refuted for alglib and for nlopt on 2D occupancy maps). There are a problem and two poses such that the one pose is better than the other with a scan of one point, and worse with a scan that has this point twice. -/
theorem C127_alglib_refuted :
    (∃ (F : Functor 3 2) (points : List (Fin 2 → ℝ)) (x y : Fin 3 → ℝ), SameProportions F.points points ∧ F.points ≠ [] ∧ UnitScores F ∧ AngleDif F.dif ∧
      sumSq (F.alglib2 x) < sumSq (F.alglib2 y) ∧ sumSq (({ F with points := points } : Functor 3 2).alglib2 y) < sumSq (({ F with points := points } : Functor 3 2).alglib2 x)) ∧
    (∃ (F : Functor 3 2) (points : List (Fin 2 → ℝ)) (x y : Fin 3 → ℝ), SameProportions F.points points ∧ F.points ≠ [] ∧ UnitScores F ∧ AngleDif F.dif ∧
      F.nloptOcc2 x < F.nloptOcc2 y ∧ ({ F with points := points } : Functor 3 2).nloptOcc2 y < ({ F with points := points } : Functor 3 2).nloptOcc2 x) := by
  constructor
  · refine ⟨oneStep (4 / 5) 1, (oneStep (4 / 5) 2).points, ![1, 0, 0], 0, oneStep_twice _, by simp [oneStep], (oneStep_met _ _).1, (oneStep_met _ _).2, ?_, ?_⟩
    · rw [(oneStep_alglib _ 1 one_pos).1, (oneStep_alglib _ 1 one_pos).2]; norm_num
    · show sumSq ((oneStep (4 / 5) 2).alglib2 0) < sumSq ((oneStep (4 / 5) 2).alglib2 ![1, 0, 0])
      rw [(oneStep_alglib _ 2 two_pos).1, (oneStep_alglib _ 2 two_pos).2]; norm_num
  · refine ⟨oneStep (2 / 5) 1, (oneStep (2 / 5) 2).points, ![1, 0, 0], 0, oneStep_twice _, by simp [oneStep], (oneStep_met _ _).1, (oneStep_met _ _).2, ?_, ?_⟩
    · rw [(oneStep_occupancy _ 1 one_pos).1, (oneStep_occupancy _ 1 one_pos).2]; norm_num
    · show (oneStep (2 / 5) 2).nloptOcc2 0 < (oneStep (2 / 5) 2).nloptOcc2 ![1, 0, 0]
      rw [(oneStep_occupancy _ 2 two_pos).1, (oneStep_occupancy _ 2 two_pos).2]; norm_num

/-- the hypotheses can be met: a scan of two points and the same scan recorded three times, in any order -/
example (p q : Fin 2 → ℝ) : SameProportions [p, q] [p, q, p, q, p, q] ∧ SameProportions [p, q, q] [q, p, q] :=
  ⟨sameProportions_copies 3 (by norm_num) [p, q], sameProportions_perm (List.Perm.swap q p [q])⟩

/-- a problem of ceres with a scan of two points, one of which fits, and the scan that has both points three times -/
example (numeric : Bool) : ∃ S : ScanTerm 2, S.points = [![0, 0], ![4, 0]] ∧ (∃ p ∈ S.points, ∃ q ∈ S.points, S.evaluateDouble p ≠ S.evaluateDouble q) ∧
    ∀ (t : Fin 2 → ℝ) (r : Fin 1 → ℝ), (problem2d 1 1 2 ![0, 0] 0 numeric { S with points := (List.replicate 3 S.points).flatten }).cost t r = (problem2d 1 1 2 ![0, 0] 0 numeric S).cost t r := by
  refine ⟨⟨[![0, 0], ![4, 0]], fun p => .fin (p 0), fun p => .fin (p 0)⟩, rfl, ⟨![0, 0], by simp, ![4, 0], by simp, by simp⟩, fun t r => ?_⟩
  exact C127_ceres.1 1 1 2 ![0, 0] 0 numeric _ _ t r (fun p => moved2 t (r 0) p 0) (sameProportions_copies 3 (by norm_num) _) fun p _ => ⟨rfl, rfl⟩

/-- the relation is not met by scans with other proportions -/
example : ¬ SameProportions [(0 : Nat), 1] [0, 0, 1] := by
  intro h
  have := h.mean_eq fun n => (n : ℝ)
  norm_num [mean] at this

end Ndt
